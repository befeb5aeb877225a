import Verif.Ops.PropagatorModel
import Mathlib.Tactic.Ring
import Mathlib.Tactic.Linarith

/-
Properties of the exponent of propagators: C30.
-/

namespace QDng.Ops

open QDng.Common

/-! ### Specification -/

/-- Calls a user can make. -/
inductive PCall where
  | clock (dt : ℝ)
  | forward
  | backward
  | conj (c : Bool)
  | imaginary
  | real

/-- What the user has asked for: the direction, the time mode and the time step, if a clock was given. -/
structure Wish where
  forward : Bool
  imaginary : Bool
  dt : Option ℝ

/-- Nothing asked for yet: forward in real time. -/
def Wish.start : Wish := { forward := true, imaginary := false, dt := none }

/-- A call; direction and mode need a clock. -/
def Wish.step (w : Wish) : PCall → Wish
  | .clock dt => { w with dt := some dt }
  | .forward => if w.dt.isSome then { w with forward := true } else w
  | .backward => if w.dt.isSome then { w with forward := false } else w
  | .conj c => if w.dt.isSome then { w with forward := !c } else w
  | .imaginary => { w with imaginary := true }
  | .real => { w with imaginary := false }

/-- The exponent by the documentation: `∓ i dt` in real time, `± dt` in imaginary time. -/
noncomputable def exponent (forward imaginary : Bool) (dt : ℝ) : ℂ :=
  match imaginary, forward with
  | false, true => -(Complex.I * dt)
  | false, false => Complex.I * dt
  | true, true => dt
  | true, false => -dt

/-- The time mode is set only after a clock was given. -/
def Legal : List PCall → Wish → Prop
  | [], _ => True
  | c :: cs, w => (match c with
      | .imaginary => w.dt.isSome
      | .real => w.dt.isSome
      | _ => True) ∧ Legal cs (w.step c)

/-- Dispatch of a call to the members of the propagator (src/qdlib/OPropagator.h:44-132). -/
noncomputable def Propagator.step (s : Propagator) : PCall → Out Propagator
  | .clock dt => .ok (s.setClock dt)
  | .forward => s.goForward
  | .backward => s.goBackward
  | .conj c => s.setConj c
  | .imaginary => s.imaginaryTime
  | .real => s.realTime

/-- A sequence of calls; the caller catches exceptions and goes on with the object as it is
(src/qdlib/OPropagator.h:44-132). -/
noncomputable def Propagator.run : List PCall → Propagator → Option Propagator
  | [], s => some s
  | c :: cs, s => match s.step c with
    | .ok s' => Propagator.run cs s'
    | .threw s' => Propagator.run cs s'
    | .ub => none

/-- The propagator is as wished. -/
structure Fulfils (s : Propagator) (w : Wish) : Prop where
  forward : s.forward = w.forward
  imaginary : s.imaginary = w.imaginary
  clock : s.hasClock = w.dt.isSome
  dt : ∀ x, w.dt = some x → s.dt = x
  c0 : ∀ x, w.dt = some x → s.c0 = exponent w.forward w.imaginary x
  none_ : w.dt = none → s.c0 = 0
  conj : s.conj = !w.forward

theorem forward_some {s : Propagator} {w : Wish} (h : Fulfils s w) {x : ℝ} (hx : w.dt = some x) :
    ∃ s', s.goForward = .ok s' ∧ Fulfils s' { w with forward := true } := by
  have hc : s.hasClock = true := by rw [h.clock, hx]; rfl
  refine ⟨{ s with
    c0 := if s.imaginary then (s.dt : ℂ) else (-1) * Complex.I * s.dt
    forward := true
    conj := false }, ?_, ⟨rfl, h.imaginary, h.clock, h.dt, ?_, ?_, rfl⟩⟩
  · unfold Propagator.goForward
    rw [hc]
    rfl
  · intro y hy
    dsimp only at hy ⊢
    rw [h.imaginary, h.dt y hy]
    cases w.imaginary <;> simp [exponent]
  · intro hy
    dsimp only at hy
    rw [hx] at hy
    simp at hy

theorem backward_some {s : Propagator} {w : Wish} (h : Fulfils s w) {x : ℝ} (hx : w.dt = some x) :
    ∃ s', s.goBackward = .ok s' ∧ Fulfils s' { w with forward := false } := by
  have hc : s.hasClock = true := by rw [h.clock, hx]; rfl
  refine ⟨{ s with
    c0 := if s.imaginary then -(s.dt : ℂ) else 1 * Complex.I * s.dt
    forward := false
    conj := true }, ?_, ⟨rfl, h.imaginary, h.clock, h.dt, ?_, ?_, rfl⟩⟩
  · unfold Propagator.goBackward
    rw [hc]
    rfl
  · intro y hy
    dsimp only at hy ⊢
    rw [h.imaginary, h.dt y hy]
    cases w.imaginary <;> simp [exponent]
  · intro hy
    dsimp only at hy
    rw [hx] at hy
    simp at hy

theorem no_clock {s : Propagator} {w : Wish} (h : Fulfils s w) (hx : w.dt = none) :
    s.goForward = .threw s ∧ s.goBackward = .threw s := by
  have hc : s.hasClock = false := by rw [h.clock, hx]; rfl
  constructor
  · unfold Propagator.goForward; rw [hc]; rfl
  · unfold Propagator.goBackward; rw [hc]; rfl

theorem fulfils_step {s : Propagator} {w : Wish} (h : Fulfils s w) (c : PCall)
    (hl : match c with
      | .imaginary => w.dt.isSome
      | .real => w.dt.isSome
      | _ => True) :
    ∃ s', (s.step c = .ok s' ∨ s.step c = .threw s') ∧ Fulfils s' (w.step c) := by
  cases c with
  | clock x =>
    refine ⟨_, Or.inl rfl, ⟨h.forward, h.imaginary, rfl, ?_, ?_, ?_, h.conj⟩⟩
    · intro y hy
      simp only [Wish.step, Option.some.injEq] at hy
      exact hy
    · intro y hy
      simp only [Wish.step, Option.some.injEq] at hy
      subst hy
      show (if s.imaginary then _ else _) = _
      rw [h.forward, h.imaginary]
      obtain ⟨f, i, dt⟩ := w
      cases f <;> cases i <;> simp [exponent, Wish.step, ← mul_assoc]
    · intro hy; simp [Wish.step] at hy
  | forward =>
    cases hx : w.dt with
    | none =>
      have e : w.step .forward = w := by simp [Wish.step, hx]
      exact ⟨s, Or.inr (no_clock h hx).1, by rw [e]; exact h⟩
    | some x =>
      have e : w.step .forward = { w with forward := true } := by simp [Wish.step, hx]
      obtain ⟨s', h1, h2⟩ := forward_some h hx
      exact ⟨s', Or.inl h1, by rw [e]; exact h2⟩
  | backward =>
    cases hx : w.dt with
    | none =>
      have e : w.step .backward = w := by simp [Wish.step, hx]
      exact ⟨s, Or.inr (no_clock h hx).2, by rw [e]; exact h⟩
    | some x =>
      have e : w.step .backward = { w with forward := false } := by simp [Wish.step, hx]
      obtain ⟨s', h1, h2⟩ := backward_some h hx
      exact ⟨s', Or.inl h1, by rw [e]; exact h2⟩
  | conj c =>
    cases hx : w.dt with
    | none =>
      have e : w.step (.conj c) = w := by simp [Wish.step, hx]
      refine ⟨s, Or.inr ?_, by rw [e]; exact h⟩
      cases c
      · exact (no_clock h hx).1
      · exact (no_clock h hx).2
    | some x =>
      have e : w.step (.conj c) = { w with forward := !c } := by simp [Wish.step, hx]
      rw [e]
      cases c
      · obtain ⟨s', h1, h2⟩ := forward_some h hx
        exact ⟨s', Or.inl h1, h2⟩
      · obtain ⟨s', h1, h2⟩ := backward_some h hx
        exact ⟨s', Or.inl h1, h2⟩
  | imaginary =>
    have hc : s.hasClock = true := by rw [h.clock]; exact hl
    refine ⟨{ s with c0 := if s.forward then (s.dt : ℂ) else (-1) * s.dt, imaginary := true }, Or.inl ?_,
      ⟨h.forward, rfl, h.clock, h.dt, ?_, ?_, h.conj⟩⟩
    · show Propagator.imaginaryTime s = _
      unfold Propagator.imaginaryTime
      rw [hc]; rfl
    · intro y hy
      show (if s.forward then (s.dt : ℂ) else (-1) * s.dt) = exponent w.forward true y
      rw [h.forward, h.dt y hy]
      cases w.forward <;> simp [exponent]
    · intro hy
      have hy' : w.dt = none := hy
      rw [hy'] at hl; simp at hl
  | real =>
    have hc : s.hasClock = true := by rw [h.clock]; exact hl
    refine ⟨{ s with c0 := if s.forward then (-1) * Complex.I * s.dt else Complex.I * s.dt, imaginary := false },
      Or.inl ?_, ⟨h.forward, rfl, h.clock, h.dt, ?_, ?_, h.conj⟩⟩
    · show Propagator.realTime s = _
      unfold Propagator.realTime
      rw [hc]; rfl
    · intro y hy
      show (if s.forward then (-1) * Complex.I * s.dt else Complex.I * s.dt) = exponent w.forward false y
      rw [h.forward, h.dt y hy]
      cases w.forward <;> simp [exponent]
    · intro hy
      have hy' : w.dt = none := hy
      rw [hy'] at hl; simp at hl

theorem fulfils_run (cs : List PCall) : ∀ (s : Propagator) (w : Wish), Fulfils s w → Legal cs w →
    ∃ s', Propagator.run cs s = some s' ∧ Fulfils s' (cs.foldl Wish.step w) := by
  induction cs with
  | nil => intro s w h _; exact ⟨s, rfl, h⟩
  | cons c cs ih =>
    intro s w h hl
    obtain ⟨s1, h1, h2⟩ := fulfils_step h c hl.1
    obtain ⟨s2, h3, h4⟩ := ih s1 _ h2 hl.2
    refine ⟨s2, ?_, h4⟩
    simp only [Propagator.run]
    rcases h1 with h1 | h1 <;> rw [h1] <;> exact h3

/-- C30: after every sequence of calls in which a clock is given before the time mode is chosen, the exponent
is the one the documentation gives for the current direction, time mode and time step, no matter in which
order they were set; the conjugation flag tells the direction. -/
theorem C30_exponent_partial (cs : List PCall) (hl : Legal cs Wish.start) :
    ∃ s, Propagator.run cs Propagator.new = some s ∧
      (∀ dt, (cs.foldl Wish.step Wish.start).dt = some dt →
        s.c0 = exponent (cs.foldl Wish.step Wish.start).forward (cs.foldl Wish.step Wish.start).imaginary dt) ∧
      s.conj = !(cs.foldl Wish.step Wish.start).forward := by
  obtain ⟨s, h1, h2⟩ := fulfils_run cs Propagator.new Wish.start
    ⟨rfl, rfl, rfl, by intro x h; simp [Wish.start] at h, by intro x h; simp [Wish.start] at h,
      fun _ => rfl, rfl⟩ hl
  exact ⟨s, h1, fun dt h => h2.c0 dt h, h2.conj⟩

/-- C30: two sequences of calls that ask for the same direction, mode and time step lead to the same
exponent. -/
theorem C30_order_partial (cs ds : List PCall) (hc : Legal cs Wish.start) (hd : Legal ds Wish.start)
    (heq : cs.foldl Wish.step Wish.start = ds.foldl Wish.step Wish.start) :
    ∃ s t, Propagator.run cs Propagator.new = some s ∧ Propagator.run ds Propagator.new = some t ∧
      s.c0 = t.c0 := by
  obtain ⟨s, h1, h2⟩ := fulfils_run cs Propagator.new Wish.start
    ⟨rfl, rfl, rfl, by intro x h; simp [Wish.start] at h, by intro x h; simp [Wish.start] at h,
      fun _ => rfl, rfl⟩ hc
  obtain ⟨t, h3, h4⟩ := fulfils_run ds Propagator.new Wish.start
    ⟨rfl, rfl, rfl, by intro x h; simp [Wish.start] at h, by intro x h; simp [Wish.start] at h,
      fun _ => rfl, rfl⟩ hd
  refine ⟨s, t, h1, h3, ?_⟩
  cases hx : (cs.foldl Wish.step Wish.start).dt with
  | none => rw [h2.none_ hx, h4.none_ (by rw [← heq]; exact hx)]
  | some x =>
    rw [h2.c0 x hx, h4.c0 x (by rw [← heq]; exact hx), heq]

/-- The hypotheses are met by two sequences in different order: backward in imaginary time. -/
example : Legal [.clock 2, .backward, .imaginary] Wish.start ∧
    Legal [.forward, .clock 1, .imaginary, .backward, .clock 2] Wish.start ∧
    [PCall.clock 2, .backward, .imaginary].foldl Wish.step Wish.start =
      [PCall.forward, .clock 1, .imaginary, .backward, .clock 2].foldl Wish.step Wish.start ∧
    exponent false true 2 = -2 := by
  refine ⟨by simp [Legal, Wish.step, Wish.start], by simp [Legal, Wish.step, Wish.start],
    by simp [Wish.step, Wish.start], by simp [exponent]⟩

/-- C30: directions asked for before a clock is given are rejected without a change. -/
theorem C30_no_clock (s : Propagator) (h : s.hasClock = false) (c : Bool) :
    s.goForward = .threw s ∧ s.goBackward = .threw s ∧ s.setConj c = .threw s ∧
      ∀ wf, s.init wf = .threw s := by
  have hf : s.goForward = .threw s := by simp [Propagator.goForward, h]
  have hb : s.goBackward = .threw s := by simp [Propagator.goBackward, h]
  refine ⟨hf, hb, ?_, fun wf => by simp [Propagator.init, h]⟩
  cases c
  · exact hf
  · exact hb

/-- C30 is violated before a clock is given: choosing the time mode reads a null pointer instead of being
rejected like the direction. -/
theorem C30_violated_mode_without_clock :
    Propagator.run [.imaginary] Propagator.new = none ∧ Propagator.run [.real] Propagator.new = none :=
  ⟨rfl, rfl⟩

/-- C30 is violated when the time step of the clock is changed afterwards: the exponent keeps the old one,
until direction or mode are set again. -/
theorem C30_violated_clock_changed :
    ∃ s, Propagator.run [.clock 1] Propagator.new = some s ∧
      ({ s with dt := 2 } : Propagator).c0 ≠ exponent true false 2 ∧
      ∃ t, ({ s with dt := 2 } : Propagator).goForward = .ok t ∧ t.c0 = exponent true false 2 := by
  refine ⟨_, rfl, ?_, _, rfl, ?_⟩
  · intro h
    have := congrArg Complex.im h
    simp [Propagator.setClock, Propagator.new, exponent] at this
  · simp [Propagator.setClock, Propagator.new, exponent]

/-- C30 is violated for copies: the copy of a backward propagator has the exponent of the original, but not
its conjugation flag; operators added to it later are not conjugated. -/
theorem C30_violated_copy :
    ∃ s, Propagator.run [.clock 1, .backward] Propagator.new = some s ∧
      (Propagator.new.copyFrom s).c0 = s.c0 ∧ (Propagator.new.copyFrom s).forward = false ∧
      s.conj = true ∧ (Propagator.new.copyFrom s).conj = false :=
  ⟨_, rfl, rfl, rfl, rfl, rfl⟩

end QDng.Ops
