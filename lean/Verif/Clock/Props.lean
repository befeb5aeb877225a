import Mathlib.Tactic.Ring
import Mathlib.Tactic.FieldSimp
import Mathlib.Tactic.Linarith
import Verif.Clock.Model

/-
C51: clock arithmetic.
-/

namespace QDng.Clock

open QDng.Common

/-- The operations that move a clock by one step. -/
inductive Move where
  | forward
  | back
  deriving DecidableEq

/-- A sequence of such operations. -/
def moves : List Move → Clock → Out Clock
  | [], c => .ok c
  | .forward :: l, c => c.inc.bind (moves l)
  | .back :: l, c => c.dec.bind (moves l)

theorem int_ok {A : Type} (z : Int) (k a : A) (h : int z k = .ok a) : k = a ∧ -2 ^ 31 ≤ z ∧ z < 2 ^ 31 := by
  unfold int at h
  split at h
  · rename_i hz
    cases h
    exact ⟨rfl, hz⟩
  · cases h

theorem int_not_threw {A : Type} (z : Int) (k a : A) : int z k ≠ .threw a := by
  unfold int
  split <;> simp

theorem int_range {A : Type} (z : Int) (k : A) (h : -2 ^ 31 ≤ z ∧ z < 2 ^ 31) : int z k = .ok k := by
  unfold int
  rw [if_pos h]

/-- C51: after every sequence of forward and backward steps the time has moved by the difference of their numbers
times the step length; step length and number of steps are kept. -/
theorem C51_moves (l : List Move) (c c' : Clock) (h : moves l c = .ok c') :
    c'.time = c.time + ((l.count .forward : ℝ) - (l.count .back : ℝ)) * c.dt ∧ c'.dt = c.dt ∧ c'.nsteps = c.nsteps := by
  induction l generalizing c with
  | nil => cases h; simp
  | cons m l ih =>
    cases m with
    | forward =>
      unfold moves at h
      cases hi : c.inc with
      | ok d =>
        rw [hi] at h
        obtain ⟨e, _⟩ := int_ok _ _ _ hi
        obtain ⟨h1, h2, h3⟩ := ih d h
        subst e
        refine ⟨?_, h2, h3⟩
        rw [h1]
        simp [Clock.time]
        ring
      | threw d => rw [hi] at h; cases h
      | ub => rw [hi] at h; cases h
    | back =>
      unfold moves at h
      cases hi : c.dec with
      | ok d =>
        rw [hi] at h
        obtain ⟨e, _⟩ := int_ok _ _ _ hi
        obtain ⟨h1, h2, h3⟩ := ih d h
        subst e
        refine ⟨?_, h2, h3⟩
        rw [h1]
        simp [Clock.time]
        ring
      | threw d => rw [hi] at h; cases h
      | ub => rw [hi] at h; cases h

/-- C51: `Begin` is time zero, and counting up `n - 1` times from there is the clock that `End` gives, at the time
of the last of `n` steps. -/
theorem C51_begin_end (c : Clock) (n : Nat) (h0 : 0 < n) (hn : (n : Int) < 2 ^ 31) (hs : c.nsteps = n) :
    c.begin'.time = 0 ∧
    ∃ c', c.end' = .ok c' ∧ moves (List.replicate (n - 1) .forward) c.begin' = .ok c' ∧
      c'.time = ((n : ℝ) - 1) * c.dt ∧ c'.dt = c.dt := by
  have key : ∀ (k : Nat) (d : Clock), 0 ≤ d.step → d.step + k < 2 ^ 31 →
      moves (List.replicate k .forward) d = .ok { d with step := d.step + k } := by
    intro k
    induction k with
    | zero => intro d _ _; simp [moves]
    | succ k ih =>
      intro d h1 h2
      rw [List.replicate_succ]
      unfold moves
      have : d.inc = .ok { d with step := d.step + 1 } := int_range _ _ ⟨by omega, by push_cast at h2; omega⟩
      rw [this]
      show moves _ _ = _
      rw [ih _ (by show 0 ≤ d.step + 1; omega) (by show d.step + 1 + (k : Int) < 2 ^ 31; push_cast at h2; omega)]
      simp only [Out.ok.injEq, Clock.mk.injEq, true_and]
      push_cast
      omega
  refine ⟨by simp [Clock.begin', Clock.time], { c with step := c.nsteps - 1 }, ?_, ?_, ?_, rfl⟩
  · exact int_range _ _ ⟨by omega, by omega⟩
  · rw [key _ _ (by show (0 : Int) ≤ 0; omega) (by show (0 : Int) + _ < _; omega)]
    simp only [Clock.begin', Out.ok.injEq, Clock.mk.injEq, true_and]
    rw [hs]
    omega
  · simp [Clock.time, hs]

/-- C51: the time is the step number times the step length after every setter. -/
theorem C51_setters (c : Clock) (s n : Int) (dt : ℝ) :
    (c.setStep s).time = s * c.dt ∧ (c.setDt dt).time = c.step * dt ∧ (c.setSteps n).time = c.time ∧
    (Clock.new n dt).time = 0 ∧ ∀ other : Clock, (c.assign other).time = other.time := by
  refine ⟨rfl, rfl, rfl, by simp [Clock.new, Clock.time], fun _ => rfl⟩

/-- C51: `Sync` puts a clock to the time of another one with a different step length and keeps the step length and
the number of steps; it fails exactly if no step number gives that time, and then the clock is unchanged. -/
theorem C51_sync (c master : Clock) (hdt : c.dt ≠ 0) :
    (∀ c', c.sync master = .ok c' → c'.time = master.time ∧ c'.dt = c.dt ∧ c'.nsteps = c.nsteps) ∧
    (∀ c', c.sync master = .threw c' → c' = c ∧ ∀ z : Int, (z : ℝ) * c.dt ≠ master.time) ∧
    (∀ z : Int, (z : ℝ) * c.dt = master.time → -2 ^ 31 ≤ z → z < 2 ^ 31 →
      c.sync master = .ok { c with step := z }) := by
  have hz : ∀ z : Int, (z : ℝ) * c.dt = master.time → master.time / c.dt = z := by
    intro z h
    rw [← h]
    field_simp
  have hround : ∀ z : Int, round ((z : ℝ)) = z := fun z => round_intCast z
  refine ⟨?_, ?_, ?_⟩
  · intro c' h
    unfold Clock.sync at h
    rw [if_neg hdt] at h
    dsimp only at h
    split at h
    · cases h
    · rename_i hr
      have hr' : master.time / c.dt = (round (master.time / c.dt) : ℝ) := by
        have := not_not.mp hr
        linarith
      obtain ⟨e, _⟩ := int_ok _ _ _ h
      subst e
      refine ⟨?_, rfl, rfl⟩
      show (((if 0 ≤ master.time / c.dt then ⌊master.time / c.dt⌋ else ⌈master.time / c.dt⌉ : Int)) : ℝ) * c.dt = _
      rw [hr']
      have : (if (0 : ℝ) ≤ (round (master.time / c.dt) : ℝ) then ⌊(round (master.time / c.dt) : ℝ)⌋
          else ⌈(round (master.time / c.dt) : ℝ)⌉) = round (master.time / c.dt) := by
        split
        · exact Int.floor_intCast _
        · exact Int.ceil_intCast _
      rw [this, ← hr']
      field_simp
  · intro c' h
    unfold Clock.sync at h
    rw [if_neg hdt] at h
    dsimp only at h
    split at h
    · rename_i hr
      cases h
      refine ⟨rfl, fun z e => hr ?_⟩
      rw [hz z e, hround]
      ring
    · exact absurd h (int_not_threw _ _ _)
  · intro z e h1 h2
    unfold Clock.sync
    rw [if_neg hdt]
    dsimp only
    rw [hz z e, hround]
    rw [if_neg (by simp)]
    have : (if (0 : ℝ) ≤ (z : ℝ) then ⌊(z : ℝ)⌋ else ⌈(z : ℝ)⌉) = z := by
      split
      · exact Int.floor_intCast _
      · exact Int.ceil_intCast _
    rw [this]
    exact int_range _ _ ⟨h1, h2⟩

/-- C51: `Sync` of a clock without step length always fails. -/
theorem C51_sync_zero (c master : Clock) (h : c.dt = 0) : c.sync master = .threw c := by
  unfold Clock.sync
  rw [if_pos h]

/-- The hypotheses of `C51_moves` are met. -/
example : ∃ c', moves [.forward, .forward, .back] (Clock.new 10 0.5) = .ok c' := by
  refine ⟨{ dt := 0.5, nsteps := 10, step := 1 }, ?_⟩
  simp [moves, Clock.inc, Clock.dec, int, Clock.new, Out.bind]

/-- `Sync` succeeds for a clock with half the step length, and fails for one with twice the step length. -/
example : (Clock.new 10 1).sync ((Clock.new 10 2).setStep 3) = .ok ((Clock.new 10 1).setStep 6) ∧
    (∀ z : Int, (z : ℝ) * (Clock.new 10 2).dt ≠ ((Clock.new 10 1).setStep 3).time) := by
  constructor
  · exact (C51_sync (Clock.new 10 1) ((Clock.new 10 2).setStep 3) (by simp [Clock.new])).2.2 6
      (by simp [Clock.new, Clock.setStep, Clock.time]; norm_num) (by norm_num) (by norm_num)
  · intro z h
    simp only [Clock.new, Clock.setStep, Clock.time] at h
    have : (z * 2 : Int) = 3 := by exact_mod_cast (by push_cast at h; linarith : (z : ℝ) * 2 = 3)
    omega

end QDng.Clock
