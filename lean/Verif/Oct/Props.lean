import Verif.Oct.GainLemmas
import Verif.Oct.Sample

/-
Properties of the optimal control program.
-/

namespace QDng.Oct

open Spec

noncomputable section

variable {V : Type} [NormedAddCommGroup V] [InnerProductSpace ℂ V]

theorem yield_congr (c : Setup V) (wi wt wt' : Nat → V) (h : c.operators = false → ∀ t, wt t = wt' t) :
    Spec.yield c wi wt = Spec.yield c wi wt' := by
  unfold Spec.yield
  cases ho : c.operators
  · rw [show wt = wt' from funext (h ho)]
  · rfl

/-- What every line of the report says. -/
theorem line_spec (c : Setup V) (psiI psiT : Nat → V) (series : Nat → Nat → V) (guess : Fields) (buf0 : Buf V)
    (hs : 0 < c.steps) (i : Nat) (a : Line V)
    (h : ((run c psiI psiT series guess buf0).guess :: (run c psiI psiT series guess buf0).lines)[i]? = some a) :
    (∀ t, a.phii t = evolve c a.fields (psiI t) c.steps) ∧
    (c.operators = false → ∀ t, a.phit t = targets c psiT series t) ∧
    a.yield = Spec.yield c a.phii (targets c psiT series) ∧
    (i = 0 ∨ ∀ l s, s < c.steps → a.fields l s = a.fields 0 s) ∧
    ∀ l s, c.steps ≤ s → a.fields l s = guess l s := by
  induction i generalizing a with
  | zero =>
    rw [List.getElem?_cons_zero, Option.some.injEq] at h
    obtain ⟨_, _, h3, h4, h5, _⟩ := start_fields c psiI psiT series guess buf0
    subst h
    show (∀ t, (start c psiI psiT series guess buf0).1.phii t = _) ∧ _
    refine ⟨fun t => ?_, fun _ t => ?_, ?_, .inl rfl, fun l s _ => ?_⟩
    · rw [h4]; show _ = evolve c (start c psiI psiT series guess buf0).1.fields _ _; rw [h3]
    · exact congrFun h5 t
    · exact report_yield c _ _
    · exact congrFun (congrFun h3 l) s
  | succ i ih =>
    obtain ⟨p, hp⟩ : ∃ p, ((run c psiI psiT series guess buf0).guess ::
        (run c psiI psiT series guess buf0).lines)[i]? = some p := by
      have := (List.getElem?_eq_some_iff.1 h).1
      exact ⟨_, List.getElem?_eq_getElem (by omega)⟩
    obtain ⟨st, st', h1, h2, h3, h4⟩ := (run_follows c psiI psiT series guess buf0 hs).1 i p a hp h
    have hp' := (ih p hp).2.2.2.2
    subst h3
    refine ⟨h2.phii, h2.phit, ?_, .inr h2.same, fun l s hl => ?_⟩
    · rw [report_yield]
      exact yield_congr c _ _ _ h2.phit
    · rw [← hp' l s hl, ← h4 l s hl]
      exact h2.rest l s hl

/-- Two consecutive lines of the report, the first of which may be that of the guess. -/
def Consecutive (r : Result V) (a b : Line V) : Prop :=
  ∃ i, (r.guess :: r.lines)[i]? = some a ∧ (r.guess :: r.lines)[i + 1]? = some b

/-- Everything one iteration does, seen from the lines of the report. -/
theorem consecutive_spec (c : Setup V) (psiI psiT : Nat → V) (series : Nat → Nat → V) (guess : Fields) (buf0 : Buf V)
    (hs : 0 < c.steps) (hmv : c.moving = false) (hgu : ∀ l s, s < c.steps → guess l s = guess 0 s) (a b : Line V)
    (h : Consecutive (run c psiI psiT series guess buf0) a b) :
    (∀ l s, s < c.steps → a.fields l s = a.fields 0 s) ∧ (∀ l s, s < c.steps → b.fields l s = b.fields 0 s) ∧
    a.yield = Spec.yield c (fun t => evolve c a.fields (psiI t) c.steps) psiT ∧
    b.yield = Spec.yield c (fun t => evolve c b.fields (psiI t) c.steps) psiT ∧
    ∃ chi, Back c a.fields (lastOf c psiI psiT a.fields) chi ∧
      Forth c a.fields psiI chi a.fields b.fields b.phii ∧
      (c.method ≠ .rabitzfb → b.laserObj = (∑ s ∈ Finset.range c.steps, objTerm c s
        (imAt c psiI chi b.fields s) (b.fields 0 s)) * c.dt) := by
  obtain ⟨i, h1, h2⟩ := h
  have ht : targets c psiT series = psiT := by unfold targets; rw [hmv]; rfl
  have ha := line_spec c psiI psiT series guess buf0 hs i a h1
  have hb := line_spec c psiI psiT series guess buf0 hs (i + 1) b h2
  obtain ⟨st, st', h3, h4, h5, h6⟩ := (run_follows c psiI psiT series guess buf0 hs).1 i a b h1 h2
  rw [ht] at ha hb h4
  have hsame : ∀ l s, s < c.steps → a.fields l s = a.fields 0 s := by
    rcases ha.2.2.2.1 with h | h
    · subst h
      rw [List.getElem?_cons_zero, Option.some.injEq] at h1
      obtain ⟨_, _, h9, _⟩ := start_fields c psiI psiT series guess buf0
      have : a.fields = guess := by rw [← h1]; exact h9
      rw [this]; exact hgu
    · exact h
  refine ⟨hsame, hb.2.2.2.1.resolve_left (by omega), ?_, ?_, ?_⟩
  · rw [ha.2.2.1, show a.phii = _ from funext ha.1]
  · rw [hb.2.2.1, show b.phii = _ from funext hb.1]
  · obtain ⟨chi, h7, h8, h9⟩ := h4.work (.inl hmv)
    rw [h3] at h7 h8
    subst h5
    refine ⟨chi, h7, ⟨h8.phii, h8.field, fun l s hl => ?_⟩, h9⟩
    rw [← h6 l s hl]
    exact h8.rest l s hl

/-- C124: in every line of the report (that of the guess and those of the iterations) the yield is that of the initial
wave functions propagated over all time steps with the laser fields of this line (those that are written to the files),
behind the first iteration all lasers have the same field, and the laser file left at the end is the field of the last
line: who propagates the initial wave functions with this file gets the last yield reported. -/
theorem C124_yield_of_field (c : Setup V) (psiI psiT : Nat → V) (series : Nat → Nat → V) (guess : Fields) (buf0 : Buf V)
    (hs : 0 < c.steps) :
    let r := run c psiI psiT series guess buf0
    let y := fun f : Fields => Spec.yield c (fun t => evolve c f (psiI t) c.steps) (targets c psiT series)
    r.guess.fields = guess ∧ (∀ a ∈ r.guess :: r.lines, a.yield = y a.fields) ∧
    (∀ a ∈ r.lines, (∀ l s, s < c.steps → a.fields l s = a.fields 0 s) ∧ a.yield = y fun _ => a.fields 0) ∧
    (∀ a, r.lines.getLast? = some a → a.yield = y fun _ => r.final) ∧
    (r.lines = [] → r.final = guess 0) := by
  intro r y
  have hy : ∀ (i : Nat) (a : Line V), (r.guess :: r.lines)[i]? = some a → a.yield = y a.fields := by
    intro i a hi
    have h := line_spec c psiI psiT series guess buf0 hs i a hi
    rw [h.2.2.1, show a.phii = _ from funext h.1]
  have hl : ∀ a ∈ r.lines, (∀ l s, s < c.steps → a.fields l s = a.fields 0 s) ∧ a.yield = y fun _ => a.fields 0 := by
    intro a ha
    obtain ⟨i, hi⟩ := List.mem_iff_getElem?.1 ha
    have hi' : (r.guess :: r.lines)[i + 1]? = some a := hi
    have h := line_spec c psiI psiT series guess buf0 hs (i + 1) a hi'
    have h1 := h.2.2.2.1.resolve_left (by omega)
    refine ⟨h1, ?_⟩
    rw [hy _ a hi']
    show Spec.yield c _ _ = Spec.yield c _ _
    congr 1
    funext t
    exact evolve_congr c _ _ _ _ fun l s hls => h1 l s hls
  have hf := (run_follows c psiI psiT series guess buf0 hs).2
  refine ⟨(start_fields c psiI psiT series guess buf0).2.2.1, fun a ha => ?_, hl, fun a ha => ?_, fun h0 => ?_⟩
  · obtain ⟨i, hi⟩ := List.mem_iff_getElem?.1 ha
    exact hy i a hi
  · have h1 := (hl a (List.mem_of_getLast? ha)).2
    rw [h1]
    have h2 : r.final = a.fields 0 := by
      apply hf
      show (r.guess :: r.lines).getLast? = some a
      cases h : r.lines with
      | nil => rw [h] at ha; cases ha
      | cons x xs => rw [h] at ha; rw [List.getLast?_cons_cons]; exact ha
    rw [h2]
  · have h2 : r.final = r.guess.fields 0 := by
      apply hf
      show (r.guess :: r.lines).getLast? = some r.guess
      rw [h0]
      rfl
    rw [h2]
    exact congrFun (start_fields c psiI psiT series guess buf0).2.2.1 0

/-- Not empty: the run reports at least one iteration. -/
example (steps iterations : Nat) (O : Nat → Qubit → Qubit) (U : Qubit ≃ₗᵢ[ℂ] Qubit) (buf0 : Buf Qubit) :
    (run (kicked U flip .krotov false false steps (iterations + 1) 3 O) (fun _ => level 0) (fun _ => level 1)
      (fun _ _ => 0) (fun _ _ => 1) buf0).lines ≠ [] := by
  have h : 1 > (kicked U flip .krotov false false steps (iterations + 1) 3 O).convergence := by
    show (1 : ℝ) > 1 / 100000
    norm_num
  show (mainLoop _ _ _ (iterations + 1) true 1 _ _).1 ≠ []
  unfold mainLoop
  rw [if_pos h]
  exact List.cons_ne_nil _ _

/-- What the input has to meet for the theorems about the gain: a unitary propagator that answers to the field, no
gobbler, positive `alpha` and shape, normalised wave functions and the same guess for all lasers. -/
structure Proper (c : Setup V) (psiI : Nat → V) (guess : Fields) (K d : ℝ) : Prop where
  steps : 0 < c.steps
  fixed : c.moving = false
  gobbler : c.gobbler = none
  alpha : 0 < c.alpha
  shape : ∀ s, s < c.steps → 0 ≤ c.shape s
  second : 0 ≤ K
  first : 0 ≤ d
  responds : Responds c K d
  initial : ∀ t, t < c.ntargets → ‖psiI t‖ ≤ 1
  same : ∀ l s, s < c.steps → guess l s = guess 0 s

/-- The two level system with dipole kicks, the guess is a constant field. -/
theorem kicked_proper (method : Method) (operators phase : Bool) (steps iterations : Nat) (hs : 0 < steps) (alpha : ℝ)
    (ha : 0 < alpha) (O : Nat → Qubit → Qubit) (U : Qubit ≃ₗᵢ[ℂ] Qubit) :
    Proper (kicked U flip method operators phase steps iterations alpha O) (fun _ => level 0) (fun _ _ => 1) (5 / 2) 0 :=
  ⟨hs, rfl, rfl, ha, fun _ _ => zero_le_one, by norm_num, le_rfl,
    kicked_responds U flip flip_flip flip_symm method operators phase steps iterations alpha O,
    fun _ _ => (level_norm 0).le, fun _ _ _ => rfl⟩

theorem norm_inner_symm (x y : V) : ‖(inner ℂ x y : ℂ)‖ = ‖(inner ℂ y x : ℂ)‖ := by
  rw [← inner_conj_symm, RCLike.norm_conj]

theorem re_inner_symm (x y : V) : (inner ℂ x y : ℂ).re = (inner ℂ y x : ℂ).re := by
  rw [← inner_conj_symm, Complex.conj_re]

/-- C125: Krotov, targets that are wave functions, no phase: from line to line of the report the yield does not fall,
if `alpha` is large enough for the second order of the propagator's answer to the field (`K * shape <= alpha * dt`); up
to the error the propagator makes in first order.  If `alpha` is larger by `k`, it rises by this multiple of the square
of the change of the field: it stands still only if the field does. -/
theorem C125_krotov_overlap (c : Setup V) (psiI psiT : Nat → V) (series : Nat → Nat → V) (guess : Fields) (buf0 : Buf V)
    (K d k : ℝ) (h : Proper c psiI guess K d) (hm : c.method = .krotov) (ho : c.operators = false) (hp : c.phase = false)
    (hT : ∀ t, t < c.ntargets → ‖psiT t‖ ≤ 1) (hK : ∀ s, s < c.steps → (K + k) * c.shape s ≤ c.alpha * c.dt) (a b : Line V)
    (hab : Consecutive (run c psiI psiT series guess buf0) a b) :
    a.yield + 2 * c.ntargets * k * (∑ s ∈ Finset.range c.steps, (b.fields 0 s - a.fields 0 s) ^ 2) -
      2 * c.ntargets * d * (∑ s ∈ Finset.range c.steps, |b.fields 0 s - a.fields 0 s|) ≤ b.yield := by
  obtain ⟨h1, h2, h3, h4, chi, h5, h6, _⟩ :=
    consecutive_spec c psiI psiT series guess buf0 h.steps h.fixed h.same a b hab
  have hlast : lastOf c psiI psiT a.fields = psiT := by unfold lastOf; rw [ho]; rfl
  rw [hlast] at h5
  have h7 := gain_square h.responds h.second h.first h.gobbler hp h5 h1 h2 h.initial hT
  have h8 := krotov_sum (K := K) (d := d) (k := k) hm h6 h.alpha h.shape hK
  rw [h3, h4]
  unfold Spec.yield
  simp only [ho, hp, Bool.false_eq_true, if_false]
  simp only [norm_inner_symm (evolve c _ _ _)]
  have h9 : (∑ s ∈ Finset.range c.steps, (2 * (c.dt * (b.fields 0 s - a.fields 0 s)) * imAt c psiI chi b.fields s +
      2 * c.ntargets * (K * (b.fields 0 s - a.fields 0 s) ^ 2 + d * |b.fields 0 s - a.fields 0 s|))) =
      2 * ∑ s ∈ Finset.range c.steps, ((c.dt * (b.fields 0 s - a.fields 0 s)) * imAt c psiI chi b.fields s +
        c.ntargets * (K * (b.fields 0 s - a.fields 0 s) ^ 2 + d * |b.fields 0 s - a.fields 0 s|)) := by
    rw [Finset.mul_sum]
    exact Finset.sum_congr rfl fun s _ => by ring
  rw [h9] at h7
  linarith

/-- Not empty: two level system, field free step `U`, transfer to the upper level; here the yield rises at least by the
square of the change of the field. -/
example (steps iterations : Nat) (hs : 0 < steps) (U : Qubit ≃ₗᵢ[ℂ] Qubit) (buf0 : Buf Qubit) (a b : Line Qubit) :
    let c := kicked U flip .krotov false false steps iterations 3 fun _ x => x
    Consecutive (run c (fun _ => level 0) (fun _ => level 1) (fun _ _ => 0) (fun _ _ => 1) buf0) a b →
      a.yield + ∑ s ∈ Finset.range steps, (b.fields 0 s - a.fields 0 s) ^ 2 ≤ b.yield := by
  intro c h
  have h1 := C125_krotov_overlap c (fun _ => level 0) (fun _ => level 1) (fun _ _ => 0) (fun _ _ => 1) buf0 (5 / 2) 0
    (1 / 2) (kicked_proper .krotov false false steps iterations hs 3 (by norm_num) _ U) rfl rfl rfl
    (fun _ _ => (level_norm 1).le) (fun s _ => by show (5 / 2 + 1 / 2) * (1 : ℝ) ≤ 3 * 1; norm_num) a b h
  have h2 : ((c.ntargets : Nat) : ℝ) = 1 := by show ((1 : Nat) : ℝ) = 1; exact Nat.cast_one
  rw [h2] at h1
  have h3 : c.steps = steps := rfl
  rw [h3] at h1
  linarith

/-- C125: Krotov, phase sensitive: the sum of the real parts of the overlaps with the targets does not fall. -/
theorem C125_krotov_phase (c : Setup V) (psiI psiT : Nat → V) (series : Nat → Nat → V) (guess : Fields) (buf0 : Buf V)
    (K d k : ℝ) (h : Proper c psiI guess K d) (hm : c.method = .krotov) (ho : c.operators = false) (hp : c.phase = true)
    (hT : ∀ t, t < c.ntargets → ‖psiT t‖ ≤ 1) (hK : ∀ s, s < c.steps → (K + k) * c.shape s ≤ c.alpha * c.dt) (a b : Line V)
    (hab : Consecutive (run c psiI psiT series guess buf0) a b) :
    (∑ t ∈ Finset.range c.ntargets, (inner ℂ (psiT t) (evolve c a.fields (psiI t) c.steps) : ℂ).re) +
        c.ntargets * k * (∑ s ∈ Finset.range c.steps, (b.fields 0 s - a.fields 0 s) ^ 2) -
        c.ntargets * d * (∑ s ∈ Finset.range c.steps, |b.fields 0 s - a.fields 0 s|) ≤
      ∑ t ∈ Finset.range c.ntargets, (inner ℂ (psiT t) (evolve c b.fields (psiI t) c.steps) : ℂ).re := by
  obtain ⟨h1, h2, h3, h4, chi, h5, h6, _⟩ :=
    consecutive_spec c psiI psiT series guess buf0 h.steps h.fixed h.same a b hab
  have hlast : lastOf c psiI psiT a.fields = psiT := by unfold lastOf; rw [ho]; rfl
  rw [hlast] at h5
  have h7 := gain_real h.responds h.second h.first h.gobbler hp h5 h1 h2 h.initial hT
  have h8 := krotov_sum (K := K) (d := d) (k := k) hm h6 h.alpha h.shape hK
  linarith

example (steps iterations : Nat) (hs : 0 < steps) (U : Qubit ≃ₗᵢ[ℂ] Qubit) (buf0 : Buf Qubit) (a b : Line Qubit) :
    let c := kicked U flip .krotov false true steps iterations 3 fun _ x => x
    Consecutive (run c (fun _ => level 0) (fun _ => level 1) (fun _ _ => 0) (fun _ _ => 1) buf0) a b →
      (∑ t ∈ Finset.range 1, (inner ℂ (level 1) (evolve c a.fields (level 0) steps) : ℂ).re) ≤
        ∑ t ∈ Finset.range 1, (inner ℂ (level 1) (evolve c b.fields (level 0) steps) : ℂ).re := by
  intro c h
  have h1 := C125_krotov_phase c (fun _ => level 0) (fun _ => level 1) (fun _ _ => 0) (fun _ _ => 1) buf0 (5 / 2) 0
    0 (kicked_proper .krotov false true steps iterations hs 3 (by norm_num) _ U) rfl rfl rfl
    (fun _ _ => (level_norm 1).le) (fun s _ => by show (5 / 2 + 0) * (1 : ℝ) ≤ 3 * 1; norm_num) a b h
  simp only [mul_zero, zero_mul, add_zero, sub_zero] at h1
  exact h1

/-- C125: Krotov, targets that are operators, with the phase sensitive correction: the sum of the expectation values,
which is the yield reported, does not fall, for operators that are Hermitian, positive and do not enlarge. -/
theorem C125_krotov_operator (c : Setup V) (psiI psiT : Nat → V) (series : Nat → Nat → V) (guess : Fields)
    (buf0 : Buf V) (K d k : ℝ) (h : Proper c psiI guess K d) (hm : c.method = .krotov) (ho : c.operators = true)
    (hp : c.phase = true) (O : Nat → V →ₗ[ℂ] V) (hO : ∀ t x, c.target t x = O t x) (hsym : ∀ t, (O t).IsSymmetric)
    (hpos : ∀ t x, 0 ≤ (inner ℂ x (O t x) : ℂ).re) (hle : ∀ t x, ‖O t x‖ ≤ ‖x‖)
    (hK : ∀ s, s < c.steps → (K + k) * c.shape s ≤ c.alpha * c.dt) (a b : Line V)
    (hab : Consecutive (run c psiI psiT series guess buf0) a b) :
    a.yield + 2 * c.ntargets * k * (∑ s ∈ Finset.range c.steps, (b.fields 0 s - a.fields 0 s) ^ 2) -
      2 * c.ntargets * d * (∑ s ∈ Finset.range c.steps, |b.fields 0 s - a.fields 0 s|) ≤ b.yield := by
  obtain ⟨h1, h2, h3, h4, chi, h5, h6, _⟩ :=
    consecutive_spec c psiI psiT series guess buf0 h.steps h.fixed h.same a b hab
  have hlast : lastOf c psiI psiT a.fields = fun t => O t (evolve c a.fields (psiI t) c.steps) := by
    unfold lastOf
    rw [ho, if_pos rfl, if_neg (by rw [hm]; decide)]
    funext t
    exact hO t _
  rw [hlast] at h5
  have h7 := gain_real h.responds h.second h.first h.gobbler hp h5 h1 h2 h.initial (fun t ht => by
    refine (hle t _).trans ?_
    rw [evolve_norm h.responds h.gobbler a.fields h1 _ _ le_rfl]
    exact h.initial t ht)
  have h8 := krotov_sum (K := K) (d := d) (k := k) hm h6 h.alpha h.shape hK
  have hy : ∀ w : Nat → V, Spec.yield c w psiT = ∑ t ∈ Finset.range c.ntargets, (inner ℂ (w t) (O t (w t)) : ℂ).re := by
    intro w
    unfold Spec.yield
    rw [if_pos ho]
    exact Finset.sum_congr rfl fun t _ => by rw [hO, abs_of_nonneg (hpos t _)]
  rw [h3, h4, hy, hy]
  have hstep : ∀ t, 2 * (inner ℂ (O t (evolve c a.fields (psiI t) c.steps)) (evolve c b.fields (psiI t) c.steps) : ℂ).re -
      2 * (inner ℂ (O t (evolve c a.fields (psiI t) c.steps)) (evolve c a.fields (psiI t) c.steps) : ℂ).re ≤
      (inner ℂ (evolve c b.fields (psiI t) c.steps) (O t (evolve c b.fields (psiI t) c.steps)) : ℂ).re -
      (inner ℂ (evolve c a.fields (psiI t) c.steps) (O t (evolve c a.fields (psiI t) c.steps)) : ℂ).re := by
    intro t
    have h9 := hpos t (evolve c b.fields (psiI t) c.steps - evolve c a.fields (psiI t) c.steps)
    generalize evolve c b.fields (psiI t) c.steps = y at h9 ⊢
    generalize evolve c a.fields (psiI t) c.steps = x at h9 ⊢
    have hs1 : (inner ℂ (O t x) y : ℂ).re = (inner ℂ x (O t y) : ℂ).re := by rw [hsym t x y]
    have hs2 : (inner ℂ (O t x) y : ℂ).re = (inner ℂ y (O t x) : ℂ).re := re_inner_symm _ _
    have hs3 : (inner ℂ (O t x) x : ℂ).re = (inner ℂ x (O t x) : ℂ).re := re_inner_symm _ _
    rw [map_sub, inner_sub_left, inner_sub_right, inner_sub_right, Complex.sub_re, Complex.sub_re, Complex.sub_re] at h9
    linarith
  have hsum := Finset.sum_le_sum fun t (_ : t ∈ Finset.range c.ntargets) => hstep t
  rw [Finset.sum_sub_distrib, Finset.sum_sub_distrib, ← Finset.mul_sum, ← Finset.mul_sum] at hsum
  linarith

example (steps iterations : Nat) (hs : 0 < steps) (U : Qubit ≃ₗᵢ[ℂ] Qubit) (buf0 : Buf Qubit) (a b : Line Qubit) :
    let c := kicked U flip .krotov true true steps iterations 3 fun _ x => upper x
    Consecutive (run c (fun _ => level 0) (fun _ => level 1) (fun _ _ => 0) (fun _ _ => 1) buf0) a b →
      a.yield ≤ b.yield := by
  intro c h
  have h1 := C125_krotov_operator c (fun _ => level 0) (fun _ => level 1) (fun _ _ => 0) (fun _ _ => 1) buf0 (5 / 2) 0
    0 (kicked_proper .krotov true true steps iterations hs 3 (by norm_num) _ U) rfl rfl rfl (fun _ => upper)
    (fun _ _ => rfl) (fun _ => upper_symm) (fun _ => upper_pos) (fun _ => upper_le)
    (fun s _ => by show (5 / 2 + 0) * (1 : ℝ) ≤ 3 * 1; norm_num) a b h
  simp only [mul_zero, zero_mul, add_zero, sub_zero] at h1
  exact h1

end

end QDng.Oct
