import Verif.Oct.LoopLemmas

/-
Lemmas about the sequence of the lines of the report.
-/

namespace QDng.Oct

open Spec

noncomputable section

variable {V : Type} [NormedAddCommGroup V] [InnerProductSpace ℂ V]

/-- Two consecutive lines. -/
def Follows (c : Setup V) (psiI psiT : Nat → V) (a b : Line V) : Prop :=
  ∃ st st' : St V, st.lb = a.fields ∧ After c psiI psiT st st' ∧ b = report c st' st'.phit ∧
    (∀ l s, c.steps ≤ s → st.lf l s = a.fields l s)

/-- Each line follows the one before it, and the fields at the end are those of the last line. -/
theorem mainLoop_follows (c : Setup V) (psiI psiT : Nat → V) (hs : 0 < c.steps) (k : Nat) (first : Bool) (delta : ℝ)
    (d : ℝ × ℝ × ℝ) (st : St V) (hb : Before c psiI psiT first st) (prev : Line V) (hp : st.lb = prev.fields)
    (hr : ∀ l s, c.steps ≤ s → st.lf l s = prev.fields l s) :
    (∀ i a b, (prev :: (mainLoop c psiI psiT k first delta d st).1)[i]? = some a →
      (prev :: (mainLoop c psiI psiT k first delta d st).1)[i + 1]? = some b → Follows c psiI psiT a b) ∧
    ∀ x, (prev :: (mainLoop c psiI psiT k first delta d st).1).getLast? = some x →
      (mainLoop c psiI psiT k first delta d st).2.1.lb = x.fields := by
  induction k generalizing first delta d st prev with
  | zero =>
    refine ⟨fun i a b _ h => ?_, fun x hx => ?_⟩
    · simp [mainLoop] at h
    · simp [mainLoop] at hx
      rw [← hx]; exact hp
  | succ k ih =>
    unfold mainLoop
    split
    · obtain ⟨ha, hb'⟩ := iteration_spec c psiI psiT first st hs hb
      obtain ⟨st', hst'⟩ : ∃ st', st' = iteration c psiI psiT first st := ⟨_, rfl⟩
      rw [← hst'] at ha hb' ⊢
      have hlb : st'.lb = prev.fields := ha.lb.trans hp
      have hih := ih false
        (abs (0 + abs (d.2.1 - d.2.2) + abs (d.2.2 - abs (report c st' st'.phit).yield)))
        (d.2.1, d.2.2, abs (report c st' st'.phit).yield)
        { st' with lf := st'.lb, lb := st'.lf } (hb' _ rfl rfl) (report c st' st'.phit) rfl (by
          intro l s h
          show st'.lb l s = st'.lf l s
          rw [hlb, ha.rest l s h, hr l s h])
      refine ⟨fun i a b h1 h2 => ?_, fun x hx => ?_⟩
      · cases i with
        | zero =>
          simp only [List.getElem?_cons_zero, Option.some.injEq, List.getElem?_cons_succ] at h1 h2
          subst h1 h2
          exact ⟨st, st', hp, ha, rfl, hr⟩
        | succ i => exact hih.1 i a b h1 h2
      · apply hih.2 x
        rw [← hx]
        rfl
    · refine ⟨fun i a b _ h => ?_, fun x hx => ?_⟩
      · simp at h
      · simp at hx
        rw [← hx]; exact hp

theorem start_fields (c : Setup V) (psiI psiT : Nat → V) (series : Nat → Nat → V) (guess : Fields) (buf0 : Buf V) :
    (start c psiI psiT series guess buf0).2.lb = guess ∧ (start c psiI psiT series guess buf0).2.lf = guess ∧
    (start c psiI psiT series guess buf0).1.fields = guess ∧
    (∀ t, (start c psiI psiT series guess buf0).1.phii t = evolve c guess (psiI t) c.steps) ∧
    (start c psiI psiT series guess buf0).1.phit = targets c psiT series ∧
    (∀ t p, p ≤ c.steps → (start c psiI psiT series guess buf0).2.buf t p = evolve c guess (psiI t) p) := by
  unfold start
  refine ⟨rfl, rfl, rfl, fun t => (propagateForward_spec c guess psiI _).1 t, rfl,
    fun t p hp => (propagateForward_spec c guess psiI _).2 t p hp⟩

theorem run_follows (c : Setup V) (psiI psiT : Nat → V) (series : Nat → Nat → V) (guess : Fields) (buf0 : Buf V)
    (hs : 0 < c.steps) :
    (∀ i a b, ((run c psiI psiT series guess buf0).guess :: (run c psiI psiT series guess buf0).lines)[i]? = some a →
      ((run c psiI psiT series guess buf0).guess :: (run c psiI psiT series guess buf0).lines)[i + 1]? = some b →
        Follows c psiI (targets c psiT series) a b) ∧
    ∀ x, ((run c psiI psiT series guess buf0).guess :: (run c psiI psiT series guess buf0).lines).getLast? = some x →
      (run c psiI psiT series guess buf0).final = x.fields 0 := by
  obtain ⟨h1, h2, h3, _⟩ := start_fields c psiI psiT series guess buf0
  have h := mainLoop_follows c psiI (targets c psiT series) hs c.iterations true 1 (1, 1, 1)
    (start c psiI psiT series guess buf0).2 ⟨fun _ h => absurd h (by decide), fun _ h => absurd h (by decide)⟩
    (start c psiI psiT series guess buf0).1 (h1.trans h3.symm) (fun l s _ => by rw [h2, h3])
  exact ⟨h.1, fun x hx => congrFun (h.2 x hx) 0⟩

theorem ovSum_eq (c : Setup V) (wi wt : Nat → V) (n : Nat) :
    ovSum c wi wt n = ∑ t ∈ Finset.range n,
      (if c.operators then ((‖(((inner ℂ (wi t) (c.target t (wi t)) : ℂ).re : ℝ) : ℂ)‖ : ℝ) : ℂ)
        else if c.phase then (inner ℂ (wi t) (wt t) : ℂ)
        else ((‖(inner ℂ (wi t) (wt t) : ℂ)‖ * ‖(inner ℂ (wi t) (wt t) : ℂ)‖ : ℝ) : ℂ)) := by
  induction n with
  | zero => rfl
  | succ n ih => rw [Finset.sum_range_succ, ← ih]; rfl

/-- The yield of the report is that of the wave functions reported. -/
theorem report_yield (c : Setup V) (st : St V) (wt : Nat → V) : (report c st wt).yield = Spec.yield c st.phii wt := by
  show ‖ovSum c st.phii wt c.ntargets‖ = _
  rw [ovSum_eq]
  unfold Spec.yield
  cases c.operators
  · cases c.phase
    · simp only [Bool.false_eq_true, if_false]
      rw [← Complex.ofReal_sum, Complex.norm_real, Real.norm_of_nonneg]
      · exact Finset.sum_congr rfl fun t _ => (sq _).symm
      · exact Finset.sum_nonneg fun t _ => mul_self_nonneg _
    · simp only [Bool.false_eq_true, if_false, if_true]
  · simp only [if_true]
    rw [← Complex.ofReal_sum, Complex.norm_real, Real.norm_of_nonneg]
    · exact Finset.sum_congr rfl fun t _ => by rw [Complex.norm_real, Real.norm_eq_abs]
    · exact Finset.sum_nonneg fun t _ => norm_nonneg _

theorem corrLoop_eq (c : Setup V) (wi wt : Nat → V) (n : Nat) :
    corrLoop c wi wt n = ∑ t ∈ Finset.range n,
      (if c.phase then (inner ℂ (wt t) (c.mu (wi t)) : ℂ)
        else (inner ℂ (wi t) (wt t) : ℂ) * inner ℂ (wt t) (c.mu (wi t))).im := by
  induction n with
  | zero => rfl
  | succ n ih => rw [Finset.sum_range_succ, ← ih]; rfl

end

end QDng.Oct
