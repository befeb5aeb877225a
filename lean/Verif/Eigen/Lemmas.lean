import Verif.Eigen.Model
import Verif.Peak.Props
import Mathlib.Analysis.InnerProductSpace.Orthonormal
import Mathlib.LinearAlgebra.FiniteDimensional.Basic
import Mathlib.LinearAlgebra.Dimension.Constructions
import Mathlib.Algebra.Ring.GeomSum
import Mathlib.Tactic.FieldSimp
import Mathlib.Tactic.LinearCombination

namespace QDng.Eigen

variable {V : Type} [NormedAddCommGroup V] [InnerProductSpace ℂ V]

/-! ### Relaxation -/

/-- The functions of a list are orthonormal. -/
def ON (S : List V) : Prop := (∀ φ ∈ S, inner ℂ φ φ = (1 : ℂ)) ∧ S.Pairwise fun φ χ => inner ℂ φ χ = (0 : ℂ)

theorem on_orthonormal (S : List V) (h : ON S) : Orthonormal ℂ fun i : Fin S.length => S[i] := by
  rw [orthonormal_iff_ite]
  intro i j
  by_cases hij : i = j
  · subst hij
    rw [if_pos rfl]
    exact h.1 _ (List.getElem_mem _)
  · rw [if_neg hij]
    rcases Nat.lt_or_ge i.1 j.1 with hl | hl
    · exact List.pairwise_iff_getElem.1 h.2 i.1 j.1 i.2 j.2 hl
    · have := List.pairwise_iff_getElem.1 h.2 j.1 i.1 j.2 i.2 (by have : i.1 ≠ j.1 := fun e => hij (Fin.ext e); omega)
      exact inner_eq_zero_symm.1 this

theorem orthonormal_on (S : List V) (h : Orthonormal ℂ fun i : Fin S.length => S[i]) : ON S := by
  rw [orthonormal_iff_ite] at h
  constructor
  · intro φ hφ
    obtain ⟨i, hi, rfl⟩ := List.getElem_of_mem hφ
    have := h ⟨i, hi⟩ ⟨i, hi⟩
    rwa [if_pos rfl] at this
  · rw [List.pairwise_iff_getElem]
    intro i j hi hj hij
    have := h ⟨i, hi⟩ ⟨j, hj⟩
    rwa [if_neg (fun e => by have := Fin.mk.inj_iff.1 e; omega)] at this

theorem fold_orth (x φ : V) : ∀ (S : List V) (d : V), (∀ χ ∈ S, inner ℂ φ χ = (0 : ℂ)) →
    inner ℂ φ (S.foldl (fun d χ => d + (inner ℂ χ x : ℂ) • χ) d) = (inner ℂ φ d : ℂ) := by
  intro S
  induction S with
  | nil => intro d _; rfl
  | cons χ S ih =>
    intro d h
    rw [List.foldl_cons, ih _ (fun c hc => h c (List.mem_cons_of_mem _ hc)), inner_add_right, inner_smul_right,
      h χ List.mem_cons_self, mul_zero, add_zero]

theorem fold_mem (x : V) : ∀ (S : List V) (d : V), ON S → ∀ φ ∈ S,
    inner ℂ φ (S.foldl (fun d χ => d + (inner ℂ χ x : ℂ) • χ) d) = (inner ℂ φ d + inner ℂ φ x : ℂ) := by
  intro S
  induction S with
  | nil => intro d _ φ h; exact absurd h List.not_mem_nil
  | cons χ S ih =>
    intro d h φ hφ
    have hp := List.pairwise_cons.1 h.2
    rw [List.foldl_cons]
    rcases List.mem_cons.1 hφ with rfl | hφ'
    · rw [fold_orth x φ S _ hp.1, inner_add_right, inner_smul_right, h.1 φ hφ, mul_one]
    · rw [ih _ ⟨fun c hc => h.1 c (List.mem_cons_of_mem _ hc), hp.2⟩ φ hφ', inner_add_right, inner_smul_right,
        inner_eq_zero_symm.1 (hp.1 φ hφ'), mul_zero, add_zero]

theorem project_orth (S : List V) (h : ON S) (x φ : V) (hφ : φ ∈ S) : inner ℂ φ (x - project S x) = (0 : ℂ) := by
  unfold project
  rw [inner_sub_right, fold_mem x S 0 h φ hφ, inner_zero_right, zero_add, sub_self]

theorem normalize_some (ψ v : V) (h : normalize ψ = some v) : ψ ≠ 0 ∧ v = ((1 / ‖ψ‖ : ℝ) : ℂ) • ψ := by
  unfold normalize at h
  split at h
  · exact absurd h (by simp)
  · next h0 => exact ⟨h0, (Option.some.inj h).symm⟩

theorem normalize_norm (ψ v : V) (h : normalize ψ = some v) : inner ℂ v v = (1 : ℂ) := by
  obtain ⟨h0, rfl⟩ := normalize_some ψ v h
  have hn : ‖ψ‖ ≠ 0 := norm_ne_zero_iff.2 h0
  rw [inner_self_eq_norm_sq_to_K, norm_smul]
  simp only [Complex.norm_real, Real.norm_eq_abs, abs_of_nonneg (one_div_nonneg.2 (norm_nonneg ψ))]
  rw [one_div, inv_mul_cancel₀ hn]
  norm_num

theorem relaxStep_spec (U : V → V) (S : List V) (h : ON S) (b : Bool) (hb : b = false → S = []) (ψ v : V)
    (hv : relaxStep U b S ψ = some v) : inner ℂ v v = (1 : ℂ) ∧ ∀ φ ∈ S, inner ℂ φ v = (0 : ℂ) := by
  unfold relaxStep at hv
  refine ⟨normalize_norm _ _ hv, fun φ hφ => ?_⟩
  obtain ⟨_, rfl⟩ := normalize_some _ _ hv
  cases b with
  | false => rw [hb rfl] at hφ; exact absurd hφ List.not_mem_nil
  | true =>
    rw [if_pos rfl, inner_smul_right, project_orth S h _ φ hφ, mul_zero]

/-- Every function that a relaxation ends with is the result of a step, or the one it started with. -/
theorem relax_last (U : Nat → V → V) (conv : ℝ) (b : Bool) (S : List V) : ∀ (n s : Nat) (d : ℝ) (ψ v : V),
    relax U conv b S n s d ψ = some v → (v = ψ ∧ (n = 0 ∨ d ≤ conv)) ∨
      ∃ t u, s ≤ t ∧ t < s + n ∧ relaxStep (U t) b S u = some v ∧
        (‖(1 : ℂ) - inner ℂ u v‖ ≤ conv ∨ t + 1 = s + n) := by
  intro n
  induction n with
  | zero => intro s d ψ v h; exact Or.inl ⟨(Option.some.inj h).symm, Or.inl rfl⟩
  | succ n ih =>
    intro s d ψ v h
    rw [relax] at h
    split at h
    · next hd =>
      cases hr : relaxStep (U s) b S ψ with
      | none => rw [hr] at h; exact absurd h (by simp)
      | some ψ' =>
        rw [hr] at h
        rcases ih _ _ _ _ h with ⟨rfl, h2⟩ | ⟨t, u, h1, h2, h3, h4⟩
        · refine Or.inr ⟨s, ψ, le_refl _, by omega, hr, ?_⟩
          rcases h2 with h2 | h2
          · exact Or.inr (by omega)
          · exact Or.inl h2
        · refine Or.inr ⟨t, u, by omega, by omega, h3, ?_⟩
          rcases h4 with h4 | h4
          · exact Or.inl h4
          · exact Or.inr (by omega)
    · next hd => exact Or.inl ⟨(Option.some.inj h).symm, Or.inr (not_lt.1 hd)⟩

theorem relax_on (U : Nat → V → V) (conv : ℝ) (hc : conv < 1) (b : Bool) (S : List V) (h : ON S) (hb : b = false → S = [])
    (n : Nat) (hn : 0 < n) (ψ v : V) (hv : relax U conv b S n 0 1 ψ = some v) : ON (S ++ [v]) := by
  rcases relax_last U conv b S n 0 1 ψ v hv with ⟨_, h1 | h1⟩ | ⟨t, u, _, _, h3, _⟩
  · omega
  · exact absurd h1 (not_le.2 hc)
  · obtain ⟨h4, h5⟩ := relaxStep_spec (U t) S h b hb u v h3
    constructor
    · intro φ hφ
      rcases List.mem_append.1 hφ with h6 | h6
      · exact h.1 φ h6
      · rw [List.mem_singleton.1 h6]; exact h4
    · rw [List.pairwise_append]
      refine ⟨h.2, List.pairwise_singleton _ _, fun φ hφ χ hχ => ?_⟩
      rw [List.mem_singleton.1 hχ]
      exact h5 φ hφ

/-- What the loop over the eigenfunctions preserves. -/
structure Good (H : V → V) (S : List V) (st : St V) : Prop where
  on : ON st.P
  pre : ∃ new, st.P = S ++ new ∧ st.files = new.map some
  en : st.energies = st.P.map (expec H)

theorem efLoop_good (U : Nat → V → V) (H : V → V) (conv : ℝ) (hc : conv < 1) (maxSteps : Nat) (hm : 0 < maxSteps) (ψ0 : V) (S : List V) :
    ∀ (n i : Nat) (st r : St V), st.P.length = i → Good H S st → efLoop U H conv maxSteps ψ0 n i st = .ok r →
      Good H S r ∧ r.P.length = i + n := by
  intro n
  induction n with
  | zero =>
    intro i st r hl h hr
    cases hr
    exact ⟨h, hl⟩
  | succ n ih =>
    intro i st r hl h hr
    rw [efLoop] at hr
    cases hx : relax U conv (decide (0 < i)) st.P maxSteps 0 1 ψ0 with
    | none => rw [hx] at hr; exact absurd hr (by simp [store])
    | some v =>
      rw [hx] at hr
      obtain ⟨new, h1, h2⟩ := h.pre
      have := ih (i + 1) _ r (by simp [hl]) ⟨relax_on U conv hc _ st.P h.on ?_ maxSteps hm ψ0 v hx, ⟨new ++ [v], ?_, ?_⟩, ?_⟩ hr
      · exact ⟨this.1, by rw [this.2]; omega⟩
      · intro hb
        have : ¬ 0 < i := of_decide_eq_false hb
        exact List.length_eq_zero_iff.1 (by omega)
      · rw [h1, List.append_assoc]
      · rw [h2, List.map_append]; rfl
      · show st.energies ++ [expec H v] = _
        rw [h.en, List.map_append]; rfl

end QDng.Eigen
