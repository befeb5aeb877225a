import Verif.Krylov.SilLemmas
import Mathlib.LinearAlgebra.Dimension.Constructions
import Mathlib.LinearAlgebra.FiniteDimensional.Lemmas
import Mathlib.LinearAlgebra.Matrix.ConjTranspose

namespace QDng.Krylov

open QDng.Krylov.Spec

variable {V : Type} [NormedAddCommGroup V] [InnerProductSpace ℂ V]

/-! ### Krylov spaces as subspaces -/

/-- The Krylov space. -/
def KS (H : V →ₗ[ℂ] V) (ψ : V) (n : ℕ) : Submodule ℂ V := Submodule.span ℂ (Set.range (krylov H ψ n))

theorem pow_mem_KS (H : V →ₗ[ℂ] V) (ψ : V) {n k : ℕ} (h : k < n) : (H ^ k) ψ ∈ KS H ψ n :=
  Submodule.subset_span ⟨⟨k, h⟩, rfl⟩

theorem KS_mono (H : V →ₗ[ℂ] V) (ψ : V) {n m : ℕ} (h : n ≤ m) : KS H ψ n ≤ KS H ψ m := by
  unfold KS
  rw [Submodule.span_le]
  rintro _ ⟨k, rfl⟩
  exact pow_mem_KS H ψ (by omega)

theorem map_KS (H : V →ₗ[ℂ] V) (ψ : V) {n : ℕ} {x : V} (h : x ∈ KS H ψ n) : H x ∈ KS H ψ (n + 1) := by
  unfold KS at h
  obtain ⟨c, rfl⟩ := (Submodule.mem_span_range_iff_exists_fun ℂ).1 h
  rw [map_sum]
  apply Submodule.sum_mem
  intro i _
  rw [map_smul]
  apply Submodule.smul_mem
  have : H (krylov H ψ n i) = (H ^ (i.val + 1)) ψ := by
    rw [pow_succ', Module.End.mul_apply]; rfl
  rw [this]
  exact pow_mem_KS H ψ (by omega)

theorem pow_mem_of_inv {H : V →ₗ[ℂ] V} {ψ : V} {S : Submodule ℂ V} (h0 : ψ ∈ S)
    (hS : ∀ x ∈ S, H x ∈ S) (k : ℕ) : (H ^ k) ψ ∈ S := by
  induction k with
  | zero => simpa using h0
  | succ k ih =>
    rw [pow_succ', Module.End.mul_apply]
    exact hS _ ih

/-- The space of the first vectors of a basis. -/
def QS (q : ℕ → V) (n : ℕ) : Submodule ℂ V := Submodule.span ℂ (Set.range (fun i : Fin n => q i))

theorem q_mem_QS (q : ℕ → V) {n i : ℕ} (h : i < n) : q i ∈ QS q n :=
  Submodule.subset_span ⟨⟨i, h⟩, rfl⟩

theorem QS_inv {H : V →ₗ[ℂ] V} {q : ℕ → V} {n : ℕ} (h : ∀ i < n, H (q i) ∈ QS q n) :
    ∀ x ∈ QS q n, H x ∈ QS q n := by
  intro x hx
  obtain ⟨c, rfl⟩ := (Submodule.mem_span_range_iff_exists_fun ℂ).1 hx
  rw [map_sum]
  apply Submodule.sum_mem
  intro i _
  rw [map_smul]
  exact Submodule.smul_mem _ _ (h i i.isLt)

/-- More Krylov vectors than dimensions of an invariant space are dependent. -/
theorem dependent_of_inv {H : V →ₗ[ℂ] V} {ψ : V} {q : ℕ → V} {n order : ℕ} (h0 : ψ ∈ QS q n)
    (h : ∀ i < n, H (q i) ∈ QS q n) (hn : n < order) :
    ¬ LinearIndependent ℂ (krylov H ψ order) := by
  intro hli
  have h1 := finrank_span_eq_card hli
  have hle : Submodule.span ℂ (Set.range (krylov H ψ order)) ≤ QS q n := by
    rw [Submodule.span_le]
    rintro _ ⟨k, rfl⟩
    exact pow_mem_of_inv h0 (QS_inv h) k
  have : FiniteDimensional ℂ (QS q n) := FiniteDimensional.span_of_finite ℂ (Set.finite_range _)
  have h2 := Submodule.finrank_mono hle
  have h3 : Module.finrank ℂ (QS q n) ≤ n := by
    have := finrank_range_le_card (R := ℂ) (b := fun i : Fin n => q i)
    rw [Fintype.card_fin] at this
    exact this
  rw [h1, Fintype.card_fin] at h2
  omega

theorem orth_orthonormal {m : ℕ} {q : ℕ → V} (O : Orth m q) :
    Orthonormal ℂ (fun i : Fin (m + 1) => q i) := by
  classical
  rw [orthonormal_iff_ite]
  intro i j
  rw [O i j (by omega) (by omega)]
  simp [Fin.ext_iff]

/-- Expansion in an orthonormal basis. -/
theorem expand {m : ℕ} {q : ℕ → V} (O : Orth m q) {x : V} (hx : x ∈ QS q (m + 1)) :
    x = ∑ i : Fin (m + 1), (inner ℂ (q i) x : ℂ) • q i := by
  obtain ⟨c, rfl⟩ := (Submodule.mem_span_range_iff_exists_fun ℂ).1 hx
  apply Finset.sum_congr rfl
  intro i _
  congr 1
  rw [inner_sum, Finset.sum_eq_single i]
  · rw [inner_smul_right, O i i (by omega) (by omega), if_pos rfl, mul_one]
  · intro j _ hj
    rw [inner_smul_right, O i j (by omega) (by omega), if_neg (fun h => hj (Fin.ext h.symm)), mul_zero]
  · simp

/-- Where the recursion can stop. -/
theorem loop_none {H : V →ₗ[ℂ] V} {ψ : V} {dt tol : ℝ} :
    ∀ (k m : ℕ) (s : Lz V), LRec H ψ (m + 1) s → silLoop H dt tol k (m + 2) s = none →
      ∃ (l : ℕ) (s' : Lz V), l < m + k ∧ LRec H ψ (l + 1) s' ∧
        H (s'.q (l + 1)) ∈ QS s'.q (l + 2) := by
  intro k
  induction k with
  | zero => intro m s I h; simp [silLoop] at h
  | succ k ih =>
    intro m s I h
    rw [silLoop] at h
    simp only [show m + 2 - 1 = m + 1 by omega, show m + 2 - 2 = m by omega] at h
    split at h
    · rename_i hb
      refine ⟨m, s, by omega, I, ?_⟩
      have h0 := norm_eq_zero.1 hb
      rw [sub_sub, sub_eq_zero] at h0
      rw [h0]
      exact Submodule.add_mem _ (Submodule.smul_mem _ _ (q_mem_QS _ (by omega)))
        (Submodule.smul_mem _ _ (q_mem_QS _ (by omega)))
    · rename_i hb
      have I' := step_rec I rfl rfl hb (s.conv + 1)
      split at h
      · cases h
      · obtain ⟨l, s', h1, h2, h3⟩ := ih (m + 1) _ I' h
        exact ⟨l, s', by omega, h2, h3⟩

theorem rec_QS {H : V →ₗ[ℂ] V} {ψ : V} {m : ℕ} {s : Lz V} (I : LRec H ψ m s) {i : ℕ} (hi : i < m) :
    H (s.q i) ∈ QS s.q (m + 1) := by
  rw [I.step i hi]
  refine Submodule.add_mem _ (Submodule.add_mem _ (Submodule.smul_mem _ _ (q_mem_QS _ (by omega)))
    (Submodule.smul_mem _ _ (q_mem_QS _ (by omega)))) ?_
  split
  · exact Submodule.zero_mem _
  · exact Submodule.smul_mem _ _ (q_mem_QS _ (by omega))

theorem build_none {H : V →ₗ[ℂ] V} {order : ℕ} (ho : 3 ≤ order) {dt err : ℝ} {stale : ℕ → V} {ψ : V}
    (hs : silBuild H order dt err stale ψ = none) : ¬ LinearIndependent ℂ (krylov H ψ order) := by
  unfold silBuild at hs
  cases h0 : silStart H stale ψ with
  | none =>
    unfold silStart at h0
    simp only at h0
    split at h0
    · rename_i hb
      have h1 := norm_eq_zero.1 hb
      rw [sub_eq_zero] at h1
      refine dependent_of_inv (q := fun _ => ψ) (n := 1) (q_mem_QS (fun _ => ψ) (i := 0) (by omega)) ?_
        (by omega)
      intro i _
      rw [h1]
      exact Submodule.smul_mem _ _ (q_mem_QS (fun _ => ψ) (i := 0) (by omega))
    · cases h0
  | some s0 =>
    rw [h0] at hs
    simp only at hs
    obtain ⟨I0, _⟩ := start_rec h0
    cases h1 : silLoop H dt (err * ‖ψ‖) (order - 2) 2 s0 with
    | some r => rw [h1] at hs; cases hs
    | none =>
      obtain ⟨l, s', hl, I, hr⟩ := loop_none (order - 2) 0 s0 I0 h1
      refine dependent_of_inv (q := s'.q) (n := l + 2) ?_ ?_ (by omega)
      · rw [← I.zero]; exact q_mem_QS _ (by omega)
      · intro i hi
        by_cases h2 : i = l + 1
        · subst h2; exact hr
        · exact rec_QS I (by omega)

/-- The Lanczos vectors lie in the Krylov spaces. -/
theorem Built.q_mem {H : V →ₗ[ℂ] V} {ψ : V} {order m : ℕ} {full : Prop} {s : Lz V}
    (B : Built H ψ order m full s) : ∀ j, j ≤ m → s.q j ∈ KS H ψ (j + 1) := by
  intro j
  induction j using Nat.strong_induction_on with
  | _ j ih =>
    intro hj
    cases j with
    | zero =>
      rw [B.zero]
      simpa using pow_mem_KS H ψ (n := 1) (k := 0) (by omega)
    | succ j =>
      have hb := B.pos j (by omega)
      have hbc : (s.beta j : ℂ) ≠ 0 := by exact_mod_cast hb.ne'
      have hs := B.step j (by omega)
      have hq : s.q (j + 1) = (s.beta j : ℂ)⁻¹ • (H (s.q j) - (s.alpha j : ℂ) • s.q j -
          (if j = 0 then 0 else (s.beta (j - 1) : ℂ) • s.q (j - 1))) := by
        rw [hs, eq_inv_smul_iff₀ hbc]
        abel
      rw [hq]
      apply Submodule.smul_mem
      refine Submodule.sub_mem _ (Submodule.sub_mem _ (map_KS H ψ (ih j (by omega) (by omega)))
        (Submodule.smul_mem _ _ (KS_mono H ψ (by omega) (ih j (by omega) (by omega))))) ?_
      split
      · exact Submodule.zero_mem _
      · exact Submodule.smul_mem _ _ (KS_mono H ψ (by omega) (ih (j - 1) (by omega) (by omega)))

/-- The Krylov vectors lie in the space of the Lanczos vectors. -/
theorem Built.pow_mem {H : V →ₗ[ℂ] V} {ψ : V} {order m : ℕ} {full : Prop} {s : Lz V}
    (B : Built H ψ order m full s) (k : ℕ) (hk : k ≤ m) : (H ^ k) ψ ∈ QS s.q (m + 1) := by
  have hle := B.le
  let z : Fin order := ⟨0, by omega⟩
  rw [← B.zero, ← B.kry.moment (z := z) rfl k (by omega)]
  apply Submodule.sum_mem
  intro i _
  by_cases hi : i.val < m + 1
  · exact Submodule.smul_mem _ _ (q_mem_QS _ hi)
  · rw [B.kry.pow_block (z := z) rfl (by omega) k i (by omega), zero_smul]
    exact Submodule.zero_mem _

/-- The small matrix is the Hamiltonian between the Lanczos vectors. -/
theorem Built.proj {H : V →ₗ[ℂ] V} (hH : H.IsSymmetric) {ψ : V} (hψ : ‖ψ‖ = 1) {order m : ℕ}
    {full : Prop} {s : Lz V} (B : Built H ψ order m full s) (hf : full) (i j : Fin order) :
    triC order s.alpha s.beta i j = inner ℂ (s.q i) (H (s.q j)) := by
  have O := B.orth hH hψ
  obtain ⟨hm, hl⟩ := B.last hf
  have key : ∀ i j : Fin order, i.val ≤ m → j.val < m →
      triC order s.alpha s.beta i j = inner ℂ (s.q i) (H (s.q j)) := by
    intro i j hi hj
    rw [B.step j hj, inner_add_right, inner_add_right, inner_smul_right, inner_smul_right,
      O i j hi (by omega), O i (j + 1) hi (by omega)]
    simp only [triC, tri, Matrix.map_apply]
    by_cases h1 : i.val = j.val
    · rw [if_pos h1, if_pos h1, if_neg (by omega), h1]
      by_cases h0 : j.val = 0
      · rw [if_pos h0, inner_zero_right]; simp
      · rw [if_neg h0, inner_smul_right, O j (j - 1) (by omega) (by omega), if_neg (by omega)]; simp
    · rw [if_neg h1, if_neg h1]
      by_cases h2 : i.val = j.val + 1
      · rw [if_pos h2, if_pos h2]
        by_cases h0 : j.val = 0
        · rw [if_pos h0, inner_zero_right]; simp
        · rw [if_neg h0, inner_smul_right, O i (j - 1) hi (by omega), if_neg (by omega)]; simp
      · rw [if_neg h2, if_neg h2]
        by_cases h3 : j.val = i.val + 1
        · rw [if_pos h3, if_neg (by omega), inner_smul_right, O i (j - 1) hi (by omega),
            if_pos (by omega), show j.val - 1 = i.val by omega]
          simp
        · rw [if_neg h3]
          by_cases h0 : j.val = 0
          · rw [if_pos h0, inner_zero_right]; simp
          · rw [if_neg h0, inner_smul_right, O i (j - 1) hi (by omega), if_neg (by omega)]; simp
  by_cases hj : j.val < m
  · exact key i j (by omega) hj
  · have hjm : j.val = m := by omega
    by_cases hi : i.val < m
    · have h1 := key j i (by omega) hi
      have h2 : triC order s.alpha s.beta i j = triC order s.alpha s.beta j i := by
        simp only [triC, tri, Matrix.map_apply]
        rw [if_neg (by omega), if_neg (show ¬ j.val = i.val by omega), if_neg (by omega)]
        by_cases h3 : j.val = i.val + 1
        · rw [if_pos h3, if_pos h3]
        · rw [if_neg h3, if_neg h3, if_neg (by omega)]
      have h3 : (starRingEnd ℂ) (triC order s.alpha s.beta j i) = triC order s.alpha s.beta j i := by
        simp [triC, Matrix.map_apply]
      rw [h2, ← h3, h1, inner_conj_symm, hH]
    · have him : i.val = m := by omega
      have : i = j := Fin.ext (by omega)
      subst this
      simp only [triC, tri, Matrix.map_apply, if_true]
      rw [him, hl, inner_real hH]

/-! ### Norm and energy in the small space -/

theorem unitary_form {n : ℕ} {Z : Matrix (Fin n) (Fin n) ℂ} (M D : Matrix (Fin n) (Fin n) ℂ)
    (hD : Z.conjTranspose * (M * Z) = D) (u : Fin n → ℂ) :
    dotProduct (star (Z.mulVec u)) (M.mulVec (Z.mulVec u)) = dotProduct (star u) (D.mulVec u) := by
  rw [Matrix.star_mulVec, ← Matrix.dotProduct_mulVec, Matrix.mulVec_mulVec, Matrix.mulVec_mulVec,
    Matrix.mul_assoc, hD]

theorem evec_ct (L : TriDiag) (n : ℕ) (a b : ℕ → ℝ) :
    ((L.evec n a b).map (fun x : ℝ => (x : ℂ))).conjTranspose =
      ((L.evec n a b).map (fun x : ℝ => (x : ℂ))).transpose := by
  ext i j
  simp [Matrix.conjTranspose_apply]

theorem silCoef_mulVec (L : TriDiag) (n : ℕ) (a b : ℕ → ℝ) (tau : ℂ) (z : Fin n) (hz : z.val = 0) :
    silCoef L n a b tau = ((L.evec n a b).map (fun x : ℝ => (x : ℂ))).mulVec
      (fun j => (L.evec n a b z j : ℂ) * Complex.exp ((L.eval n a b j : ℂ) * tau)) := by
  funext i
  rw [silCoef_eq L n a b tau z hz]
  rfl

theorem exp_unit {x : ℝ} {tau : ℂ} (ht : tau.re = 0) :
    (starRingEnd ℂ) (Complex.exp ((x : ℂ) * tau)) * Complex.exp ((x : ℂ) * tau) = 1 := by
  rw [← Complex.normSq_eq_conj_mul_self, Complex.normSq_eq_norm_sq, Complex.norm_exp]
  simp [ht]

/-- A quadratic form of the coefficients that does not depend on time. -/
theorem coef_form (L : TriDiag) {n : ℕ} (a b : ℕ → ℝ) {tau : ℂ} (ht : tau.re = 0) (z : Fin n)
    (hz : z.val = 0) (M : Matrix (Fin n) (Fin n) ℂ) (f : Fin n → ℂ)
    (hM : M * (L.evec n a b).map (fun x : ℝ => (x : ℂ)) =
      (L.evec n a b).map (fun x : ℝ => (x : ℂ)) * Matrix.diagonal f) :
    dotProduct (star (silCoef L n a b tau)) (M.mulVec (silCoef L n a b tau)) = M z z := by
  have hO := evec_orth L n a b
  have hO' : ((L.evec n a b).map (fun x : ℝ => (x : ℂ))).transpose *
      (L.evec n a b).map (fun x : ℝ => (x : ℂ)) = 1 := mul_eq_one_comm.1 hO
  rw [silCoef_mulVec L n a b tau z hz, unitary_form M (Matrix.diagonal f) (by
    rw [hM, evec_ct, ← Matrix.mul_assoc, hO', Matrix.one_mul])]
  have h1 : M z z = ∑ j, (L.evec n a b z j : ℂ) * (L.evec n a b z j : ℂ) * f j := by
    have h2 : M = (L.evec n a b).map (fun x : ℝ => (x : ℂ)) * Matrix.diagonal f *
        ((L.evec n a b).map (fun x : ℝ => (x : ℂ))).transpose := by
      rw [← hM, Matrix.mul_assoc, hO, Matrix.mul_one]
    conv_lhs => rw [h2]
    rw [Matrix.mul_apply]
    apply Finset.sum_congr rfl
    intro j _
    rw [Matrix.mul_diagonal]
    simp only [Matrix.map_apply, Matrix.transpose_apply]
    ring
  rw [h1]
  simp only [dotProduct, Matrix.mulVec_diagonal, Pi.star_apply]
  apply Finset.sum_congr rfl
  intro j _
  rw [star_mul', Complex.star_def, Complex.conj_ofReal]
  have := exp_unit (x := L.eval n a b j) ht
  linear_combination (L.evec n a b z j : ℂ) * (L.evec n a b z j : ℂ) * f j * this

end QDng.Krylov
