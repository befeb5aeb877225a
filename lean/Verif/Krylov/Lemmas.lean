import Verif.Krylov.Spec
import Mathlib.LinearAlgebra.Lagrange
import Mathlib.Algebra.BigOperators.Fin
import Mathlib.Data.Matrix.Basic

namespace QDng.Krylov

open QDng.Krylov.Spec

variable {V : Type} [NormedAddCommGroup V] [InnerProductSpace ℂ V]

/-! ### Diagonalised matrices -/

section Ritz

variable {n : ℕ} {T Z W : Matrix (Fin n) (Fin n) ℂ} {d : Fin n → ℂ}

theorem pow_mul (hTZ : T * Z = Z * Matrix.diagonal d) (k : ℕ) :
    T ^ k * Z = Z * Matrix.diagonal (fun j => d j ^ k) := by
  induction k with
  | zero => simp
  | succ k ih =>
    rw [pow_succ, Matrix.mul_assoc, hTZ, ← Matrix.mul_assoc, ih, Matrix.mul_assoc,
      Matrix.diagonal_mul_diagonal]
    simp only [pow_succ]

theorem pow_entry (hTZ : T * Z = Z * Matrix.diagonal d) (hZW : Z * W = 1) (k : ℕ) (i z : Fin n) :
    (T ^ k) i z = ∑ j, Z i j * (W j z * d j ^ k) := by
  have h : T ^ k = Z * Matrix.diagonal (fun j => d j ^ k) * W := by
    rw [← pow_mul hTZ, Matrix.mul_assoc, hZW, Matrix.mul_one]
  rw [h, Matrix.mul_apply]
  apply Finset.sum_congr rfl
  intro j _
  rw [Matrix.mul_diagonal]
  ring

/-- A function of the matrix is a polynomial of the matrix. -/
theorem coef_poly (hTZ : T * Z = Z * Matrix.diagonal d) (hZW : Z * W = 1) (f : ℂ → ℂ) :
    ∃ p : Polynomial ℂ, ∀ i z, ∑ j, Z i j * (W j z * f (d j)) =
      ∑ k ∈ Finset.range (p.natDegree + 1), p.coeff k * (T ^ k) i z := by
  classical
  let S : Finset ℂ := Finset.univ.image d
  let p := Lagrange.interpolate S id f
  have hp : ∀ j, p.eval (d j) = f (d j) := by
    intro j
    have hm : d j ∈ S := Finset.mem_image_of_mem d (Finset.mem_univ j)
    exact Lagrange.eval_interpolate_at_node (s := S) (v := id) (i := d j) f
      (Function.injective_id.injOn) hm
  refine ⟨p, fun i z => ?_⟩
  simp only [pow_entry hTZ hZW, Finset.mul_sum]
  rw [Finset.sum_comm]
  apply Finset.sum_congr rfl
  intro j _
  rw [← hp j, Polynomial.eval_eq_sum_range, Finset.mul_sum, Finset.mul_sum]
  apply Finset.sum_congr rfl
  intro k _
  ring

/-- The coefficients in front of an eigenvector. -/
theorem coef_eigen (hTZ : T * Z = Z * Matrix.diagonal d) (hZW : Z * W = 1) (f : ℂ → ℂ)
    {v : Fin n → ℂ} {l : ℂ} (hv : T.mulVec v = l • v) (i : Fin n) :
    ∑ j, Z i j * (W.mulVec v j * f (d j)) = f l * v i := by
  have hWZ : W * Z = 1 := mul_eq_one_comm.1 hZW
  have hWT : W * T = Matrix.diagonal d * W := by
    calc W * T = W * (T * (Z * W)) := by rw [hZW, Matrix.mul_one]
      _ = W * (T * Z) * W := by simp only [Matrix.mul_assoc]
      _ = W * (Z * Matrix.diagonal d) * W := by rw [hTZ]
      _ = (W * Z) * Matrix.diagonal d * W := by simp only [Matrix.mul_assoc]
      _ = Matrix.diagonal d * W := by rw [hWZ, Matrix.one_mul]
  have hd : ∀ j, d j * W.mulVec v j = l * W.mulVec v j := by
    intro j
    have h1 : (W * T).mulVec v j = l * W.mulVec v j := by
      rw [← Matrix.mulVec_mulVec, hv, Matrix.mulVec_smul]
      rfl
    rw [hWT, ← Matrix.mulVec_mulVec, Matrix.mulVec_diagonal] at h1
    exact h1
  have hf : ∀ j, W.mulVec v j * f (d j) = f l * W.mulVec v j := by
    intro j
    by_cases h0 : W.mulVec v j = 0
    · rw [h0]; ring
    · have : d j = l := mul_right_cancel₀ h0 (hd j)
      rw [this]; ring
  simp only [hf]
  have h2 : v i = ∑ j, Z i j * W.mulVec v j := by
    have : (Z * W).mulVec v i = v i := by rw [hZW, Matrix.one_mulVec]
    rw [← this, ← Matrix.mulVec_mulVec]
    rfl
  conv_rhs => rw [h2, Finset.mul_sum]
  apply Finset.sum_congr rfl
  intro j _
  ring

end Ritz

/-! ### Krylov spaces -/

/-- The relations between a Hamiltonian, the basis vectors and the small matrix. -/
structure Kry (H : V →ₗ[ℂ] V) (q : ℕ → V) (n conv : ℕ) (T : Matrix (Fin n) (Fin n) ℂ) : Prop where
  hess : ∀ i j : Fin n, j.val + 1 < i.val → T i j = 0
  block : ∀ i j : Fin n, j.val < conv → conv ≤ i.val → T i j = 0
  col : ∀ j : Fin n, j.val + 1 < conv → H (q j) = ∑ i, T i j • q i

section KryLemmas

variable {H : V →ₗ[ℂ] V} {q : ℕ → V} {n conv : ℕ} {T : Matrix (Fin n) (Fin n) ℂ}

theorem Kry.pow_hess (K : Kry H q n conv T) {z : Fin n} (hz : z.val = 0) (k : ℕ) (i : Fin n)
    (h : k < i.val) : (T ^ k) i z = 0 := by
  induction k generalizing i with
  | zero =>
    rw [pow_zero, Matrix.one_apply_ne]
    intro he
    rw [he] at h
    omega
  | succ k ih =>
    rw [pow_succ', Matrix.mul_apply]
    apply Finset.sum_eq_zero
    intro j _
    by_cases hj : k < j.val
    · rw [ih j hj, mul_zero]
    · rw [K.hess i j (by omega), zero_mul]

theorem Kry.pow_block (K : Kry H q n conv T) {z : Fin n} (hz : z.val = 0) (hc : 0 < conv) (k : ℕ)
    (i : Fin n) (h : conv ≤ i.val) : (T ^ k) i z = 0 := by
  induction k generalizing i with
  | zero =>
    rw [pow_zero, Matrix.one_apply_ne]
    intro he
    rw [he] at h
    omega
  | succ k ih =>
    rw [pow_succ', Matrix.mul_apply]
    apply Finset.sum_eq_zero
    intro j _
    by_cases hj : conv ≤ j.val
    · rw [ih j hj, mul_zero]
    · rw [K.block i j (by omega) h, zero_mul]

theorem Kry.moment (K : Kry H q n conv T) {z : Fin n} (hz : z.val = 0) (k : ℕ) (hk : k < conv) :
    ∑ i, (T ^ k) i z • q i = (H ^ k) (q 0) := by
  induction k with
  | zero =>
    rw [pow_zero, pow_zero, Finset.sum_eq_single z]
    · rw [Matrix.one_apply_eq, one_smul, hz]
      rfl
    · intro i _ hi
      rw [Matrix.one_apply_ne hi, zero_smul]
    · simp
  | succ k ih =>
    rw [pow_succ' H, Module.End.mul_apply, ← ih (by omega), map_sum]
    have h1 : ∀ j : Fin n, H ((T ^ k) j z • q j) = ∑ i, (T i j * (T ^ k) j z) • q i := by
      intro j
      rw [map_smul]
      by_cases hj : j.val + 1 < conv
      · rw [K.col j hj, Finset.smul_sum]
        apply Finset.sum_congr rfl
        intro i _
        rw [smul_smul, mul_comm]
      · rw [K.pow_hess hz k j (by omega), zero_smul]
        symm
        apply Finset.sum_eq_zero
        intro i _
        rw [mul_zero, zero_smul]
    simp only [h1]
    rw [Finset.sum_comm]
    apply Finset.sum_congr rfl
    intro i _
    rw [← Finset.sum_smul, pow_succ', Matrix.mul_apply]

/-- The first moments of the small matrix are those of the Hamiltonian. -/
theorem Kry.agrees (K : Kry H q n conv T) {Z W : Matrix (Fin n) (Fin n) ℂ} {d : Fin n → ℂ}
    (hTZ : T * Z = Z * Matrix.diagonal d) (hZW : Z * W = 1) {z : Fin n} (hz : z.val = 0)
    (k : ℕ) (hk : k < conv) :
    ∑ j, d j ^ k • ∑ i, (Z i j * W j z) • q i = (H ^ k) (q 0) := by
  rw [← K.moment hz k hk]
  simp only [pow_entry hTZ hZW, Finset.sum_smul, Finset.smul_sum, smul_smul]
  rw [Finset.sum_comm]
  apply Finset.sum_congr rfl
  intro i _
  apply Finset.sum_congr rfl
  intro j _
  congr 1
  ring

/-- Outside of the block the coefficients vanish. -/
theorem Kry.coef_zero (K : Kry H q n conv T) {Z W : Matrix (Fin n) (Fin n) ℂ} {d : Fin n → ℂ}
    (hTZ : T * Z = Z * Matrix.diagonal d) (hZW : Z * W = 1) {z : Fin n} (hz : z.val = 0)
    (hc : 0 < conv) (f : ℂ → ℂ) (i : Fin n) (hi : conv ≤ i.val) :
    ∑ j, Z i j * (W j z * f (d j)) = 0 := by
  obtain ⟨p, hp⟩ := coef_poly hTZ hZW f
  rw [hp]
  apply Finset.sum_eq_zero
  intro k _
  rw [K.pow_block hz hc k i hi, mul_zero]

/-- In an invariant space the eigenvectors of the small matrix are those of the Hamiltonian. -/
theorem Kry.eigenvector {Z : Matrix (Fin n) (Fin n) ℂ} {d : Fin n → ℂ}
    (hcol : ∀ j : Fin n, H (q j) = ∑ i, T i j • q i)
    (hTZ : T * Z = Z * Matrix.diagonal d) (j : Fin n) :
    H (∑ i, Z i j • q i) = d j • ∑ i, Z i j • q i := by
  rw [map_sum]
  simp only [map_smul, hcol, Finset.smul_sum, smul_smul]
  rw [Finset.sum_comm]
  apply Finset.sum_congr rfl
  intro i _
  rw [← Finset.sum_smul]
  congr 1
  have h := congrFun (congrFun hTZ i) j
  rw [Matrix.mul_apply, Matrix.mul_diagonal] at h
  rw [mul_comm (d j), ← h]
  apply Finset.sum_congr rfl
  intro l _
  ring

end KryLemmas

/-! ### Linear combinations -/

theorem combine_eq (q : ℕ → V) (c : ℕ → ℂ) (ψ : V) (conv : ℕ) (h0 : q 0 = ψ) (hc : 0 < conv) :
    combine q c ψ conv = ∑ i ∈ Finset.range conv, c i • q i := by
  obtain ⟨m, rfl⟩ : ∃ m, conv = m + 1 := ⟨conv - 1, by omega⟩
  rw [Finset.sum_range_succ', h0]
  unfold combine
  rw [Nat.add_sub_cancel]
  induction m with
  | zero => simp
  | succ m ih =>
    rw [List.range_succ, List.foldl_append, ih (by omega), Finset.sum_range_succ]
    simp only [List.foldl_cons, List.foldl_nil]
    abel

theorem sum_arr {n : ℕ} (q : ℕ → V) (c : Fin n → ℂ) (conv : ℕ) (hle : conv ≤ n)
    (hz : ∀ i : Fin n, conv ≤ i.val → c i = 0) :
    ∑ i ∈ Finset.range conv, arr c i • q i = ∑ i, c i • q i := by
  have h1 : ∑ i ∈ Finset.range conv, arr c i • q i = ∑ i ∈ Finset.range n, arr c i • q i := by
    apply Finset.sum_subset
    · intro i hi
      rw [Finset.mem_range] at *
      omega
    · intro i hi hi'
      rw [Finset.mem_range] at *
      rw [arr, dif_pos hi, hz ⟨i, hi⟩ (by simpa using hi'), zero_smul]
  rw [h1, Finset.sum_range]
  apply Finset.sum_congr rfl
  intro i _
  rw [arr, dif_pos i.isLt]

end QDng.Krylov
