import Verif.HMat.Model
import Mathlib.Analysis.Normed.Algebra.MatrixExponential
import Mathlib.Analysis.SpecialFunctions.Exponential
import Mathlib.Analysis.Matrix.Spectrum
import Mathlib.Data.Fin.Tuple.Sort
import Mathlib.Tactic.Ring
import Mathlib.Tactic.Linarith
import Mathlib.Tactic.NormNum
import Mathlib.Algebra.BigOperators.Fin
import Mathlib.Algebra.Order.BigOperators.Group.Finset

/-
Lemmas for the matrix operator.
-/

namespace QDng.HMat

open QDng.Common Matrix

variable {n : Nat}

/-- A real matrix as a complex one. -/
noncomputable def cpl (M : RMat n) : Matrix (Fin n) (Fin n) ℂ := M.map (algebraMap ℝ ℂ)

theorem foldl_sum {A : Type} (f : A → ℂ) (l : List A) (b : ℂ) :
    l.foldl (fun b j => b + f j) b = b + (l.map f).sum := by
  induction l generalizing b with
  | nil => simp
  | cons a l ih => rw [List.foldl_cons, ih, List.map_cons, List.sum_cons, add_assoc]

theorem matVec_eq (M : RMat n) (ψ : Fin n → ℂ) : matVec M false ψ = (cpl M).mulVec ψ := by
  funext i
  unfold matVec
  rw [foldl_sum, zero_add, ← List.ofFn_eq_map, List.sum_ofFn]
  rfl

theorem matVec_transpose (M : RMat n) (ψ : Fin n → ℂ) : matVec M true ψ = (cpl Mᵀ).mulVec ψ := by
  funext i
  unfold matVec
  rw [foldl_sum, zero_add, ← List.ofFn_eq_map, List.sum_ofFn]
  rfl

theorem cpl_mul (A B : RMat n) : cpl (A * B) = cpl A * cpl B := by
  unfold cpl
  exact Matrix.map_mul

theorem cpl_one : cpl (1 : RMat n) = 1 := Matrix.map_one _ (map_zero _) (map_one _)

theorem cpl_diag (d : Fin n → ℝ) : cpl (Matrix.diagonal d) = Matrix.diagonal fun i => (d i : ℂ) := by
  unfold cpl
  rw [Matrix.diagonal_map (map_zero _)]
  rfl

theorem upper_symm (M : RMat n) (h : M.IsSymm) : upper M = M := by
  ext r c
  unfold upper
  split
  · rfl
  · exact h.apply _ _

theorem upper_isSymm (M : RMat n) : (upper M).IsSymm := by
  ext r c
  show upper M c r = upper M r c
  unfold upper
  rcases lt_trichotomy r c with h | h | h
  · rw [if_neg (not_le.mpr h), if_pos h.le]
  · rw [h]
  · rw [if_pos h.le, if_neg (not_le.mpr h)]

/-- The matrix from its eigenvalues and eigenvectors. -/
theorem Lapack.Ok.decomp {L : Lapack n} (h : L.Ok) (M : RMat n) :
    upper M = L.vecs M * Matrix.diagonal (L.vals M) * (L.vecs M)ᵀ := by
  rw [← h.eigen, Matrix.mul_assoc, mul_eq_one_comm.mp (h.ortho M), Matrix.mul_one]

theorem exp_decomp (X : RMat n) (d : Fin n → ℝ) (hX : Xᵀ * X = 1) (c : ℂ) :
    cpl X * Matrix.diagonal (fun i => Complex.exp ((d i : ℂ) * c)) * cpl Xᵀ =
      NormedSpace.exp (c • cpl (X * Matrix.diagonal d * Xᵀ)) := by
  have h1 : cpl Xᵀ * cpl X = 1 := by rw [← cpl_mul, hX, cpl_one]
  have h2 : cpl X * cpl Xᵀ = 1 := mul_eq_one_comm.mp h1
  have hinv : (cpl X)⁻¹ = cpl Xᵀ := Matrix.inv_eq_right_inv h2
  have hu : IsUnit (cpl X) := ⟨⟨cpl X, cpl Xᵀ, h2, h1⟩, rfl⟩
  have hA : c • cpl (X * Matrix.diagonal d * Xᵀ) =
      cpl X * Matrix.diagonal (fun i => (d i : ℂ) * c) * (cpl X)⁻¹ := by
    rw [cpl_mul, cpl_mul, cpl_diag, hinv, ← Matrix.smul_mul, ← Matrix.mul_smul, ← Matrix.diagonal_smul]
    congr 3
    funext i
    simp only [Pi.smul_apply, smul_eq_mul]
    ring
  rw [hA, Matrix.exp_conj _ _ hu, Matrix.exp_diagonal, hinv]
  congr 3
  funext i
  rw [Complex.exp_eq_exp_ℂ, Pi.coe_exp]

/-- The transformation, the multiplication and the transformation back. -/
theorem sandwich (X : RMat n) (e ψ : Fin n → ℂ) :
    matVec X false (fun i => matVec X true ψ i * e i) = (cpl X * Matrix.diagonal e * cpl Xᵀ).mulVec ψ := by
  rw [matVec_eq, matVec_transpose, ← Matrix.mulVec_mulVec, ← Matrix.mulVec_mulVec]
  congr 1
  funext i
  rw [Matrix.mulVec_diagonal, mul_comm]

/-! ### The contract can be met -/

theorem exists_lapack (n : Nat) : ∃ L : Lapack n, L.Ok := by
  have key : ∀ M : RMat n, ∃ (d : Fin n → ℝ) (X : RMat n), Xᵀ * X = 1 ∧
      upper M * X = X * Matrix.diagonal d ∧ ∀ i j, i ≤ j → d i ≤ d j := by
    intro M
    have hs : (upper M).IsHermitian := by
      show (upper M)ᴴ = upper M
      rw [Matrix.conjTranspose_eq_transpose_of_trivial]
      exact upper_isSymm M
    obtain ⟨U, e, hU, hE⟩ : ∃ (U : RMat n) (e : Fin n → ℝ), Uᵀ * U = 1 ∧ upper M * U = U * Matrix.diagonal e := by
      refine ⟨hs.eigenvectorUnitary, hs.eigenvalues, ?_, ?_⟩
      · have := Unitary.coe_star_mul_self hs.eigenvectorUnitary
        rwa [Matrix.star_eq_conjTranspose, Matrix.conjTranspose_eq_transpose_of_trivial] at this
      · ext i j
        rw [Matrix.mul_diagonal, mul_comm]
        exact congrFun (hs.mulVec_eigenvectorBasis j) i
    have hperm : ∀ (σ : Equiv.Perm (Fin n)) (A B : RMat n), A * B.submatrix id σ = (A * B).submatrix id σ :=
      fun σ A B => rfl
    refine ⟨e ∘ Tuple.sort e, U.submatrix id (Tuple.sort e), ?_, ?_, ?_⟩
    · rw [hperm, Matrix.transpose_submatrix]
      ext i j
      have h := congrFun (congrFun hU (Tuple.sort e i)) (Tuple.sort e j)
      show ((Uᵀ * U) (Tuple.sort e i) (Tuple.sort e j)) = _
      rw [h, Matrix.one_apply, Matrix.one_apply]
      simp
    · rw [hperm, hE]
      ext i j
      show (U * Matrix.diagonal e) i (Tuple.sort e j) = _
      rw [Matrix.mul_diagonal, Matrix.mul_diagonal]
      rfl
    · intro i j hij
      exact Tuple.monotone_sort e hij
  choose d X h1 h2 h3 using key
  exact ⟨⟨d, X⟩, ⟨h1, h2, h3⟩⟩

/-! ### Rayleigh quotients -/

/-- `⟨ψ|φ⟩` -/
noncomputable def inner (ψ φ : Fin n → ℂ) : ℂ := ∑ i, starRingEnd ℂ (ψ i) * φ i

/-- The norm. -/
noncomputable def normSq (ψ : Fin n → ℂ) : ℝ := ∑ i, Complex.normSq (ψ i)

theorem inner_self (ψ : Fin n → ℂ) : inner ψ ψ = (normSq ψ : ℂ) := by
  unfold inner normSq
  push_cast
  refine Finset.sum_congr rfl fun i _ => ?_
  rw [mul_comm, Complex.mul_conj]

theorem inner_mulVec_left (M : RMat n) (ψ φ : Fin n → ℂ) :
    inner ((cpl M).mulVec ψ) φ = inner ψ ((cpl Mᵀ).mulVec φ) := by
  unfold inner Matrix.mulVec dotProduct
  simp only [map_sum, map_mul, Finset.sum_mul, Finset.mul_sum]
  rw [Finset.sum_comm]
  refine Finset.sum_congr rfl fun i _ => Finset.sum_congr rfl fun j _ => ?_
  have : starRingEnd ℂ (cpl M j i) = cpl Mᵀ i j := Complex.conj_ofReal _
  rw [this]
  ring

theorem inner_diag (d : Fin n → ℝ) (ψ : Fin n → ℂ) :
    inner ψ ((cpl (Matrix.diagonal d)).mulVec ψ) = ((∑ i, d i * Complex.normSq (ψ i) : ℝ) : ℂ) := by
  unfold inner
  push_cast
  refine Finset.sum_congr rfl fun i _ => ?_
  rw [cpl_diag, Matrix.mulVec_diagonal, ← Complex.mul_conj]
  ring

/-- The expectation value in the basis of the eigenvectors. -/
theorem Lapack.Ok.expect {L : Lapack n} (h : L.Ok) (M : RMat n) (ψ : Fin n → ℂ) :
    ∃ φ : Fin n → ℂ, φ = (cpl (L.vecs M)ᵀ).mulVec ψ ∧ normSq φ = normSq ψ ∧
      inner ψ ((cpl (upper M)).mulVec ψ) = ((∑ i, L.vals M i * Complex.normSq (φ i) : ℝ) : ℂ) := by
  refine ⟨_, rfl, ?_, ?_⟩
  · have h1 : (inner ((cpl (L.vecs M)ᵀ).mulVec ψ) ((cpl (L.vecs M)ᵀ).mulVec ψ)) = inner ψ ψ := by
      rw [inner_mulVec_left, Matrix.transpose_transpose, Matrix.mulVec_mulVec, ← cpl_mul,
        mul_eq_one_comm.mp (h.ortho M), cpl_one, Matrix.one_mulVec]
    rw [inner_self, inner_self] at h1
    exact_mod_cast h1
  · rw [← inner_diag, inner_mulVec_left, Matrix.transpose_transpose, Matrix.mulVec_mulVec, Matrix.mulVec_mulVec,
      ← cpl_mul, ← cpl_mul, h.decomp M]

end QDng.HMat
