import Verif.RitzEf.Props
import Mathlib.Analysis.Complex.Polynomial.Basic
import Mathlib.LinearAlgebra.Matrix.Charpoly.Coeff
import Mathlib.LinearAlgebra.Matrix.ToLinearEquiv
import Mathlib.Data.Fin.Tuple.Sort

/-
Concrete cases for the properties of the eigenfunctions by the Lanczos method.
-/

namespace QDng.RitzEf

open QDng.Chexp QDng.Krylov

open Polynomial in
/-- Every matrix has eigenvalues. -/
theorem exists_roots (n : ℕ) (A : Matrix (Fin n) (Fin n) ℂ) : ∃ e : Fin n → ℂ, A.charpoly = ∏ i, (X - C (e i)) := by
  have hsp := IsAlgClosed.splits A.charpoly
  have h1 := hsp.eq_prod_roots_of_monic A.charpoly_monic
  have h2 : A.charpoly.roots.card = n := by
    rw [← hsp.natDegree_eq_card_roots, A.charpoly_natDegree_eq_dim, Fintype.card_fin]
  obtain ⟨l, hl⟩ := Quot.exists_rep A.charpoly.roots
  have hl' : (l : Multiset ℂ) = A.charpoly.roots := hl
  rw [← hl'] at h1 h2
  have hlen : l.length = n := by simpa using h2
  subst hlen
  refine ⟨fun i => l.get i, ?_⟩
  rw [h1]
  simp only [Multiset.map_coe, Multiset.prod_coe]
  rw [← List.prod_ofFn]
  congr 1
  apply List.ext_get <;> simp

/-- Every eigenvalue has an eigenvector. -/
theorem exists_vec (n : ℕ) (A : Matrix (Fin n) (Fin n) ℂ) (e : Fin n → ℂ)
    (he : A.charpoly = ∏ i, (Polynomial.X - Polynomial.C (e i))) (i : Fin n) : ∃ v : Fin n → ℂ, v ≠ 0 ∧ A.mulVec v = e i • v := by
  have h1 : (Matrix.scalar (Fin n) (e i) - A).det = 0 := by
    rw [← Matrix.eval_charpoly, he, Polynomial.eval_prod]
    exact Finset.prod_eq_zero (Finset.mem_univ i) (by simp)
  obtain ⟨v, hv, hm⟩ := Matrix.exists_mulVec_eq_zero_iff.2 h1
  refine ⟨v, hv, ?_⟩
  rw [Matrix.sub_mulVec, sub_eq_zero] at hm
  rw [← hm]
  simp [Matrix.scalar_apply, Matrix.smul_mulVec, ← Matrix.smul_one_eq_diagonal]

/-- A solver with the contract of the LAPACK routines. -/
noncomputable def solver : Solver where
  eval n A := (exists_roots n A).choose
  evec n A := Matrix.of fun r c => (exists_vec n A _ (exists_roots n A).choose_spec c).choose r
  roots n A := (exists_roots n A).choose_spec
  eigen n A := by
    ext r c
    have := congrFun (exists_vec n A _ (exists_roots n A).choose_spec c).choose_spec.2 r
    rw [Matrix.mul_diagonal, mul_comm]
    exact this
  nonzero n A j := by
    have := (exists_vec n A _ (exists_roots n A).choose_spec j).choose_spec.1
    by_contra h
    push Not at h
    exact this (funext h)

/-- Two states coupled to each other. -/
noncomputable def swap2 : EuclideanSpace ℂ (Fin 2) →ₗ[ℂ] EuclideanSpace ℂ (Fin 2) := Matrix.toEuclideanLin !![0, 1; 1, 0]

noncomputable def vec2 (x y : ℂ) : EuclideanSpace ℂ (Fin 2) := WithLp.toLp 2 ![x, y]

theorem swap2_apply (x y : ℂ) : swap2 (vec2 x y) = vec2 y x := by
  unfold swap2 vec2
  rw [Matrix.toLpLin_apply]
  congr 1
  funext i
  fin_cases i <;> simp [Matrix.mulVec, dotProduct, Fin.sum_univ_two]

theorem swap2_herm : Hermitian swap2 := by
  have : swap2.IsSymmetric := by
    unfold swap2
    rw [Matrix.isSymmetric_toEuclideanLin_iff]
    ext i j
    fin_cases i <;> fin_cases j <;> simp
  exact this

theorem vec2_norm : ‖vec2 1 0‖ = 1 ∧ ‖vec2 0 1‖ = 1 := by
  constructor <;> rw [EuclideanSpace.norm_eq] <;> simp [vec2, Fin.sum_univ_two]

theorem vec2_ne : vec2 1 0 ≠ 0 := by
  intro h
  have := vec2_norm.1
  rw [h, norm_zero] at this
  exact zero_ne_one this

theorem swap2_spread : 1 / 10 ^ 11 ≤ spread swap2 (vec2 1 0) := by
  have h1 : (inner ℂ (vec2 1 0) (vec2 0 1) : ℂ) = 0 := by
    simp [vec2, EuclideanSpace.inner_eq_star_dotProduct, dotProduct, Fin.sum_univ_two]
  unfold spread
  rw [swap2_apply, h1, zero_div, zero_smul, sub_zero, vec2_norm.1, vec2_norm.2]
  norm_num

/-- The calculation for the two states. -/
theorem swap2_run (dt : ℝ) (stale : ℕ → EuclideanSpace ℂ (Fin 2)) :
    ∃ r, run solver swap2 (.arnoldi 3 0) dt stale (vec2 1 0) = .found r := by
  unfold run QDng.Eigen.normalize
  simp only [if_neg (show ¬ 3 < 3 by omega), if_neg vec2_ne]
  exact ⟨_, rfl⟩

/-- There are just two functions. -/
theorem swap2_two {dt : ℝ} {stale : ℕ → EuclideanSpace ℂ (Fin 2)} {r : Found (EuclideanSpace ℂ (Fin 2))}
    (h : run solver swap2 (.arnoldi 3 0) dt stale (vec2 1 0) = .found r) : r.n = 2 := by
  obtain ⟨h2, -, -⟩ := C279_ritz_partial solver swap2 3 0 dt stale _ r h swap2_spread
  obtain ⟨on, -, -, -⟩ := C279_hermitian_partial solver swap2 swap2_herm 3 0 dt stale _ r h swap2_spread
  have := on.linearIndependent.fintype_card_le_finrank
  simp at this
  omega

/-- Non-vacuity of C279, C280 and C281: the energies of the two states are `1` and `-1`, the functions are eigenfunctions. -/
example (dt : ℝ) (stale : ℕ → EuclideanSpace ℂ (Fin 2)) :
    ∃ r, run solver swap2 (.arnoldi 3 0) dt stale (vec2 1 0) = .found r ∧ r.n = 2 ∧ (∃ i < 2, r.en i = 1) ∧ (∃ i < 2, r.en i = -1) ∧
      (∃ i < 2, r.en i ≤ energy swap2 (vec2 1 0)) ∧ ∀ i < 2, ‖r.fn i‖ = 1 ∧ swap2 (r.fn i) = (r.en i : ℂ) • r.fn i ∧
        ∃ l, IsLevel swap2 l ∧ |l - r.en i| ≤ 1 / 10 ^ 11 := by
  obtain ⟨r, h⟩ := swap2_run dt stale
  have hn := swap2_two h
  have hinv : (swap2 ^ r.n) (vec2 1 0) ∈ powers swap2 (vec2 1 0) r.n := by
    refine Submodule.subset_span ⟨0, by omega, ?_⟩
    rw [hn, pow_two, Module.End.mul_apply, swap2_apply, swap2_apply]
    simp
  obtain ⟨e1, e2⟩ := C281_invariant solver swap2 swap2_herm 3 0 dt stale _ r h swap2_spread hinv
  have e3 := C280_initial solver swap2 swap2_herm 3 0 dt stale _ r h swap2_spread
  obtain ⟨-, -, e4⟩ := C279_ritz_partial solver swap2 3 0 dt stale _ r h swap2_spread
  have e5 := C281_error solver swap2 swap2_herm 3 0 dt stale _ r h swap2_spread
  rw [hn] at e1 e2 e3 e4 e5
  refine ⟨r, h, hn, ?_, ?_, e3, fun i hi => ⟨(e4 i hi).1, e1 i hi, ((e5 i hi).2 le_rfl (by omega)).2⟩⟩
  · refine e2 (vec2 1 1) 1 (by rw [swap2_apply]; simp) ?_
    simp [vec2, EuclideanSpace.inner_eq_star_dotProduct, dotProduct, Fin.sum_univ_two]
  · refine e2 (vec2 1 (-1)) (-1) ?_ ?_
    · rw [swap2_apply]
      ext i
      fin_cases i <;> simp [vec2]
    · simp [vec2, EuclideanSpace.inner_eq_star_dotProduct, dotProduct, Fin.sum_univ_two]

/-- Non-vacuity of C280 (bounds): the energies of the two states are between `-1` and `1`. -/
example (dt : ℝ) (stale : ℕ → EuclideanSpace ℂ (Fin 2)) (r : Found (EuclideanSpace ℂ (Fin 2)))
    (h : run solver swap2 (.arnoldi 3 0) dt stale (vec2 1 0) = .found r) (i : ℕ) (hi : i < r.n) : -1 ≤ r.en i ∧ r.en i ≤ 1 := by
  refine C280_bounds solver swap2 (-1) 1 (fun a => ?_) 3 0 dt stale _ r h swap2_spread i hi
  obtain ⟨x, y, rfl⟩ : ∃ x y, a = vec2 x y := ⟨a 0, a 1, by ext i; fin_cases i <;> simp [vec2]⟩
  have h1 : |(inner ℂ (vec2 x y) (vec2 y x)).re| ≤ ‖vec2 x y‖ * ‖vec2 y x‖ :=
    (Complex.abs_re_le_norm _).trans (norm_inner_le_norm _ _)
  have h2 : ‖vec2 y x‖ = ‖vec2 x y‖ := by
    rw [EuclideanSpace.norm_eq, EuclideanSpace.norm_eq]
    simp [vec2, Fin.sum_univ_two, add_comm]
  rw [h2, ← sq] at h1
  rw [swap2_apply]
  obtain ⟨h3, h4⟩ := abs_le.1 h1
  constructor <;> linarith

open QDng.Eigen (IsDiag hMatrix combine) in
/-- Non-vacuity of C282: the matrix after the method has a diagonalization. -/
example (dt : ℝ) (stale : ℕ → EuclideanSpace ℂ (Fin 2)) :
    ∃ r, run solver swap2 (.arnoldi 3 0) dt stale (vec2 1 0) = .found r ∧ ∃ (d : Fin 2 → ℝ) (S : Matrix (Fin 2) (Fin 2) ℝ),
      IsDiag (QDng.Eigen.symm (hMatrix swap2 (fun i : Fin 2 => r.fn i) (fun i : Fin 2 => r.en i))) d S ∧ d 0 < d 1 := by
  obtain ⟨r, h⟩ := swap2_run dt stale
  have hn := swap2_two h
  obtain ⟨-, -, hd, -⟩ := C279_hermitian_partial solver swap2 swap2_herm 3 0 dt stale _ r h swap2_spread
  rw [hn] at hd
  let en : Fin 2 → ℝ := fun i => r.en i
  have hM : ∀ k l : Fin 2, QDng.Eigen.symm (hMatrix swap2 (fun i : Fin 2 => r.fn i) en) k l = if k = l then en k else 0 := by
    intro k l
    have h01 := hd 1 (by omega) 0 (by omega)
    fin_cases k <;> fin_cases l <;> simp [QDng.Eigen.symm, hMatrix, h01]
  have hD : IsDiag (QDng.Eigen.symm (hMatrix swap2 (fun i : Fin 2 => r.fn i) en)) (en ∘ Tuple.sort en)
      (fun k j => if k = Tuple.sort en j then 1 else 0) := by
    refine ⟨fun i j => ?_, fun k j => ?_, Tuple.monotone_sort en⟩
    · simp [Finset.sum_ite_eq', eq_comm]
    · simp only [hM, ite_mul, zero_mul, Finset.sum_ite_eq, Finset.mem_univ, if_true, Function.comp]
      split
      · rename_i hk; rw [hk]
      · simp
  exact ⟨r, h, _, _, hD, (C282 solver swap2 swap2_herm 3 0 dt stale _ r h swap2_spread 1 hn _ _ hD).1 (by decide)⟩

/-- Non-vacuity of the violation: a Hamiltonian with the only eigenvalue `2`; two of three energies written are zero. -/
example (dt conv : ℝ) : ∃ r, run solver (level1 2) (.arnoldi 3 conv) dt (fun _ => 0) 1 = .found r ∧ r.n = 3 ∧
    ∃ k < 3, r.en k = 2 ∧ ∀ i < 3, i ≠ k → r.en i = 0 ∧ r.fn i = 0 := by
  obtain ⟨r, h1, h2, k, hk, h3, -, h4⟩ := C279_violated_eigenfunction solver (level1 2) 3 le_rfl conv dt 1 one_ne_zero 2 two_ne_zero
    (by rw [level1_apply]; simp)
  rw [h2] at hk h4
  exact ⟨r, h1, h2, k, hk, h3, h4⟩

/-- Non-vacuity of C279: a propagator of another kind, and an order that is too low. -/
example (dt : ℝ) : run solver swap2 .other dt (fun _ => 0) (vec2 1 0) = .threw ∧
    run solver swap2 (.arnoldi 2 0) dt (fun _ => 0) (vec2 1 0) = .threw :=
  ⟨(C279_needs_arnoldi _ _ _ _ _ _).2 (by simp), (C279_needs_arnoldi _ _ _ _ _ _).2 (by simp)⟩

end QDng.RitzEf
