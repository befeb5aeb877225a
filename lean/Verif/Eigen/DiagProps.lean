import Verif.Eigen.Lemmas
import Mathlib.Analysis.InnerProductSpace.PiL2
import Mathlib.LinearAlgebra.Matrix.NonsingularInverse
import Mathlib.Data.Matrix.Mul

/-
C100: diagonalization of the Hamiltonian in the basis of the functions found.
-/

namespace QDng.Eigen

open scoped BigOperators

variable {V : Type} [NormedAddCommGroup V] [InnerProductSpace ℂ V]

/-- What `DSYEV` delivers for a symmetric matrix: real eigenvalues in ascending order and an orthogonal matrix of eigenvectors. -/
structure IsDiag {n : Nat} (M : Matrix (Fin n) (Fin n) ℝ) (d : Fin n → ℝ) (S : Matrix (Fin n) (Fin n) ℝ) : Prop where
  orth : ∀ i j, ∑ k, S k i * S k j = if i = j then 1 else 0
  eig : ∀ k j, ∑ l, M k l * S l j = d j * S k j
  asc : Monotone d

theorem combine_eq {n : Nat} (P : Fin (n + 1) → V) (S : Matrix (Fin (n + 1)) (Fin (n + 1)) ℝ) (i : Fin (n + 1)) :
    combine P S i = ∑ j, ((S j i : ℝ) : ℂ) • P j := by
  have h : ∀ (l : List (Fin n)) (x : V), l.foldl (fun ψ j => ψ + ((S j.succ i : ℝ) : ℂ) • P j.succ) x =
      x + (l.map fun j => ((S j.succ i : ℝ) : ℂ) • P j.succ).sum := by
    intro l
    induction l with
    | nil => intro x; simp
    | cons j l ih => intro x; rw [List.foldl_cons, ih, List.map_cons, List.sum_cons, add_assoc]
  unfold combine
  rw [h, Fin.sum_univ_succ, Fin.sum_univ_def]

section

variable {n : Nat} {H : V →ₗ[ℂ] V} {P : Fin (n + 1) → V} {raw d : Fin (n + 1) → ℝ} {S : Matrix (Fin (n + 1)) (Fin (n + 1)) ℝ}

theorem symm_hMatrix (hH : ∀ x y, inner ℂ (H x) y = (inner ℂ x (H y) : ℂ)) (hraw : ∀ i, raw i = (inner ℂ (P i) (H (P i)) : ℂ).re)
    (hre : ∀ i j, (inner ℂ (P i) (H (P j)) : ℂ).im = 0) (k l : Fin (n + 1)) :
    ((symm (hMatrix H P raw) k l : ℝ) : ℂ) = inner ℂ (P k) (H (P l)) := by
  have hs : ∀ a b, (inner ℂ (P a) (H (P b)) : ℂ).re = (inner ℂ (P b) (H (P a)) : ℂ).re := by
    intro a b
    rw [← inner_conj_symm, Complex.conj_re, hH]
  have hc : ∀ a b, (((inner ℂ (P a) (H (P b)) : ℂ).re : ℝ) : ℂ) = inner ℂ (P a) (H (P b)) := by
    intro a b
    apply Complex.ext
    · simp
    · rw [Complex.ofReal_im, hre]
  rw [← hc]
  congr 1
  unfold symm hMatrix
  rcases lt_trichotomy k l with h | h | h
  · rw [if_pos h.le, if_pos h, hs]
  · subst h
    rw [if_pos (le_refl _), if_neg (lt_irrefl _), if_pos rfl, hraw]
  · rw [if_neg (not_le.2 h), if_pos h]

theorem inner_H_combine (hP : Orthonormal ℂ P) (hH : ∀ x y, inner ℂ (H x) y = (inner ℂ x (H y) : ℂ))
    (hraw : ∀ i, raw i = (inner ℂ (P i) (H (P i)) : ℂ).re) (hre : ∀ i j, (inner ℂ (P i) (H (P j)) : ℂ).im = 0)
    (hD : IsDiag (symm (hMatrix H P raw)) d S) (k j : Fin (n + 1)) :
    inner ℂ (P k) (H (combine P S j)) = ((d j * S k j : ℝ) : ℂ) := by
  rw [combine_eq, map_sum, inner_sum, ← hD.eig k j, Complex.ofReal_sum]
  refine Finset.sum_congr rfl fun l _ => ?_
  rw [map_smul, inner_smul_right, Complex.ofReal_mul, symm_hMatrix hH hraw hre, mul_comm]

/-- **C100** (partial).  Let the functions be orthonormal, the Hamiltonian symmetric and its matrix elements between the functions real.
Then the functions written after the diagonalization are orthonormal, the Hamiltonian is diagonal between them with the energies that
are reported, and the energies are in ascending order. -/
theorem C100_diagonal_partial (hP : Orthonormal ℂ P) (hH : ∀ x y, inner ℂ (H x) y = (inner ℂ x (H y) : ℂ))
    (hraw : ∀ i, raw i = (inner ℂ (P i) (H (P i)) : ℂ).re) (hre : ∀ i j, (inner ℂ (P i) (H (P j)) : ℂ).im = 0)
    (hD : IsDiag (symm (hMatrix H P raw)) d S) :
    Orthonormal ℂ (combine P S) ∧
    (∀ i j, inner ℂ (combine P S i) (H (combine P S j)) = if i = j then ((d j : ℝ) : ℂ) else 0) ∧ Monotone d := by
  refine ⟨?_, fun i j => ?_, hD.asc⟩
  · rw [orthonormal_iff_ite]
    intro i j
    rw [combine_eq, combine_eq, hP.inner_sum]
    have h1 : ∑ k, (starRingEnd ℂ) ((S k i : ℝ) : ℂ) * ((S k j : ℝ) : ℂ) = ((∑ k, S k i * S k j : ℝ) : ℂ) := by
      rw [Complex.ofReal_sum]
      refine Finset.sum_congr rfl fun k _ => ?_
      rw [Complex.conj_ofReal, Complex.ofReal_mul]
    rw [h1, hD.orth]
    split <;> simp
  · rw [combine_eq P S i, sum_inner]
    have h1 : ∀ k ∈ (Finset.univ : Finset (Fin (n + 1))), inner ℂ (((S k i : ℝ) : ℂ) • P k) (H (combine P S j)) =
        ((S k i * S k j : ℝ) : ℂ) * (d j : ℝ) := by
      intro k _
      rw [inner_smul_left, inner_H_combine hP hH hraw hre hD, Complex.conj_ofReal]
      push_cast
      ring
    rw [Finset.sum_congr rfl h1, ← Finset.sum_mul, ← Complex.ofReal_sum, hD.orth]
    split <;> simp

/-- **C100** (eigenfunctions, partial).  If moreover the Hamiltonian does not lead out of the space of the functions, the functions written
are eigenfunctions with the energies reported. -/
theorem C100_eigenfunctions_partial (hP : Orthonormal ℂ P) (hH : ∀ x y, inner ℂ (H x) y = (inner ℂ x (H y) : ℂ))
    (hraw : ∀ i, raw i = (inner ℂ (P i) (H (P i)) : ℂ).re) (hre : ∀ i j, (inner ℂ (P i) (H (P j)) : ℂ).im = 0)
    (hD : IsDiag (symm (hMatrix H P raw)) d S) (hinv : ∀ k, H (P k) ∈ Submodule.span ℂ (Set.range P)) (j : Fin (n + 1)) :
    H (combine P S j) = (d j : ℂ) • combine P S j := by
  have hm : H (combine P S j) ∈ Submodule.span ℂ (Set.range P) := by
    rw [combine_eq, map_sum]
    refine Submodule.sum_mem _ fun k _ => ?_
    rw [map_smul]
    exact Submodule.smul_mem _ _ (hinv k)
  obtain ⟨a, ha⟩ := (Submodule.mem_span_range_iff_exists_fun ℂ).1 hm
  rw [← ha, combine_eq P S j, Finset.smul_sum]
  refine Finset.sum_congr rfl fun k _ => ?_
  have h1 := hP.inner_right_fintype a k
  rw [ha, inner_H_combine hP hH hraw hre hD] at h1
  rw [← h1, smul_smul]
  push_cast
  rfl

end

/-- **C100** (violated for complex matrix elements).  Only the real part of the matrix elements is used: for a Hermitian Hamiltonian with
the eigenvalues `1` and `-1` and an orthonormal basis the energies reported are all zero, and zero is not an eigenvalue. -/
theorem C100_violated_complex : ∃ H : EuclideanSpace ℂ (Fin 2) →ₗ[ℂ] EuclideanSpace ℂ (Fin 2),
    (∀ x y, inner ℂ (H x) y = (inner ℂ x (H y) : ℂ)) ∧ (∀ x, H x = 0 → x = 0) ∧
    ∀ d S, IsDiag (symm (hMatrix H (fun i => EuclideanSpace.single i (1 : ℂ))
      (fun i => (inner ℂ (EuclideanSpace.single i (1 : ℂ)) (H (EuclideanSpace.single i (1 : ℂ))) : ℂ).re))) d S → d = 0 := by
  refine ⟨Matrix.toEuclideanLin !![0, -Complex.I; Complex.I, 0], ?_, ?_, ?_⟩
  · intro x y
    simp [PiLp.inner_apply, Matrix.toEuclideanLin_apply, Matrix.mulVec, dotProduct, Fin.sum_univ_two]
    ring
  · intro x h
    have h0 := congrArg (fun v : EuclideanSpace ℂ (Fin 2) => v 0) h
    have h1 := congrArg (fun v : EuclideanSpace ℂ (Fin 2) => v 1) h
    simp [Matrix.toEuclideanLin_apply, Matrix.mulVec, dotProduct, Fin.sum_univ_two] at h0 h1
    ext i
    fin_cases i
    · simpa using h1
    · simpa using h0
  · intro d S hD
    have hz : ∀ k l, symm (hMatrix (Matrix.toEuclideanLin !![0, -Complex.I; Complex.I, 0])
        (fun i => EuclideanSpace.single i (1 : ℂ))
        (fun i => (inner ℂ (EuclideanSpace.single i (1 : ℂ))
          ((Matrix.toEuclideanLin !![0, -Complex.I; Complex.I, 0]) (EuclideanSpace.single i (1 : ℂ))) : ℂ).re)) k l = 0 := by
      intro k l
      fin_cases k <;> fin_cases l <;>
        simp [symm, hMatrix, EuclideanSpace.inner_single_left, Matrix.toEuclideanLin_apply, Matrix.mulVec, dotProduct, Fin.sum_univ_two]
    funext j
    have h1 : ∀ k, d j * S k j = 0 := by
      intro k
      rw [← hD.eig k j]
      exact Finset.sum_eq_zero fun l _ => by rw [hz, zero_mul]
    by_contra hd
    have h2 := hD.orth j j
    rw [if_pos rfl, Finset.sum_eq_zero fun k _ => ?_] at h2
    · exact zero_ne_one h2
    · rcases mul_eq_zero.1 (h1 k) with h | h
      · exact absurd h hd
      · rw [h, zero_mul]

/-- **C100** (violated for functions that are not orthogonal, as those of the method `ac` may be).  Two equal functions and the Hamiltonian
one: the energies reported are zero or two. -/
theorem C100_violated_overlap (d : Fin 2 → ℝ) (S : Matrix (Fin 2) (Fin 2) ℝ)
    (hD : IsDiag (symm (hMatrix (V := ℂ) (LinearMap.id : ℂ →ₗ[ℂ] ℂ) (fun _ => 1) (fun _ => 1))) d S) (j : Fin 2) : d j ≠ 1 := by
  have hz : ∀ k l, symm (hMatrix (V := ℂ) (LinearMap.id : ℂ →ₗ[ℂ] ℂ) (fun _ : Fin 2 => 1) (fun _ => 1)) k l = 1 := by
    intro k l
    fin_cases k <;> fin_cases l <;> simp [symm, hMatrix]
  intro h
  have e0 := hD.eig 0 j
  have e1 := hD.eig 1 j
  have e2 := hD.orth j j
  simp only [Fin.sum_univ_two, hz, h, one_mul, if_true] at e0 e1 e2
  have h1 : S 1 j = 0 := by linarith
  have h0 : S 0 j = 0 := by linarith
  rw [h0, h1] at e2
  norm_num at e2

/-- Non-vacuity of C100: two functions that are not eigenfunctions; the Hamiltonian exchanges them. -/
example : ∃ (d : Fin 2 → ℝ) (S : Matrix (Fin 2) (Fin 2) ℝ),
    IsDiag (symm (hMatrix (Matrix.toEuclideanLin !![0, 1; 1, 0]) (fun i => EuclideanSpace.single i (1 : ℂ))
      (fun i => (inner ℂ (EuclideanSpace.single i (1 : ℂ))
        ((Matrix.toEuclideanLin !![0, 1; 1, 0]) (EuclideanSpace.single i (1 : ℂ))) : ℂ).re))) d S ∧ d = ![-1, 1] := by
  have hq : Real.sqrt 2 * Real.sqrt 2 = 2 := Real.mul_self_sqrt (by norm_num)
  have hh : (Real.sqrt 2 / 2) * (Real.sqrt 2 / 2) = 1 / 2 := by
    rw [div_mul_div_comm, hq]; norm_num
  refine ⟨![-1, 1], !![Real.sqrt 2 / 2, Real.sqrt 2 / 2; -(Real.sqrt 2 / 2), Real.sqrt 2 / 2], ⟨?_, ?_, ?_⟩, rfl⟩
  · intro i j
    fin_cases i <;> fin_cases j <;> simp [Fin.sum_univ_two, hh] <;> norm_num
  · intro k j
    fin_cases k <;> fin_cases j <;>
      simp [symm, hMatrix, Fin.sum_univ_two, EuclideanSpace.inner_single_left, Matrix.toEuclideanLin_apply, Matrix.mulVec, dotProduct]
  · intro i j h
    fin_cases i <;> fin_cases j <;> simp_all

end QDng.Eigen
