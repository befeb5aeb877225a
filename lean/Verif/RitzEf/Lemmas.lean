import Verif.RitzEf.Model
import Verif.RitzEf.Spec
import Mathlib.Analysis.InnerProductSpace.Spectrum
import Mathlib.Analysis.Matrix.Spectrum

/-
Lemmas for the eigenfunctions by the Lanczos method.
-/

namespace QDng.RitzEf

open QDng.Krylov QDng.Krylov.Spec QDng.Chexp

variable {V : Type} [NormedAddCommGroup V] [InnerProductSpace ℂ V]

/-! ### The eigenvectors of the small matrix -/

theorem colSum_eq {n : ℕ} (Z : Matrix (Fin n) (Fin n) ℂ) (c : Fin n) : colSum Z c = ((∑ r, ‖Z r c‖ ^ 2 : ℝ) : ℂ) := by
  have h : ∀ (l : List (Fin n)) (x : ℂ), l.foldl (fun s r => s + (starRingEnd ℂ) (Z r c) * Z r c) x =
      x + (l.map fun r => (((‖Z r c‖ ^ 2 : ℝ)) : ℂ)).sum := by
    intro l
    induction l with
    | nil => intro x; simp
    | cons r l ih =>
      intro x
      rw [List.foldl_cons, ih, List.map_cons, List.sum_cons, ← Complex.normSq_eq_conj_mul_self, Complex.normSq_eq_norm_sq, add_assoc]
  unfold colSum
  rw [h, zero_add, Complex.ofReal_sum, Fin.sum_univ_def]

theorem normCols_mul {n : ℕ} (Z : Matrix (Fin n) (Fin n) ℂ) :
    normCols Z = Z * Matrix.diagonal (fun c => ((1 / Real.sqrt (colSum Z c).re : ℝ) : ℂ)) := by
  ext r c
  rw [Matrix.mul_diagonal, normCols, mul_comm]

theorem normCols_eigen {n : ℕ} {A Z : Matrix (Fin n) (Fin n) ℂ} {e : Fin n → ℂ} (h : A * Z = Z * Matrix.diagonal e) :
    A * normCols Z = normCols Z * Matrix.diagonal e := by
  rw [normCols_mul, ← Matrix.mul_assoc, h, Matrix.mul_assoc, Matrix.mul_assoc, Matrix.diagonal_mul_diagonal,
    Matrix.diagonal_mul_diagonal]
  congr 2
  funext i
  rw [mul_comm]

theorem normCols_unit {n : ℕ} {Z : Matrix (Fin n) (Fin n) ℂ} {c : Fin n} (h : ∃ i, Z i c ≠ 0) :
    ∑ r, ‖normCols Z r c‖ ^ 2 = 1 := by
  obtain ⟨i, hi⟩ := h
  have hpos : 0 < ∑ r, ‖Z r c‖ ^ 2 :=
    lt_of_lt_of_le (by positivity) (Finset.single_le_sum (f := fun r => ‖Z r c‖ ^ 2) (fun r _ => by positivity) (Finset.mem_univ i))
  unfold normCols
  rw [colSum_eq, Complex.ofReal_re]
  set S := ∑ r, ‖Z r c‖ ^ 2 with hS
  have h1 : ∀ r, ‖((1 / Real.sqrt S : ℝ) : ℂ) * Z r c‖ ^ 2 = 1 / S * ‖Z r c‖ ^ 2 := by
    intro r
    rw [norm_mul, Complex.norm_real, mul_pow, Real.norm_eq_abs, sq_abs, div_pow, one_pow, Real.sq_sqrt hpos.le]
  simp only [h1]
  rw [← Finset.mul_sum, ← hS, one_div, inv_mul_cancel₀ hpos.ne']

theorem ritzFn_eq (q : ℕ → V) {m : ℕ} (Z : Matrix (Fin (m + 1)) (Fin (m + 1)) ℂ) (i : Fin (m + 1)) :
    ritzFn q Z i = ∑ j, Z j i • q j := by
  have h : ∀ (k : ℕ) (x : V), (List.range k).foldl (fun b (j : ℕ) => b + at' Z (j + 1) i • q (j + 1)) x =
      x + ∑ j ∈ Finset.range k, at' Z (j + 1) i • q (j + 1) := by
    intro k
    induction k with
    | zero => intro x; simp
    | succ k ih => intro x; rw [List.range_succ, List.foldl_append, ih, Finset.sum_range_succ]; simp [add_assoc]
  unfold ritzFn
  rw [h, Nat.add_sub_cancel, add_comm, ← Finset.sum_range_succ' (fun j => at' Z j i • q j), ← Fin.sum_univ_eq_sum_range
    (fun j => at' Z j i • q j)]
  refine Finset.sum_congr rfl (fun j _ => ?_)
  unfold at'
  rw [dif_pos ⟨j.isLt, i.isLt⟩]

/-- An eigenvector of an unreduced matrix of this shape whose last element vanishes is zero. -/
theorem hess_zero {m : ℕ} {A : Matrix (Fin (m + 1)) (Fin (m + 1)) ℂ} (hess : ∀ i j : Fin (m + 1), j.val + 1 < i.val → A i j = 0)
    (sub : ∀ i j : Fin (m + 1), i.val = j.val + 1 → A i j ≠ 0) {x : Fin (m + 1) → ℂ} {e : ℂ} (hx : A.mulVec x = e • x)
    (hl : x (Fin.last m) = 0) : x = 0 := by
  have key : ∀ k, k ≤ m → ∀ i : Fin (m + 1), m - k ≤ i.val → x i = 0 := by
    intro k
    induction k with
    | zero =>
      intro _ i hi
      have : i = Fin.last m := Fin.ext (by simp; omega)
      rw [this, hl]
    | succ k ih =>
      intro hk i hi
      by_cases h2 : m - k ≤ i.val
      · exact ih (by omega) i h2
      · have hiv : i.val + 1 = m - k := by omega
        let i' : Fin (m + 1) := ⟨i.val + 1, by omega⟩
        have h3 := congrFun hx i'
        rw [Pi.smul_apply, ih (by omega) i' (by simp [i']; omega), smul_zero, Matrix.mulVec, dotProduct,
          Finset.sum_eq_single i] at h3
        · exact (mul_eq_zero.1 h3).resolve_left (sub i' i rfl)
        · intro j _ hj
          by_cases h4 : j.val < i.val
          · rw [hess i' j (by simp [i']; omega), zero_mul]
          · rw [ih (by omega) j (by have : j.val ≠ i.val := fun h => hj (Fin.ext h); omega), mul_zero]
        · simp
  funext i
  exact key m le_rfl i (by omega)

/-- The eigenvalues of a Hermitian unreduced matrix are different. -/
theorem herm_hess_inj {m : ℕ} {A : Matrix (Fin (m + 1)) (Fin (m + 1)) ℂ} (hA : A.IsHermitian)
    (hess : ∀ i j : Fin (m + 1), j.val + 1 < i.val → A i j = 0) (sub : ∀ i j : Fin (m + 1), i.val = j.val + 1 → A i j ≠ 0) :
    Function.Injective hA.eigenvalues := by
  intro a b hab
  by_contra hne
  let u : Fin (m + 1) → ℂ := fun i => hA.eigenvectorBasis a i
  let v : Fin (m + 1) → ℂ := fun i => hA.eigenvectorBasis b i
  have hu : A.mulVec u = (hA.eigenvalues a : ℂ) • u := hA.mulVec_eigenvectorBasis a
  have hv : A.mulVec v = (hA.eigenvalues a : ℂ) • v := by rw [hab]; exact hA.mulVec_eigenvectorBasis b
  let w : Fin (m + 1) → ℂ := v (Fin.last m) • u - u (Fin.last m) • v
  have hw : A.mulVec w = (hA.eigenvalues a : ℂ) • w := by
    simp only [w]
    rw [Matrix.mulVec_sub, Matrix.mulVec_smul, Matrix.mulVec_smul, hu, hv, smul_sub]
    congr 1
    · rw [smul_comm]
    · rw [smul_comm]
  have h0 := hess_zero hess sub hw (by simp [w]; ring)
  have h1 : v (Fin.last m) • hA.eigenvectorBasis a - u (Fin.last m) • hA.eigenvectorBasis b = 0 := by
    ext i
    exact congrFun h0 i
  have h2 : u (Fin.last m) = 0 := by
    have := congrArg (fun x => inner ℂ (hA.eigenvectorBasis b) x) h1
    simp only [inner_sub_right, inner_smul_right, inner_zero_right] at this
    have o1 := hA.eigenvectorBasis.orthonormal
    rw [orthonormal_iff_ite] at o1
    rw [o1, o1, if_neg (fun h => hne h.symm), if_pos rfl] at this
    simpa using this
  have h3 := hess_zero hess sub hu h2
  have h4 := hA.eigenvectorBasis.orthonormal.ne_zero a
  exact h4 (by ext i; exact congrFun h3 i)

open Polynomial in
/-- The roots of the characteristic polynomial of such a matrix, in any order, are real and different. -/
theorem roots_inj {m : ℕ} {A : Matrix (Fin (m + 1)) (Fin (m + 1)) ℂ} (hA : A.IsHermitian)
    (hess : ∀ i j : Fin (m + 1), j.val + 1 < i.val → A i j = 0) (sub : ∀ i j : Fin (m + 1), i.val = j.val + 1 → A i j ≠ 0)
    {e : Fin (m + 1) → ℂ} (he : A.charpoly = ∏ i, (X - C (e i))) : Function.Injective e ∧ ∀ i, (e i).im = 0 := by
  have h1 : A.charpoly.roots = Finset.univ.val.map e := by
    rw [he, Polynomial.roots_prod _ _ (Finset.prod_ne_zero_iff.2 fun i _ => X_sub_C_ne_zero _)]
    simp
  have h2 := hA.roots_charpoly_eq_eigenvalues
  rw [h1] at h2
  have hinj := herm_hess_inj hA hess sub
  constructor
  · have hnd : (Finset.univ.val.map e).Nodup := by
      rw [h2]
      exact Multiset.Nodup.map (fun a b h => hinj (by simpa using h)) Finset.univ.nodup
    intro a b hab
    exact Multiset.inj_on_of_nodup_map hnd a (Finset.mem_univ a) b (Finset.mem_univ b) hab
  · intro i
    have : e i ∈ Finset.univ.val.map e := Multiset.mem_map_of_mem e (Finset.mem_univ i)
    rw [h2] at this
    obtain ⟨j, _, hj⟩ := Multiset.mem_map.1 this
    rw [← hj]
    simp

/-! ### The functions -/

/-- What the calculation delivers, in terms of the basis. -/
structure Core (H : V →ₗ[ℂ] V) (q : ℕ → V) (m : ℕ) (A Z : Matrix (Fin (m + 1)) (Fin (m + 1)) ℂ) (e : Fin (m + 1) → ℂ) : Prop where
  orth : Orth m q
  proj : ∀ i j, A i j = inner ℂ (q i) (H (q j))
  eigen : A * Z = Z * Matrix.diagonal e
  unit : ∀ c, ∑ r, ‖Z r c‖ ^ 2 = 1

section Core

variable {H : V →ₗ[ℂ] V} {q : ℕ → V} {m : ℕ} {A Z : Matrix (Fin (m + 1)) (Fin (m + 1)) ℂ} {e : Fin (m + 1) → ℂ}

/-- The functions. -/
noncomputable def fns (q : ℕ → V) (Z : Matrix (Fin (m + 1)) (Fin (m + 1)) ℂ) (i : Fin (m + 1)) : V := ∑ j, Z j i • q j

theorem Core.comp (R : Core H q m A Z e) (k i : Fin (m + 1)) : inner ℂ (q k) (fns q Z i) = Z k i := by
  unfold fns
  rw [inner_sum, Finset.sum_eq_single k]
  · rw [inner_smul_right, R.orth k k (by omega) (by omega), if_pos rfl, mul_one]
  · intro j _ hj
    rw [inner_smul_right, R.orth k j (by omega) (by omega), if_neg (fun h => hj (Fin.ext h.symm)), mul_zero]
  · simp

theorem Core.norm (R : Core H q m A Z e) (i : Fin (m + 1)) : ‖fns q Z i‖ = 1 := by
  have h1 : (inner ℂ (fns q Z i) (fns q Z i) : ℂ) = ((1 : ℝ) : ℂ) := by
    conv_lhs => enter [2]; rw [fns]
    rw [sum_inner, ← R.unit i, Complex.ofReal_sum]
    refine Finset.sum_congr rfl (fun j _ => ?_)
    rw [inner_smul_left, R.comp, ← Complex.normSq_eq_conj_mul_self, Complex.normSq_eq_norm_sq]
  rw [inner_self_eq_norm_sq_to_K] at h1
  have h2 : ‖fns q Z i‖ ^ 2 = 1 := Complex.ofReal_injective (by rw [Complex.ofReal_pow]; exact h1)
  exact (pow_eq_one_iff_of_nonneg (norm_nonneg _) two_ne_zero).1 h2

theorem Core.perp_q (R : Core H q m A Z e) (k i : Fin (m + 1)) :
    inner ℂ (q k) (H (fns q Z i) - e i • fns q Z i) = 0 := by
  rw [inner_sub_right, inner_smul_right, R.comp]
  have h1 : inner ℂ (q k) (H (fns q Z i)) = (A * Z) k i := by
    unfold fns
    rw [map_sum, inner_sum, Matrix.mul_apply]
    refine Finset.sum_congr rfl (fun j _ => ?_)
    rw [map_smul, inner_smul_right, R.proj, mul_comm]
  rw [h1, R.eigen, Matrix.mul_diagonal, mul_comm, sub_self]

theorem Core.perp (R : Core H q m A Z e) (i : Fin (m + 1)) {x : V} (hx : x ∈ QS q (m + 1)) :
    inner ℂ x (H (fns q Z i) - e i • fns q Z i) = 0 := by
  obtain ⟨c, rfl⟩ := (Submodule.mem_span_range_iff_exists_fun ℂ).1 hx
  rw [sum_inner]
  refine Finset.sum_eq_zero (fun k _ => ?_)
  rw [inner_smul_left, R.perp_q, mul_zero]

theorem fns_mem (i : Fin (m + 1)) : fns q Z i ∈ QS q (m + 1) :=
  Submodule.sum_mem _ fun j _ => Submodule.smul_mem _ _ (q_mem_QS _ j.isLt)

theorem Core.elem (R : Core H q m A Z e) (i : Fin (m + 1)) {x : V} (hx : x ∈ QS q (m + 1)) :
    inner ℂ x (H (fns q Z i)) = e i * inner ℂ x (fns q Z i) := by
  have := R.perp i hx
  rw [inner_sub_right, inner_smul_right, sub_eq_zero] at this
  exact this

theorem Core.energy (R : Core H q m A Z e) (i : Fin (m + 1)) : inner ℂ (fns q Z i) (H (fns q Z i)) = e i := by
  rw [R.elem i (fns_mem i), inner_self_eq_norm_sq_to_K, R.norm]
  simp

theorem Core.orthonormal (R : Core H q m A Z e) (hH : Hermitian H) (inj : Function.Injective e) (re : ∀ i, (e i).im = 0) :
    Orthonormal ℂ (fns q Z) := by
  refine ⟨R.norm, fun i j hij => ?_⟩
  have h1 := R.elem j (fns_mem (Z := Z) i)
  rw [← hH, ← inner_conj_symm, R.elem i (fns_mem j), map_mul, inner_conj_symm] at h1
  have h2 : (starRingEnd ℂ) (e i) = e i := Complex.conj_eq_iff_im.2 (re i)
  rw [h2] at h1
  have h3 : (e i - e j) * inner ℂ (fns q Z i) (fns q Z j) = 0 := by rw [sub_mul, h1, sub_self]
  exact (mul_eq_zero.1 h3).resolve_left (sub_ne_zero.2 fun h => hij (inj h))

theorem Core.span (R : Core H q m A Z e) (hon : Orthonormal ℂ (fns q Z)) :
    Submodule.span ℂ (Set.range (fns q Z)) = QS q (m + 1) := by
  have : FiniteDimensional ℂ (QS q (m + 1)) := FiniteDimensional.span_of_finite ℂ (Set.finite_range _)
  apply Submodule.eq_of_le_of_finrank_eq
  · rw [Submodule.span_le]
    rintro _ ⟨i, rfl⟩
    exact fns_mem i
  · rw [finrank_span_eq_card hon.linearIndependent]
    unfold QS
    rw [finrank_span_eq_card (orth_orthonormal R.orth).linearIndependent]

end Core

/-! ### The space -/

theorem powers_eq (H : V →ₗ[ℂ] V) (ψ : V) (n : ℕ) : powers H ψ n = KS H ψ n := by
  unfold powers KS krylov
  congr 1
  ext x
  constructor
  · rintro ⟨k, hk, rfl⟩
    exact ⟨⟨k, hk⟩, rfl⟩
  · rintro ⟨k, rfl⟩
    exact ⟨k, k.isLt, rfl⟩

theorem powers_smul (H : V →ₗ[ℂ] V) (ψ : V) (n : ℕ) {c : ℂ} (hc : c ≠ 0) : powers H (c • ψ) n = powers H ψ n := by
  unfold powers
  apply le_antisymm
  · rw [Submodule.span_le]
    rintro _ ⟨k, hk, rfl⟩
    rw [map_smul]
    exact Submodule.smul_mem _ _ (Submodule.subset_span ⟨k, hk, rfl⟩)
  · rw [Submodule.span_le]
    rintro _ ⟨k, hk, rfl⟩
    have : (H ^ k) ψ = c⁻¹ • (H ^ k) (c • ψ) := by rw [map_smul, smul_smul, inv_mul_cancel₀ hc, one_smul]
    rw [this]
    exact Submodule.smul_mem _ _ (Submodule.subset_span ⟨k, hk, rfl⟩)

theorem built_span {H : V →ₗ[ℂ] V} {ψ : V} {m : ℕ} {s : Ar V} (B : ABuilt H ψ m s) : QS s.q (m + 1) = powers H ψ (m + 1) := by
  rw [powers_eq]
  apply le_antisymm
  · unfold QS
    rw [Submodule.span_le]
    rintro _ ⟨i, rfl⟩
    exact KS_mono H ψ (by omega) (B.q_mem i (by omega))
  · unfold KS
    rw [Submodule.span_le]
    rintro _ ⟨k, rfl⟩
    exact B.pow_mem k (by omega)

/-- The normalised wave function. -/
theorem unit_facts (H : V →ₗ[ℂ] V) {ψ0 : V} (h0 : ψ0 ≠ 0) :
    ‖((1 / ‖ψ0‖ : ℝ) : ℂ) • ψ0‖ = 1 ∧ (((1 / ‖ψ0‖ : ℝ) : ℂ)) ≠ 0 ∧
    ‖H (((1 / ‖ψ0‖ : ℝ) : ℂ) • ψ0) - (inner ℂ (((1 / ‖ψ0‖ : ℝ) : ℂ) • ψ0) (H (((1 / ‖ψ0‖ : ℝ) : ℂ) • ψ0)) : ℂ) •
      (((1 / ‖ψ0‖ : ℝ) : ℂ) • ψ0)‖ = spread H ψ0 ∧
    inner ℂ (((1 / ‖ψ0‖ : ℝ) : ℂ) • ψ0) (H (((1 / ‖ψ0‖ : ℝ) : ℂ) • ψ0)) = inner ℂ ψ0 (H ψ0) / ((‖ψ0‖ ^ 2 : ℝ) : ℂ) := by
  have hn : ‖ψ0‖ ≠ 0 := norm_ne_zero_iff.2 h0
  have hnc : (‖ψ0‖ : ℂ) ≠ 0 := by exact_mod_cast hn
  have e4 : inner ℂ (((1 / ‖ψ0‖ : ℝ) : ℂ) • ψ0) (H (((1 / ‖ψ0‖ : ℝ) : ℂ) • ψ0)) = inner ℂ ψ0 (H ψ0) / ((‖ψ0‖ ^ 2 : ℝ) : ℂ) := by
    rw [map_smul, inner_smul_left, inner_smul_right, Complex.conj_ofReal]
    push_cast
    field_simp
  have hsm : ∀ x : V, ‖((1 / ‖ψ0‖ : ℝ) : ℂ) • x‖ = ‖x‖ / ‖ψ0‖ := by
    intro x
    rw [norm_smul, Complex.norm_real, Real.norm_eq_abs, abs_of_nonneg (by positivity)]
    ring
  refine ⟨?_, ?_, ?_, e4⟩
  · rw [hsm, div_self hn]
  · exact_mod_cast one_div_ne_zero hn
  · rw [e4, map_smul, smul_comm, ← smul_sub, hsm]
    rfl

theorem run_found {L : Solver} {H : V →ₗ[ℂ] V} {maxorder : ℕ} {conv dt : ℝ} {stale : ℕ → V} {ψ0 : V} {r : Found V}
    (h : run L H (.arnoldi maxorder conv) dt stale ψ0 = .found r) : 3 ≤ maxorder ∧ ψ0 ≠ 0 ∧
      r = lanczosEF L H maxorder dt conv stale (((1 / ‖ψ0‖ : ℝ) : ℂ) • ψ0) := by
  unfold run at h
  simp only at h
  split at h
  · cases h
  · rename_i h3
    unfold QDng.Eigen.normalize at h
    by_cases h0 : ψ0 = 0
    · rw [if_pos h0] at h
      cases h
    · rw [if_neg h0] at h
      simp only [Res.found.injEq] at h
      exact ⟨by omega, h0, h.symm⟩

/-- The functions and energies of a calculation, if the initial wave function is not an eigenfunction. -/
theorem run_core {L : Solver} {H : V →ₗ[ℂ] V} {maxorder : ℕ} {conv dt : ℝ} {stale : ℕ → V} {ψ0 : V} {r : Found V}
    (h : run L H (.arnoldi maxorder conv) dt stale ψ0 = .found r) (hs : underrun ≤ spread H ψ0) :
    ∃ (m : ℕ) (q : ℕ → V) (A Z : Matrix (Fin (m + 1)) (Fin (m + 1)) ℂ) (e : Fin (m + 1) → ℂ), r.n = m + 1 ∧ 1 ≤ m ∧ m + 1 ≤ maxorder ∧
      Core H q m A Z e ∧ (∀ i : Fin (m + 1), r.fn i = fns q Z i ∧ r.en i = (e i).re) ∧ QS q (m + 1) = powers H ψ0 (m + 1) ∧
      (Hermitian H → Function.Injective e ∧ ∀ i, (e i).im = 0) ∧
      (conv ≤ 0 → m + 1 = maxorder ∨ ∃ c : ℕ → ℂ, ‖H (q m) - ∑ i ∈ Finset.range (m + 1), c i • q i‖ < underrun) ∧
      (∀ j, j < m → H (q j) ∈ QS q (m + 1)) := by
  obtain ⟨ho, h0, rfl⟩ := run_found h
  obtain ⟨hn, hc, hsp, -⟩ := unit_facts H h0
  rw [← hsp] at hs
  obtain ⟨m, B, hle, hend⟩ := ar_build (dt := dt) (conv := conv) (stale := stale) (order0 := maxorder) ho hs
  have hsp2 := built_span B
  rw [powers_smul H ψ0 _ hc] at hsp2
  unfold lanczosEF
  simp only
  generalize arBuild H maxorder dt conv stale maxorder (((1 / ‖ψ0‖ : ℝ) : ℂ) • ψ0) = s at B hend hsp2
  have hord := B.order
  obtain ⟨q, hh, o⟩ := s
  simp only at hord
  subst hord
  refine ⟨m, q, haMat (m + 1) hh, normCols (L.evec (m + 1) (haMat (m + 1) hh)), L.eval (m + 1) (haMat (m + 1) hh), rfl, B.two, hle,
    ⟨B.orth hn, B.proj hn, normCols_eigen (L.eigen _ _), fun c => normCols_unit (L.nonzero _ _ c)⟩, fun i => ⟨ritzFn_eq _ _ _, ?_⟩,
    hsp2, fun hH => ?_, hend, fun j hj => ?_⟩
  · unfold realAt
    rw [dif_pos i.isLt]
  · refine roots_inj (haMat_herm hH hn B) (haMat_kry B).hess (fun i j hij => ?_) (L.roots _ _)
    have := B.sub j (by omega)
    unfold haMat
    rw [hij]
    exact this
  · rw [B.step j hj]
    exact Submodule.sum_mem _ fun i hi => Submodule.smul_mem _ _ (q_mem_QS _ (by have := Finset.mem_range.1 hi; omega))

end QDng.RitzEf
