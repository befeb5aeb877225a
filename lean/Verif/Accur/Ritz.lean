import Verif.Krylov.SilProps
import Verif.Krylov.ArProps
import Verif.Accur.Strang

/-
Accuracy of a step in the space of Krylov vectors, for the properties C273 and C274.
-/

namespace QDng.Accur

open QDng.Chexp QDng.Krylov

variable {V : Type} [NormedAddCommGroup V] [InnerProductSpace ℂ V]

/-! ### The Taylor polynomial -/

theorem pow_component [FiniteDimensional ℂ V] {n : ℕ} (H : V →ₗ[ℂ] V) (b : OrthonormalBasis (Fin n) ℂ V) (l : Fin n → ℝ)
    (hl : ∀ i, H (b i) = (l i : ℂ) • b i) (k : ℕ) (v : V) (i : Fin n) :
    inner ℂ (b i) ((H ^ k) v) = (l i : ℂ) ^ k * inner ℂ (b i) v := by
  induction k generalizing v with
  | zero => simp
  | succ k ih =>
    rw [pow_succ, Module.End.mul_apply, ih, diag_component b H (fun i => (l i : ℂ)) hl, pow_succ, mul_assoc]

/-- The Taylor polynomial of degree `k - 1`. -/
theorem taylor_error [FiniteDimensional ℂ V] (H : V →ₗ[ℂ] V) (hH : Hermitian H) (w : ℝ) (hw : Within H (-w) w) (s : ℝ)
    (psi : ℝ → V) (hp : Solves H psi) (t : ℝ) (n : ℕ) :
    ‖∑ k ∈ Finset.range n, ((-Complex.I * s) ^ k / (k.factorial : ℂ)) • (H ^ k) (psi t) - psi (t + s)‖ ≤
      (w * |s|) ^ n / n.factorial * ‖psi t‖ := by
  obtain ⟨N, b, l, hl⟩ := eigenbasis H hH
  have hwl : ∀ i, |l i| ≤ w := fun i => by
    obtain ⟨a1, a2⟩ := within_eigen H b l hl _ _ hw i
    exact abs_le.2 ⟨a1, a2⟩
  rcases isEmpty_or_nonempty (Fin N) with hn | ⟨⟨i0⟩⟩
  · have hz : ∀ v : V, v = 0 := fun v => by
      rw [← b.sum_repr' v]
      exact Finset.sum_of_isEmpty _
    rw [hz (psi t), hz (_ - _), norm_zero, mul_zero]
  have hw0 : 0 ≤ w := (abs_nonneg _).trans (hwl i0)
  refine norm_le_of_coeff b _ _ _ (by positivity) (fun i => ?_)
  have e : inner ℂ (b i) (∑ k ∈ Finset.range n, ((-Complex.I * s) ^ k / (k.factorial : ℂ)) • (H ^ k) (psi t)) =
      (∑ k ∈ Finset.range n, (-Complex.I * s * l i) ^ k / (k.factorial : ℂ)) * inner ℂ (b i) (psi t) := by
    rw [inner_sum, Finset.sum_mul]
    refine Finset.sum_congr rfl (fun k _ => ?_)
    rw [inner_smul_right, pow_component H b l hl, mul_pow _ (l i : ℂ)]
    ring
  rw [inner_sub_right, e, solution_component H hH b l hl (-Complex.I) psi hp, ← sub_mul, norm_mul]
  refine mul_le_mul_of_nonneg_right ?_ (norm_nonneg _)
  have h := etail_le n (-(l i * s))
  unfold etail at h
  rw [← arg_eq] at h
  rw [show -Complex.I * (l i : ℂ) * (s : ℂ) = -Complex.I * (s : ℂ) * (l i : ℂ) by ring, ← norm_neg, neg_sub]
  refine h.trans ?_
  rw [abs_neg, abs_mul]
  gcongr
  exact hwl i

/-- A solution with a source. -/
theorem source_error [FiniteDimensional ℂ V] (H : V →ₗ[ℂ] V) (hH : Hermitian H) (f g : ℝ → V) (e : ℝ)
    (hf : ∀ u, HasDerivAt f ((-Complex.I) • H (f u) + g u) u) (hg : ∀ u, ‖g u‖ ≤ e) (h0 : f 0 = 0) (s : ℝ) :
    ‖f s‖ ≤ e * |s| := by
  obtain ⟨N, b, l, hl⟩ := eigenbasis H hH
  let F : ℝ → V := fun u => ∑ i, (Complex.exp (Complex.I * l i * u) * inner ℂ (b i) (f u)) • b i
  let G : ℝ → V := fun u => ∑ i, (Complex.exp (Complex.I * l i * u) * inner ℂ (b i) (g u)) • b i
  have hcomp : ∀ (c : Fin N → ℂ) (j : Fin N), inner ℂ (b j) (∑ i, c i • b i) = c j := fun c j =>
    b.orthonormal.inner_right_fintype c j
  have hexp : ∀ (i : Fin N) (u : ℝ), ‖Complex.exp (Complex.I * l i * u)‖ = 1 := fun i u => by
    rw [Complex.norm_exp]; simp
  have hF : ∀ u, HasDerivAt F (G u) u := by
    intro u
    have h : ∀ i ∈ Finset.univ, HasDerivAt (fun u : ℝ => (Complex.exp (Complex.I * l i * u) * inner ℂ (b i) (f u)) • b i)
        ((Complex.exp (Complex.I * l i * u) * inner ℂ (b i) (g u)) • b i) u := by
      intro i _
      have h1 : HasDerivAt (fun u : ℝ => Complex.I * l i * (u : ℂ)) (Complex.I * l i) u := by
        simpa using (Complex.ofRealCLM.hasDerivAt (x := u)).const_mul (Complex.I * l i)
      have h2 := (hasDerivAt_const u (b i)).inner ℂ (hf u)
      have h3 := (h1.cexp.mul h2).smul_const (b i)
      have e1 : Complex.exp (Complex.I * l i * u) * (Complex.I * l i) * inner ℂ (b i) (f u) +
          Complex.exp (Complex.I * l i * u) * (inner ℂ (b i) (-Complex.I • H (f u) + g u) + inner ℂ (0 : V) (f u)) =
          Complex.exp (Complex.I * l i * u) * inner ℂ (b i) (g u) := by
        rw [inner_zero_left, add_zero, inner_add_right, inner_smul_right, diag_component b H (fun i => (l i : ℂ)) hl]
        ring
      rw [e1] at h3
      exact h3
    exact HasDerivAt.fun_sum h
  have hG : ∀ u, ‖G u‖ ≤ e := by
    intro u
    refine le_trans ?_ (hg u)
    have := norm_le_of_coeff b (G u) (g u) 1 zero_le_one (fun i => by
      rw [hcomp, norm_mul, hexp])
    rwa [one_mul] at this
  have hFf : ‖f s‖ ≤ ‖F s‖ := by
    have := norm_le_of_coeff b (f s) (F s) 1 zero_le_one (fun i => by
      rw [hcomp, norm_mul, hexp, one_mul, one_mul])
    rwa [one_mul] at this
  have hF0 : F 0 = 0 := by
    show ∑ i, _ = _
    refine Finset.sum_eq_zero (fun i _ => ?_)
    rw [h0, inner_zero_right, mul_zero, zero_smul]
  have := convex_univ.norm_image_sub_le_of_norm_hasDerivWithin_le (f := F) (f' := G) (C := e)
    (fun x _ => (hF x).hasDerivWithinAt) (fun x _ => hG x) (Set.mem_univ 0) (Set.mem_univ s)
  rw [hF0, sub_zero, sub_zero, Real.norm_eq_abs] at this
  exact hFf.trans this

/-! ### The small matrix -/

/-- The Hamiltonian in the space of orthonormal vectors and its diagonal form. -/
structure Ritz (H : V →ₗ[ℂ] V) (q : ℕ → V) (m : ℕ) (T U : Matrix (Fin (m + 1)) (Fin (m + 1)) ℂ)
    (lam : Fin (m + 1) → ℝ) : Prop where
  orth : Orth m q
  proj : ∀ i j, T i j = inner ℂ (q i) (H (q j))
  kry : Kry H q (m + 1) (m + 1) T
  unit : U.conjTranspose * U = 1
  eigen : T * U = U * Matrix.diagonal (fun j => (lam j : ℂ))

section

variable {H : V →ₗ[ℂ] V} {q : ℕ → V} {m : ℕ} {T U : Matrix (Fin (m + 1)) (Fin (m + 1)) ℂ}
  {lam : Fin (m + 1) → ℝ}

theorem norm_sq_of {v : V} {x : ℝ} (h : (inner ℂ v v : ℂ) = (x : ℂ)) : ‖v‖ ^ 2 = x := by
  rw [inner_self_eq_norm_sq_to_K] at h
  have h5 : ((‖v‖ ^ 2 : ℝ) : ℂ) = (x : ℂ) := by rw [Complex.ofReal_pow]; exact h
  exact_mod_cast h5

/-- Energies of the small matrix are within the energy range. -/
theorem Ritz.range (R : Ritz H q m T U lam) (w : ℝ) (hw : Within H (-w) w) (j : Fin (m + 1)) : |lam j| ≤ w := by
  let c : Fin (m + 1) → ℂ := fun i => U i j
  let y : V := ∑ i, c i • q i
  have h1 : (inner ℂ y y : ℂ) = ((1 : ℝ) : ℂ) := by
    rw [sum_norm R.orth le_rfl]
    have := congrFun (congrFun R.unit j) j
    rw [Matrix.mul_apply, Matrix.one_apply_eq] at this
    simpa [dotProduct, Matrix.conjTranspose_apply] using this
  have h2 : (inner ℂ y (H y) : ℂ) = (lam j : ℂ) := by
    have h3 : (U.conjTranspose * (T * U)) j j = (lam j : ℂ) := by
      rw [R.eigen, ← Matrix.mul_assoc, R.unit, Matrix.one_mul, Matrix.diagonal_apply_eq]
    rw [← h3, Matrix.mul_apply]
    show inner ℂ (∑ i, c i • q i) (H (∑ i, c i • q i)) = _
    rw [map_sum, sum_inner]
    refine Finset.sum_congr rfl (fun i _ => ?_)
    rw [inner_smul_left, inner_sum, Matrix.conjTranspose_apply, Matrix.mul_apply]
    congr 1
    refine Finset.sum_congr rfl (fun k _ => ?_)
    rw [map_smul, inner_smul_right, R.proj i k, mul_comm]
  have h4 := hw y
  rw [h2, norm_sq_of h1, Complex.ofReal_re, mul_one, mul_one] at h4
  exact abs_le.2 h4

/-- Part of the first vector along an eigenvector of the small matrix. -/
noncomputable def part (q : ℕ → V) (U : Matrix (Fin (m + 1)) (Fin (m + 1)) ℂ) (j : Fin (m + 1)) : V :=
  ∑ i, (U i j * U.conjTranspose j 0) • q i

theorem part_sum (q : ℕ → V) (U : Matrix (Fin (m + 1)) (Fin (m + 1)) ℂ) (r : Fin (m + 1) → ℂ) :
    ∑ j, r j • part q U j = ∑ i, (U.mulVec fun j => (starRingEnd ℂ) (U 0 j) * r j) i • q i := by
  unfold part
  simp only [Finset.smul_sum, smul_smul, Matrix.mulVec, dotProduct, Finset.sum_smul]
  rw [Finset.sum_comm]
  refine Finset.sum_congr rfl (fun i _ => Finset.sum_congr rfl (fun j _ => ?_))
  rw [Matrix.conjTranspose_apply, Complex.star_def]
  congr 1
  ring

theorem Ritz.coef_norm (R : Ritz H q m T U lam) (r : Fin (m + 1) → ℂ) (M : ℝ) (hr : ∀ j, ‖r j‖ ≤ M) :
    ‖∑ i, (U.mulVec fun j => (starRingEnd ℂ) (U 0 j) * r j) i • q i‖ ≤ M := by
  have hM : 0 ≤ M := (norm_nonneg _).trans (hr 0)
  set u : Fin (m + 1) → ℂ := fun j => (starRingEnd ℂ) (U 0 j) * r j with hu
  have hU2 : U * U.conjTranspose = 1 := mul_eq_one_comm.1 R.unit
  have h0 : ∑ j, ‖U 0 j‖ ^ 2 = 1 := by
    have := congrFun (congrFun hU2 0) 0
    rw [Matrix.mul_apply, Matrix.one_apply_eq] at this
    have e : ((∑ j, ‖U 0 j‖ ^ 2 : ℝ) : ℂ) = 1 := by
      rw [← this, Complex.ofReal_sum]
      refine Finset.sum_congr rfl (fun j _ => ?_)
      rw [Matrix.conjTranspose_apply, Complex.star_def, Complex.mul_conj, Complex.normSq_eq_norm_sq]
    exact_mod_cast e
  have h1 : (inner ℂ (∑ i, (U.mulVec u) i • q i) (∑ i, (U.mulVec u) i • q i) : ℂ) = ((∑ j, ‖u j‖ ^ 2 : ℝ) : ℂ) := by
    rw [sum_norm R.orth le_rfl]
    have := unitary_form (Z := U) 1 1 (by rw [Matrix.one_mul, R.unit]) u
    rw [Matrix.one_mulVec, Matrix.one_mulVec] at this
    rw [this, Complex.ofReal_sum]
    refine Finset.sum_congr rfl (fun j _ => ?_)
    rw [Pi.star_apply, Complex.star_def, mul_comm, Complex.mul_conj, Complex.normSq_eq_norm_sq]
  refine (sq_le_sq₀ (norm_nonneg _) hM).1 ?_
  rw [norm_sq_of h1]
  calc ∑ j, ‖u j‖ ^ 2 ≤ ∑ j, M ^ 2 * ‖U 0 j‖ ^ 2 := by
        refine Finset.sum_le_sum (fun j _ => ?_)
        rw [hu]
        dsimp only
        rw [norm_mul, Complex.norm_conj, mul_pow, mul_comm]
        exact mul_le_mul_of_nonneg_right (pow_le_pow_left₀ (norm_nonneg _) (hr j) 2) (sq_nonneg _)
    _ = M ^ 2 := by rw [← Finset.mul_sum, h0, mul_one]

/-- The step in the space of the Krylov vectors and the solution of the Schrödinger equation. -/
theorem Ritz.error [FiniteDimensional ℂ V] (R : Ritz H q m T U lam) (hH : Hermitian H) (w : ℝ) (hw : Within H (-w) w) (s : ℝ)
    (psi : ℝ → V) (hp : Solves H psi) (t : ℝ) (h0 : psi t = q 0) :
    ‖∑ i, (U.mulVec fun j => (starRingEnd ℂ) (U 0 j) * Complex.exp (lam j * (-Complex.I * s))) i • q i - psi (t + s)‖ ≤
      2 * ((w * |s|) ^ (m + 1) / (m + 1).factorial) := by
  have hU2 : U * U.conjTranspose = 1 := mul_eq_one_comm.1 R.unit
  have hq : ‖q 0‖ = 1 := by
    have := R.orth 0 0 (by omega) (by omega)
    rw [if_pos rfl] at this
    have := norm_sq_of (v := q 0) (x := 1) (by rw [this]; simp)
    nlinarith [norm_nonneg (q 0)]
  have ht := taylor_error H hH w hw s psi hp t (m + 1)
  rw [h0, hq, mul_one] at ht
  -- the step and its Taylor polynomial
  have hkr : ∀ k, k < m + 1 → ∑ j, ((lam j : ℂ)) ^ k • part q U j = (H ^ k) (q 0) := fun k hk =>
    R.kry.agrees R.eigen hU2 (z := 0) rfl k hk
  have e1 : ∑ k ∈ Finset.range (m + 1), ((-Complex.I * s) ^ k / (k.factorial : ℂ)) • (H ^ k) (q 0) =
      ∑ j, (∑ k ∈ Finset.range (m + 1), (-Complex.I * s * lam j) ^ k / (k.factorial : ℂ)) • part q U j := by
    simp only [Finset.sum_smul]
    rw [Finset.sum_comm]
    refine Finset.sum_congr rfl (fun k hk => ?_)
    rw [← hkr k (Finset.mem_range.1 hk), Finset.smul_sum]
    refine Finset.sum_congr rfl (fun j _ => ?_)
    rw [smul_smul, mul_pow _ (lam j : ℂ)]
    congr 1
    ring
  have e2 : ∑ i, (U.mulVec fun j => (starRingEnd ℂ) (U 0 j) * Complex.exp (lam j * (-Complex.I * s))) i • q i -
      ∑ k ∈ Finset.range (m + 1), ((-Complex.I * s) ^ k / (k.factorial : ℂ)) • (H ^ k) (q 0) =
      ∑ i, (U.mulVec fun j => (starRingEnd ℂ) (U 0 j) * etail (m + 1) (-(lam j * s))) i • q i := by
    rw [e1, ← part_sum, ← part_sum, ← Finset.sum_sub_distrib]
    refine Finset.sum_congr rfl (fun j _ => ?_)
    rw [← sub_smul]
    congr 1
    unfold etail
    rw [← arg_eq]
    congr 2
    ring
  have h1 := R.coef_norm (fun j => etail (m + 1) (-(lam j * s))) ((w * |s|) ^ (m + 1) / (m + 1).factorial) (fun j => by
    refine (etail_le _ _).trans ?_
    rw [abs_neg, abs_mul]
    gcongr
    exact R.range w hw j)
  rw [← e2] at h1
  refine (norm_sub_le_norm_sub_add_norm_sub _ _ _).trans ((add_le_add h1 ht).trans (le_of_eq (by ring)))

/-- The error from what the Hamiltonian takes out of the space. -/
theorem Ritz.rest [FiniteDimensional ℂ V] (R : Ritz H q m T U lam) (hH : Hermitian H) (s e : ℝ)
    (hres : ∃ c : ℕ → ℂ, ‖H (q m) - ∑ i ∈ Finset.range (m + 1), c i • q i‖ ≤ e)
    (psi : ℝ → V) (hp : Solves H psi) (t : ℝ) (h0 : psi t = q 0) :
    ‖∑ i, (U.mulVec fun j => (starRingEnd ℂ) (U 0 j) * Complex.exp (lam j * (-Complex.I * s))) i • q i - psi (t + s)‖ ≤
      e * |s| := by
  have hU2 : U * U.conjTranspose = 1 := mul_eq_one_comm.1 R.unit
  -- the rest in the orthogonal complement
  let d : V := H (q m) - ∑ i : Fin (m + 1), T i ⟨m, by omega⟩ • q i
  have hd : ‖d‖ ≤ e := by
    obtain ⟨c, hc⟩ := hres
    refine le_trans ?_ hc
    have hperp : ∀ i : Fin (m + 1), (inner ℂ (q i) d : ℂ) = 0 := by
      intro i
      show inner ℂ (q i) (H (q m) - _) = _
      rw [inner_sub_right, inner_sum, Finset.sum_eq_single i]
      · rw [inner_smul_right, R.orth i i (by omega) (by omega), if_pos rfl, mul_one, R.proj]
        exact sub_self _
      · intro k _ hk
        rw [inner_smul_right, R.orth i k (by omega) (by omega), if_neg (fun h => hk (Fin.ext h.symm)), mul_zero]
      · simp
    have e1 : H (q m) - ∑ i ∈ Finset.range (m + 1), c i • q i =
        d + ∑ i : Fin (m + 1), (T i ⟨m, by omega⟩ - c i) • q i := by
      rw [Finset.sum_range]
      simp only [sub_smul, Finset.sum_sub_distrib]
      show _ = H (q m) - _ + _
      abel
    have h2 : (inner ℂ d (∑ i : Fin (m + 1), (T i ⟨m, by omega⟩ - c i) • q i) : ℂ) = 0 := by
      rw [inner_sum]
      refine Finset.sum_eq_zero (fun i _ => ?_)
      rw [inner_smul_right, ← inner_conj_symm, hperp, map_zero, mul_zero]
    rw [e1]
    have h3 := norm_add_sq_eq_norm_sq_add_norm_sq_of_inner_eq_zero _ _ h2
    refine (sq_le_sq₀ (norm_nonneg _) (norm_nonneg _)).1 ?_
    nlinarith [norm_nonneg (∑ i : Fin (m + 1), (T i ⟨m, by omega⟩ - c i) • q i)]
  -- the step as a function of time
  let c : ℝ → Fin (m + 1) → ℂ := fun u => U.mulVec fun j => (starRingEnd ℂ) (U 0 j) * Complex.exp (lam j * (-Complex.I * u))
  let phi : ℝ → V := fun u => ∑ i, c u i • q i
  have hphi : ∀ u : ℝ, phi u = ∑ j, Complex.exp (lam j * (-Complex.I * u)) • part q U j := fun u => (part_sum q U _).symm
  have hder : ∀ u : ℝ, HasDerivAt phi (∑ j, (Complex.exp (lam j * (-Complex.I * u)) * (lam j * -Complex.I)) • part q U j) u := by
    intro u
    have h : ∀ j ∈ Finset.univ, HasDerivAt (fun u : ℝ => Complex.exp (lam j * (-Complex.I * u)) • part q U j)
        ((Complex.exp (lam j * (-Complex.I * u)) * (lam j * -Complex.I)) • part q U j) u := by
      intro j _
      have h1 : HasDerivAt (fun u : ℝ => (lam j : ℂ) * (-Complex.I * (u : ℂ))) (lam j * -Complex.I) u := by
        have := ((Complex.ofRealCLM.hasDerivAt (x := u)).const_mul (-Complex.I)).const_mul (lam j : ℂ)
        simpa using this
      exact h1.cexp.smul_const _
    have := HasDerivAt.fun_sum h
    have e1 : phi = fun (u : ℝ) => ∑ j, Complex.exp (lam j * (-Complex.I * u)) • part q U j := funext hphi
    rw [e1]
    exact this
  -- the Hamiltonian applied to it
  have hHphi : ∀ u : ℝ, H (phi u) = ∑ j, (Complex.exp (lam j * (-Complex.I * u)) * lam j) • part q U j + c u ⟨m, by omega⟩ • d := by
    intro u
    have hcol : ∀ i : Fin (m + 1), H (q i) = ∑ k, T k i • q k + (if i = ⟨m, by omega⟩ then d else 0) := by
      intro i
      by_cases hi : i = ⟨m, by omega⟩
      · subst hi
        rw [if_pos rfl]
        show _ = _ + (H (q m) - _)
        abel
      · rw [if_neg hi, add_zero]
        refine R.kry.col i ?_
        have : i.val ≠ m := fun h => hi (Fin.ext h)
        omega
    have e1 : H (phi u) = ∑ i, c u i • ∑ k, T k i • q k + c u ⟨m, by omega⟩ • d := by
      show H (∑ i, c u i • q i) = _
      rw [map_sum]
      simp only [map_smul, hcol, smul_add, Finset.sum_add_distrib, smul_ite, smul_zero, Finset.sum_ite_eq',
        Finset.mem_univ, if_true]
    rw [e1]
    congr 1
    rw [part_sum]
    have e2 : (U.mulVec fun j => (starRingEnd ℂ) (U 0 j) * (Complex.exp (lam j * (-Complex.I * u)) * lam j)) =
        T.mulVec (c u) := by
      show _ = T.mulVec (U.mulVec _)
      rw [Matrix.mulVec_mulVec, R.eigen, ← Matrix.mulVec_mulVec]
      congr 1
      funext j
      rw [Matrix.mulVec_diagonal]
      ring
    rw [e2]
    simp only [Finset.smul_sum, smul_smul, Matrix.mulVec, dotProduct, Finset.sum_smul]
    rw [Finset.sum_comm]
    refine Finset.sum_congr rfl (fun k _ => Finset.sum_congr rfl (fun i _ => ?_))
    rw [mul_comm]
  have hc1 : ∀ u, ‖c u ⟨m, by omega⟩‖ ≤ 1 := by
    intro u
    have h1 : ‖phi u‖ ≤ 1 := R.coef_norm (fun j => Complex.exp (lam j * (-Complex.I * u))) 1 (fun j => by
      rw [Complex.norm_exp]; simp)
    have h2 : (inner ℂ (q m) (phi u) : ℂ) = c u ⟨m, by omega⟩ := by
      show inner ℂ (q m) (∑ i, c u i • q i) = _
      rw [inner_sum, Finset.sum_eq_single (⟨m, by omega⟩ : Fin (m + 1))]
      · rw [inner_smul_right, R.orth m m le_rfl le_rfl, if_pos rfl, mul_one]
      · intro k _ hk
        rw [inner_smul_right, R.orth m k le_rfl (by omega), if_neg (fun h => hk (Fin.ext h.symm)), mul_zero]
      · simp
    have hqm : ‖q m‖ = 1 := by
      have := R.orth m m (by omega) (by omega)
      rw [if_pos rfl] at this
      have := norm_sq_of (v := q m) (x := 1) (by rw [this]; simp)
      nlinarith [norm_nonneg (q m)]
    rw [← h2]
    refine (norm_inner_le_norm _ _).trans ?_
    rw [hqm, one_mul]
    exact h1
  have he : 0 ≤ e := (norm_nonneg _).trans hd
  have hphi0 : phi 0 = q 0 := by
    rw [hphi]
    have := R.kry.agrees R.eigen hU2 (z := 0) rfl 0 (by omega)
    rw [pow_zero, Module.End.one_apply] at this
    rw [← this]
    refine Finset.sum_congr rfl (fun j _ => ?_)
    simp [part]
  have := source_error H hH (fun u => phi u - psi (t + u)) (fun u => Complex.I • c u ⟨m, by omega⟩ • d) e (fun u => by
      have hp' : HasDerivAt (fun u => psi (t + u)) ((-Complex.I) • H (psi (t + u))) u := by
        have := (hp (t + u)).scomp u ((hasDerivAt_id u).const_add t)
        have e2 : (1 : ℝ) • (-Complex.I • H (psi (t + u))) = -Complex.I • H (psi (t + u)) := one_smul _ _
        exact e2 ▸ this
      have h1 := (hder u).sub hp'
      have e1 : ∑ j, (Complex.exp (lam j * (-Complex.I * u)) * (lam j * -Complex.I)) • part q U j - -Complex.I • H (psi (t + u)) =
          (-Complex.I) • H (phi u - psi (t + u)) + Complex.I • c u ⟨m, by omega⟩ • d := by
        rw [map_sub, hHphi, smul_sub, smul_add, Finset.smul_sum]
        have e3 : ∀ j, -Complex.I • (Complex.exp (lam j * (-Complex.I * u)) * (lam j : ℂ)) • part q U j =
            (Complex.exp (lam j * (-Complex.I * u)) * (lam j * -Complex.I)) • part q U j := fun j => by
          rw [smul_smul]; congr 1; ring
        simp only [e3]
        generalize c u ⟨m, by omega⟩ • d = x
        module
      rw [e1] at h1
      exact h1) (fun u => by
      rw [norm_smul, norm_smul, Complex.norm_I, one_mul]
      exact (mul_le_mul (hc1 u) hd (norm_nonneg _) zero_le_one).trans (le_of_eq (one_mul e)))
    (by simp [hphi0, h0]) s
  exact this

end

end QDng.Accur
