import Verif.Krylov.SpanLemmas
import Mathlib.Analysis.InnerProductSpace.PiL2
import Mathlib.Analysis.Matrix.Spectrum
import Mathlib.LinearAlgebra.Dimension.OrzechProperty
import Mathlib.Analysis.SpecialFunctions.Trigonometric.Basic

/-
C104: the short iterative Lanczos propagator.
-/

namespace QDng.Krylov

open QDng.Krylov.Spec

variable {V : Type} [NormedAddCommGroup V] [InnerProductSpace ℂ V]

/-- The result of a step of the propagator. -/
theorem step_some {L : TriDiag} {H : V →ₗ[ℂ] V} {order : ℕ} (ho : 3 ≤ order) {dt err : ℝ} {tau : ℂ}
    {stale : ℕ → V} {ψ φ : V} (h : silStep L H order dt err tau stale ψ = some φ) :
    ∃ m s, silBuild H order dt err stale ψ = some s ∧ Built H ψ order m (err ≤ 0) s ∧
      φ = ∑ i, silCoef L order s.alpha s.beta tau i • s.q i := by
  unfold silStep at h
  cases hb : silBuild H order dt err stale ψ with
  | none => rw [hb] at h; cases h
  | some s =>
    rw [hb] at h
    obtain ⟨m, B⟩ := build_inv ho hb
    exact ⟨m, s, rfl, B, by rw [← (B.result L tau).1]; exact (Option.some.inj h).symm⟩

/-- C104: whatever the Hamiltonian and the wave function, the step of length `tau` agrees with the
exponential series of `H` to the order of the expansion.  At least two terms of the series are
right, and all of the requested order when the expansion is not ended by the error estimate. -/
theorem C104_sil_agrees_with_series (L : TriDiag) (H : V →ₗ[ℂ] V) {order : ℕ} (ho : 3 ≤ order)
    (dt err : ℝ) (stale : ℕ → V) (ψ : V) (φ : ℂ → V)
    (h : ∀ tau, silStep L H order dt err tau stale ψ = some (φ tau)) :
    ∃ n, 2 ≤ n ∧ n ≤ order ∧ (err ≤ 0 → n = order) ∧ AgreesTo n H ψ φ := by
  obtain ⟨m, s, hs, B, _⟩ := step_some ho (h 0)
  have hle := B.le
  have htwo := B.two
  let z : Fin order := ⟨0, by omega⟩
  refine ⟨m + 1, by omega, hle, fun hf => (B.last hf).1, order,
    fun j => (L.eval order s.alpha s.beta j : ℂ),
    fun j => ∑ i, ((L.evec order s.alpha s.beta).map (fun x : ℝ => (x : ℂ)) i j *
      ((L.evec order s.alpha s.beta).map (fun x : ℝ => (x : ℂ))).transpose j z) • s.q i, ?_, ?_⟩
  · intro tau
    obtain ⟨m', s', hs', _, hφ⟩ := step_some ho (h tau)
    rw [hs] at hs'
    obtain rfl := Option.some.inj hs'
    rw [hφ]
    simp only [silCoef_eq L order s.alpha s.beta tau z rfl, Finset.sum_smul, Finset.smul_sum,
      smul_smul]
    rw [Finset.sum_comm]
    apply Finset.sum_congr rfl
    intro j _
    apply Finset.sum_congr rfl
    intro i _
    congr 1
    ring
  · intro k hk
    rw [← B.zero]
    exact B.kry.agrees (triC_eigen L order s.alpha s.beta) (evec_orth L order s.alpha s.beta)
      (z := z) rfl k hk

theorem sum_norm {m n : ℕ} {q : ℕ → V} (O : Orth m q) (hn : n ≤ m + 1) (c : Fin n → ℂ) :
    (inner ℂ (∑ i, c i • q i) (∑ i, c i • q i) : ℂ) = dotProduct (star c) c := by
  rw [sum_inner]
  apply Finset.sum_congr rfl
  intro i _
  rw [inner_smul_left, inner_sum, Finset.sum_eq_single i]
  · rw [inner_smul_right, O i i (by omega) (by omega), if_pos rfl, mul_one]
    rfl
  · intro j _ hj
    rw [inner_smul_right, O i j (by omega) (by omega), if_neg (fun h => hj (Fin.ext h.symm)),
      mul_zero]
  · simp

/-- C104: a normalised wave function stays normalised, wherever the expansion ends. -/
theorem C104_sil_keeps_norm (L : TriDiag) (H : V →ₗ[ℂ] V) (hH : H.IsSymmetric) {order : ℕ}
    (ho : 3 ≤ order) (dt err : ℝ) (tau : ℂ) (ht : tau.re = 0) (stale : ℕ → V) (ψ φ : V)
    (hψ : ‖ψ‖ = 1) (h : silStep L H order dt err tau stale ψ = some φ) : ‖φ‖ = 1 := by
  obtain ⟨m, s, hs, B, hφ⟩ := step_some ho h
  have hle := B.le
  have O := B.orth hH hψ
  let z : Fin order := ⟨0, by omega⟩
  have hz := (B.result L tau).2
  set c := silCoef L order s.alpha s.beta tau with hc
  have hform := coef_form L s.alpha s.beta ht z rfl 1 (fun _ => 1) (by
    rw [Matrix.one_mul, Matrix.diagonal_one, Matrix.mul_one])
  rw [Matrix.one_mulVec, Matrix.one_apply_eq, ← hc] at hform
  -- the sum over the vectors of the expansion
  have h1 : φ = ∑ i : Fin (m + 1), c ⟨i, by omega⟩ • s.q i := by
    rw [hφ, ← sum_arr s.q c (m + 1) hle hz, Finset.sum_range]
    apply Finset.sum_congr rfl
    intro i _
    rw [arr, dif_pos]
  have h2 : dotProduct (star fun i : Fin (m + 1) => c ⟨i, by omega⟩) (fun i => c ⟨i, by omega⟩) =
      dotProduct (star c) c := by
    have := sum_arr (V := ℂ) (fun _ => (1 : ℂ)) (fun i => star (c i) * c i) (m + 1) hle
      (fun i hi => by rw [hz i hi, mul_zero])
    rw [Finset.sum_range] at this
    simp only [smul_eq_mul, mul_one] at this
    simp only [dotProduct, Pi.star_apply]
    rw [← this]
    apply Finset.sum_congr rfl
    intro i _
    rw [arr, dif_pos]
  have h3 : (inner ℂ φ φ : ℂ) = 1 := by
    rw [h1, sum_norm O (le_refl _), h2, hform]
  rw [inner_self_eq_norm_sq_to_K] at h3
  have h4 : ‖φ‖ ^ 2 = 1 := by
    have h5 : ((‖φ‖ ^ 2 : ℝ) : ℂ) = 1 := by rw [Complex.ofReal_pow]; exact h3
    exact_mod_cast h5
  nlinarith [norm_nonneg φ]

/-- C104: the mean energy of a normalised wave function is conserved by a step whose expansion is
not ended by the error estimate. -/
theorem C104_sil_keeps_energy (L : TriDiag) (H : V →ₗ[ℂ] V) (hH : H.IsSymmetric) {order : ℕ}
    (ho : 3 ≤ order) (dt err : ℝ) (he : err ≤ 0) (tau : ℂ) (ht : tau.re = 0) (stale : ℕ → V)
    (ψ φ : V) (hψ : ‖ψ‖ = 1) (h : silStep L H order dt err tau stale ψ = some φ) :
    (inner ℂ φ (H φ) : ℂ) = inner ℂ ψ (H ψ) := by
  obtain ⟨m, s, hs, B, hφ⟩ := step_some ho h
  have hle := B.le
  let z : Fin order := ⟨0, by omega⟩
  have hform := coef_form L s.alpha s.beta ht z rfl (triC order s.alpha s.beta) _
    (triC_eigen L order s.alpha s.beta)
  rw [B.proj hH hψ he z z] at hform
  have hz0 : s.q z = ψ := B.zero
  rw [hz0] at hform
  rw [← hform, hφ, map_sum, sum_inner]
  simp only [dotProduct, Matrix.mulVec, Pi.star_apply]
  apply Finset.sum_congr rfl
  intro i _
  rw [inner_smul_left, inner_sum]
  congr 1
  apply Finset.sum_congr rfl
  intro j _
  rw [map_smul, inner_smul_right, B.proj hH hψ he i j]
  ring

/-- C104: when the wave function stays in the space of the first `order` Krylov vectors, the step is
the exact time evolution. -/
theorem C104_sil_exact_on_invariant_space (L : TriDiag) (H : V →ₗ[ℂ] V) (hH : H.IsSymmetric)
    {order : ℕ} (ho : 3 ≤ order) (dt err : ℝ) (he : err ≤ 0) (tau : ℂ) (stale : ℕ → V) (ψ φ : V)
    (hψ : ‖ψ‖ = 1) (hinv : (H ^ order) ψ ∈ Submodule.span ℂ (Set.range (krylov H ψ order)))
    (h : silStep L H order dt err tau stale ψ = some φ) : Evolved H tau ψ φ := by
  obtain ⟨m, s, hs, B, hφ⟩ := step_some ho h
  have hle := B.le
  have O := B.orth hH hψ
  obtain ⟨hm, _⟩ := B.last he
  subst hm
  let z : Fin (m + 1) := ⟨0, by omega⟩
  -- the Krylov space is the space of the Lanczos vectors
  have hKQ : KS H ψ (m + 1) ≤ QS s.q (m + 1) := by
    unfold KS
    rw [Submodule.span_le]
    rintro _ ⟨k, rfl⟩
    exact B.pow_mem k (by omega)
  have hK1 : KS H ψ (m + 1 + 1) ≤ KS H ψ (m + 1) := by
    conv_lhs => unfold KS
    rw [Submodule.span_le]
    rintro _ ⟨k, rfl⟩
    by_cases hk : k.val < m + 1
    · exact pow_mem_KS H ψ hk
    · have : k.val = m + 1 := by omega
      show (H ^ k.val) ψ ∈ _
      rw [this]
      exact hinv
  have hcol : ∀ j : Fin (m + 1), H (s.q j) = ∑ i, triC (m + 1) s.alpha s.beta i j • s.q i := by
    intro j
    have h1 : H (s.q j) ∈ QS s.q (m + 1) :=
      hKQ (hK1 (map_KS H ψ (KS_mono H ψ (by omega) (B.q_mem j (by omega)))))
    conv_lhs => rw [expand O h1]
    apply Finset.sum_congr rfl
    intro i _
    rw [B.proj hH hψ he i j]
  have hag := B.kry.agrees (triC_eigen L (m + 1) s.alpha s.beta) (evec_orth L (m + 1) s.alpha s.beta)
    (z := z) rfl 0 (by omega)
  refine ⟨m + 1, fun j => (L.eval (m + 1) s.alpha s.beta j : ℂ),
    fun j => ((L.evec (m + 1) s.alpha s.beta).map (fun x : ℝ => (x : ℂ))).transpose j z •
      ∑ i, (L.evec (m + 1) s.alpha s.beta).map (fun x : ℝ => (x : ℂ)) i j • s.q i, ?_, ?_, ?_⟩
  · intro j
    rw [map_smul, Kry.eigenvector hcol (triC_eigen L (m + 1) s.alpha s.beta) j, smul_comm]
  · rw [pow_zero, B.zero] at hag
    conv_rhs => rw [← show (1 : V →ₗ[ℂ] V) ψ = ψ from rfl, ← hag]
    apply Finset.sum_congr rfl
    intro j _
    rw [pow_zero, one_smul]
    simp only [Finset.smul_sum]
    apply Finset.sum_congr rfl
    intro i _
    rw [smul_smul, mul_comm]
  · rw [hφ]
    simp only [silCoef_eq L (m + 1) s.alpha s.beta tau z rfl, Finset.sum_smul, Finset.smul_sum,
      smul_smul]
    rw [Finset.sum_comm]
    apply Finset.sum_congr rfl
    intro j _
    apply Finset.sum_congr rfl
    intro i _
    congr 1
    ring

/-- C104: a normalised wave function has a step exactly when the first `order` Krylov vectors are
independent (for an expansion that is not ended by the error estimate); independence always
suffices. -/
theorem C104_sil_defined_when_independent (L : TriDiag) (H : V →ₗ[ℂ] V) {order : ℕ} (ho : 3 ≤ order)
    (dt err : ℝ) (tau : ℂ) (stale : ℕ → V) (ψ : V)
    (h : LinearIndependent ℂ (krylov H ψ order)) :
    (silStep L H order dt err tau stale ψ).isSome := by
  unfold silStep
  cases hb : silBuild H order dt err stale ψ with
  | none => exact absurd h (build_none ho hb)
  | some s => rfl

/-- C104: the converse for Hermitian Hamiltonians and normalised wave functions: no step without
independent Krylov vectors. -/
theorem C104_sil_undefined_when_dependent (L : TriDiag) (H : V →ₗ[ℂ] V) (hH : H.IsSymmetric)
    {order : ℕ} (ho : 3 ≤ order) (dt err : ℝ) (he : err ≤ 0) (tau : ℂ) (stale : ℕ → V) (ψ : V)
    (hψ : ‖ψ‖ = 1) (h : ¬ LinearIndependent ℂ (krylov H ψ order)) :
    silStep L H order dt err tau stale ψ = none := by
  cases hb : silStep L H order dt err tau stale ψ with
  | none => rfl
  | some φ =>
    exfalso
    apply h
    obtain ⟨m, s, hs, B, _⟩ := step_some ho hb
    obtain ⟨hm, _⟩ := B.last he
    subst hm
    have hli := (orth_orthonormal (B.orth hH hψ)).linearIndependent
    have h1 := finrank_span_eq_card hli
    rw [linearIndependent_iff_card_le_finrank_span]
    have : FiniteDimensional ℂ (KS H ψ (m + 1)) :=
      FiniteDimensional.span_of_finite ℂ (Set.finite_range _)
    have hle : Submodule.span ℂ (Set.range fun i : Fin (m + 1) => s.q i) ≤ KS H ψ (m + 1) := by
      rw [Submodule.span_le]
      rintro _ ⟨i, rfl⟩
      exact KS_mono H ψ (by omega) (B.q_mem i (by omega))
    have h2 := Submodule.finrank_mono hle
    rw [h1] at h2
    exact h2

/-- C104, violated: an eigenfunction of the Hamiltonian that is normalised, the easiest case for a
propagator, divides by a zero norm. -/
theorem C104_violated_eigenfunction (L : TriDiag) (H : V →ₗ[ℂ] V) (order : ℕ) (dt err : ℝ)
    (tau : ℂ) (stale : ℕ → V) (ψ : V) (hψ : ‖ψ‖ = 1) (E : ℝ) (hE : H ψ = (E : ℂ) • ψ) :
    silStep L H order dt err tau stale ψ = none := by
  unfold silStep silBuild silStart
  have h1 : (inner ℂ ψ (H ψ) : ℂ) = E := by
    rw [hE, inner_smul_right, inner_self_eq_norm_sq_to_K, hψ]
    simp
  simp only [h1, Complex.ofReal_re]
  rw [hE, sub_self, norm_zero, if_pos rfl]

/-! ### Concrete cases -/

/-- A tridiagonal solver that satisfies the contract. -/
noncomputable def exactTri : TriDiag :=
  have hherm : ∀ n a b, (tri n a b).IsHermitian := fun n a b => by
    ext i j
    simp only [Matrix.conjTranspose_apply, star_trivial, tri]
    by_cases h1 : i.val = j.val
    · rw [if_pos h1, if_pos h1.symm, h1]
    · rw [if_neg h1, if_neg (fun h => h1 h.symm)]
      by_cases h2 : i.val = j.val + 1
      · rw [if_pos h2, if_neg (by omega), if_pos h2]
      · rw [if_neg h2]
        by_cases h3 : j.val = i.val + 1
        · rw [if_pos h3, if_neg h2]
        · rw [if_neg h3, if_neg h2]
  { eval := fun n a b => (hherm n a b).eigenvalues
    evec := fun n a b => (hherm n a b).eigenvectorUnitary
    orth := fun n a b => by
      have := Unitary.coe_star_mul_self (hherm n a b).eigenvectorUnitary
      rw [Matrix.star_eq_conjTranspose] at this
      rw [← this]
      congr 1
    eigen := fun n a b => by
      ext i j
      rw [Matrix.mul_diagonal]
      have h := congrFun ((hherm n a b).mulVec_eigenvectorBasis j) i
      rw [Pi.smul_apply, smul_eq_mul, mul_comm] at h
      exact h }

/-- A chain of three sites: `e0 → e1`, `e1 → e0 + e2`, `e2 → e1`. -/
noncomputable def chain3 : EuclideanSpace ℂ (Fin 3) →ₗ[ℂ] EuclideanSpace ℂ (Fin 3) :=
  Matrix.toEuclideanLin !![0, 1, 0; 1, 0, 1; 0, 1, 0]

theorem chain3_symm : chain3.IsSymmetric := by
  unfold chain3
  rw [Matrix.isSymmetric_toEuclideanLin_iff]
  ext i j
  fin_cases i <;> fin_cases j <;> simp

/-- The vector with given components. -/
noncomputable def vec3 (x y z : ℂ) : EuclideanSpace ℂ (Fin 3) := WithLp.toLp 2 ![x, y, z]

theorem chain3_apply (x y z : ℂ) : chain3 (vec3 x y z) = vec3 y (x + z) y := by
  unfold chain3 vec3
  rw [Matrix.toLpLin_apply]
  congr 1
  funext i
  fin_cases i <;> simp [Matrix.mulVec, dotProduct, Fin.sum_univ_three]

theorem vec3_norm : ‖vec3 1 0 0‖ = 1 := by
  rw [EuclideanSpace.norm_eq]
  simp [vec3, Fin.sum_univ_three]

theorem chain3_pow : (chain3 ^ 0) (vec3 1 0 0) = vec3 1 0 0 ∧ (chain3 ^ 1) (vec3 1 0 0) = vec3 0 1 0 ∧
    (chain3 ^ 2) (vec3 1 0 0) = vec3 1 0 1 ∧ (chain3 ^ 3) (vec3 1 0 0) = vec3 0 2 0 := by
  refine ⟨rfl, ?_, ?_, ?_⟩
  · simp [chain3_apply]
  · rw [pow_succ', pow_one]; simp [Module.End.mul_apply, chain3_apply]
  · rw [pow_succ', pow_succ', pow_one]; simp [Module.End.mul_apply, chain3_apply]; norm_num

theorem chain3_indep : LinearIndependent ℂ (krylov chain3 (vec3 1 0 0) 3) := by
  obtain ⟨h0, h1, h2, _⟩ := chain3_pow
  rw [Fintype.linearIndependent_iff]
  intro g hg
  rw [Fin.sum_univ_three] at hg
  simp only [krylov, Fin.val_zero, Fin.val_one, Fin.val_two, h0, h1, h2] at hg
  have e0 := congrFun (congrArg WithLp.ofLp hg) 0
  have e1 := congrFun (congrArg WithLp.ofLp hg) 1
  have e2 := congrFun (congrArg WithLp.ofLp hg) 2
  simp [vec3] at e0 e1 e2
  intro i
  fin_cases i
  · simpa [e2] using e0
  · exact e1
  · exact e2

theorem chain3_inv : (chain3 ^ 3) (vec3 1 0 0) ∈
    Submodule.span ℂ (Set.range (krylov chain3 (vec3 1 0 0) 3)) := by
  obtain ⟨_, h1, _, h3⟩ := chain3_pow
  have : (chain3 ^ 3) (vec3 1 0 0) = (2 : ℂ) • krylov chain3 (vec3 1 0 0) 3 1 := by
    simp only [krylov, Fin.val_one]
    rw [h1, h3]
    unfold vec3
    ext i
    fin_cases i <;> simp
  rw [this]
  exact Submodule.smul_mem _ _ (Submodule.subset_span ⟨1, rfl⟩)

/-- Non-vacuity: a chain of three sites is propagated exactly, with norm and energy. -/
example (dt : ℝ) (stale : ℕ → EuclideanSpace ℂ (Fin 3)) (t : ℝ) :
    ∃ φ, silStep exactTri chain3 3 dt 0 (-Complex.I * t) stale (vec3 1 0 0) = some φ ∧
      Evolved chain3 (-Complex.I * t) (vec3 1 0 0) φ ∧ ‖φ‖ = 1 ∧ (inner ℂ φ (chain3 φ) : ℂ) = 0 := by
  have hs := C104_sil_defined_when_independent exactTri chain3 (le_refl 3) dt 0 (-Complex.I * t) stale
    (vec3 1 0 0) chain3_indep
  obtain ⟨φ, hφ⟩ := Option.isSome_iff_exists.1 hs
  have ht : (-Complex.I * (t : ℂ)).re = 0 := by simp
  refine ⟨φ, hφ, ?_, ?_, ?_⟩
  · exact C104_sil_exact_on_invariant_space _ _ chain3_symm (le_refl 3) _ _ (le_refl 0) _ _ _ _
      vec3_norm chain3_inv hφ
  · exact C104_sil_keeps_norm _ _ chain3_symm (le_refl 3) _ _ _ ht _ _ _ vec3_norm hφ
  · rw [C104_sil_keeps_energy _ _ chain3_symm (le_refl 3) _ _ (le_refl 0) _ ht _ _ _ vec3_norm hφ,
      chain3_apply]
    simp [vec3, EuclideanSpace.inner_eq_star_dotProduct, dotProduct, Fin.sum_univ_three]

/-- Non-vacuity: the wave function of the chain that is dependent. -/
example (dt : ℝ) (stale : ℕ → EuclideanSpace ℂ (Fin 3)) (tau : ℂ) :
    silStep exactTri chain3 4 dt 0 tau stale (vec3 1 0 0) = none := by
  apply C104_sil_undefined_when_dependent _ _ chain3_symm (by norm_num) _ _ (le_refl 0) _ _ _ vec3_norm
  intro h
  have := h.fintype_card_le_finrank
  simp at this

/-- Two coupled levels. -/
noncomputable def swap2 : EuclideanSpace ℂ (Fin 2) →ₗ[ℂ] EuclideanSpace ℂ (Fin 2) :=
  Matrix.toEuclideanLin !![0, 1; 1, 0]

/-- The vector with given components. -/
noncomputable def vec2 (x y : ℂ) : EuclideanSpace ℂ (Fin 2) := WithLp.toLp 2 ![x, y]

theorem swap2_symm : swap2.IsSymmetric := by
  unfold swap2
  rw [Matrix.isSymmetric_toEuclideanLin_iff]
  ext i j
  fin_cases i <;> fin_cases j <;> simp

theorem swap2_apply (x y : ℂ) : swap2 (vec2 x y) = vec2 y x := by
  unfold swap2 vec2
  rw [Matrix.toLpLin_apply]
  congr 1
  funext i
  fin_cases i <;> simp [Matrix.mulVec, dotProduct]

theorem vec2_norm (x y : ℂ) : ‖vec2 x y‖ = Real.sqrt (‖x‖ ^ 2 + ‖y‖ ^ 2) := by
  rw [EuclideanSpace.norm_eq]
  simp [vec2]

theorem vec2_inner (x y x' y' : ℂ) :
    (inner ℂ (vec2 x y) (vec2 x' y') : ℂ) = x' * (starRingEnd ℂ) x + y' * (starRingEnd ℂ) y := by
  simp [vec2, EuclideanSpace.inner_eq_star_dotProduct, dotProduct]

theorem vec2_smul (c x y : ℂ) : c • vec2 x y = vec2 (c * x) (c * y) := by
  unfold vec2
  ext i
  fin_cases i <;> simp

theorem vec2_sub (x y x' y' : ℂ) : vec2 x y - vec2 x' y' = vec2 (x - x') (y - y') := by
  unfold vec2
  ext i
  fin_cases i <;> simp

theorem vec2_add (x y x' y' : ℂ) : vec2 x y + vec2 x' y' = vec2 (x + x') (y + y') := by
  unfold vec2
  ext i
  fin_cases i <;> simp

/-- The coefficients, from a decomposition of the first unit vector in eigenvectors of the matrix. -/
theorem coef_decomp (L : TriDiag) (n : ℕ) (a b : ℕ → ℝ) (tau : ℂ) (z : Fin n) (hz : z.val = 0)
    (m : ℕ) (l : Fin m → ℂ) (v : Fin m → Fin n → ℂ)
    (hv : ∀ k, (triC n a b).mulVec (v k) = l k • v k)
    (hsum : ∀ j, ∑ k, v k j = if j = z then 1 else 0) (i : Fin n) :
    silCoef L n a b tau i = ∑ k, Complex.exp (l k * tau) * v k i := by
  rw [silCoef_eq L n a b tau z hz]
  have h1 : ∀ k, ∑ j, (L.evec n a b).map (fun x : ℝ => (x : ℂ)) i j *
      (((L.evec n a b).map (fun x : ℝ => (x : ℂ))).transpose.mulVec (v k) j *
        (fun x => Complex.exp (x * tau)) (L.eval n a b j : ℂ)) = Complex.exp (l k * tau) * v k i :=
    fun k => coef_eigen (triC_eigen L n a b) (evec_orth L n a b) (fun x => Complex.exp (x * tau))
      (hv k) i
  simp only [← h1]
  rw [Finset.sum_comm]
  apply Finset.sum_congr rfl
  intro j _
  rw [← Finset.mul_sum, ← Finset.sum_mul]
  congr 2
  simp only [Matrix.mulVec, dotProduct]
  rw [Finset.sum_comm]
  simp only [← Finset.mul_sum, hsum]
  simp

/-- The Lanczos vectors and the small matrix of the unnormalised wave function. -/
theorem swap2_build (dt : ℝ) (stale : ℕ → EuclideanSpace ℂ (Fin 2)) :
    ∃ s, silBuild swap2 3 dt 0 stale (vec2 (Real.sqrt 2 : ℝ) 0) = some s ∧ s.q 1 = vec2 0 1 ∧
      s.q 2 = vec2 (-1) 0 ∧ s.conv = 3 ∧ s.alpha 0 = 0 ∧ s.alpha 1 = 0 ∧ s.alpha 2 = 0 ∧
      s.beta 0 = Real.sqrt 2 ∧ s.beta 1 = 1 := by
  have h2 : Real.sqrt 2 * Real.sqrt 2 = 2 := Real.mul_self_sqrt (by norm_num)
  have h2c : ((Real.sqrt 2 : ℝ) : ℂ) * ((Real.sqrt 2 : ℝ) : ℂ) = 2 := by exact_mod_cast h2
  have hpos : 0 < Real.sqrt 2 := Real.sqrt_pos.2 (by norm_num)
  have hne : ((Real.sqrt 2 : ℝ) : ℂ) ≠ 0 := by exact_mod_cast hpos.ne'
  have hn : ‖vec2 0 ((Real.sqrt 2 : ℝ) : ℂ)‖ = Real.sqrt 2 := by
    rw [vec2_norm]
    simp
  have hs : silStart swap2 stale (vec2 (Real.sqrt 2 : ℝ) 0) = some
      { q := Function.update (Function.update stale 0 (vec2 (Real.sqrt 2 : ℝ) 0)) 1 (vec2 0 1),
        alpha := Function.update (fun _ => 0) 0 0,
        beta := Function.update (fun _ => 0) 0 (Real.sqrt 2), conv := 2 } := by
    unfold silStart
    have ha : (inner ℂ (vec2 (Real.sqrt 2 : ℝ) 0) (vec2 0 (Real.sqrt 2 : ℝ)) : ℂ).re = 0 := by
      rw [vec2_inner]; simp
    have hw : vec2 0 (Real.sqrt 2 : ℝ) - ((0 : ℝ) : ℂ) • vec2 (Real.sqrt 2 : ℝ) 0 =
        vec2 0 (Real.sqrt 2 : ℝ) := by simp
    simp only [swap2_apply, ha, hw, hn]
    rw [if_neg hpos.ne']
    have hq : ((1 / Real.sqrt 2 : ℝ) : ℂ) • vec2 0 (Real.sqrt 2 : ℝ) = vec2 0 1 := by
      rw [vec2_smul]
      congr 1
      · simp
      · push_cast; field_simp
    rw [hq]
  have ha : (inner ℂ (vec2 0 1) (vec2 1 0) : ℂ).re = 0 := by rw [vec2_inner]; simp
  have ha' : (inner ℂ (vec2 (-1) 0) (vec2 0 (-1)) : ℂ).re = 0 := by rw [vec2_inner]; simp
  have hw : vec2 1 0 - ((0 : ℝ) : ℂ) • vec2 0 1 - ((Real.sqrt 2 : ℝ) : ℂ) • vec2 (Real.sqrt 2 : ℝ) 0 =
      vec2 (-1) 0 := by
    rw [vec2_smul, vec2_smul, vec2_sub, vec2_sub, h2c]
    congr 1 <;> norm_num
  have hn1 : ‖vec2 (-1) 0‖ = 1 := by rw [vec2_norm]; simp
  unfold silBuild
  rw [hs]
  simp only [show 3 - 2 = 0 + 1 from rfl, zero_mul]
  rw [silLoop]
  have e1 : ∀ f : ℕ → EuclideanSpace ℂ (Fin 2), Function.update f 1 (vec2 0 1) (2 - 1) = vec2 0 1 :=
    fun f => Function.update_self _ _ _
  simp only [e1, show 2 - 2 = 0 from rfl, Function.update_of_ne (show (0 : ℕ) ≠ 1 by omega),
    Function.update_self, swap2_apply, ha, hw, hn1]
  rw [if_neg one_ne_zero, if_neg (not_lt.2 (abs_nonneg _)), silLoop]
  refine ⟨_, rfl, ?_, ?_, rfl, ?_, ?_, ?_, ?_, ?_⟩
  · simp only
    rw [Function.update_of_ne (by omega), Function.update_self]
  · simp
  · simp
  · simp
  · simp [swap2_apply, ha']
  · simp
  · simp

/-- C104, violated: a wave function that is not normalised loses norm in a step of the two coupled
levels, although the Hamiltonian is Hermitian and no approximation is left (three vectors in a
space of two dimensions).  The wave function in the result is a third of what it should be up to a
phase. -/
theorem C104_violated_unnormalised (L : TriDiag) (dt : ℝ) (stale : ℕ → EuclideanSpace ℂ (Fin 2)) :
    ∃ (tau : ℂ) (ψ φ : EuclideanSpace ℂ (Fin 2)), tau.re = 0 ∧ 0 < ‖ψ‖ ∧ swap2.IsSymmetric ∧
      silStep L swap2 3 dt 0 tau stale ψ = some φ ∧ ‖φ‖ = ‖ψ‖ / 3 := by
  have h2 : Real.sqrt 2 * Real.sqrt 2 = 2 := Real.mul_self_sqrt (by norm_num)
  have h2c : ((Real.sqrt 2 : ℝ) : ℂ) * ((Real.sqrt 2 : ℝ) : ℂ) = 2 := by exact_mod_cast h2
  have h3 : Real.sqrt 3 * Real.sqrt 3 = 3 := Real.mul_self_sqrt (by norm_num)
  have h3c : ((Real.sqrt 3 : ℝ) : ℂ) * ((Real.sqrt 3 : ℝ) : ℂ) = 3 := by exact_mod_cast h3
  have hpos : 0 < Real.sqrt 2 := Real.sqrt_pos.2 (by norm_num)
  have h3pos : 0 < Real.sqrt 3 := Real.sqrt_pos.2 (by norm_num)
  have h3ne : ((Real.sqrt 3 : ℝ) : ℂ) ≠ 0 := by exact_mod_cast h3pos.ne'
  obtain ⟨s, hs, hq1, hq2, hcv, a0, a1, a2, b0, b1⟩ := swap2_build dt stale
  set r2 : ℂ := ((Real.sqrt 2 : ℝ) : ℂ) with hr2
  set r3 : ℂ := ((Real.sqrt 3 : ℝ) : ℂ) with hr3
  let tau : ℂ := ((Real.pi / Real.sqrt 3 : ℝ) : ℂ) * Complex.I
  have htau : r3 * tau = (Real.pi : ℂ) * Complex.I := by
    show r3 * (((Real.pi / Real.sqrt 3 : ℝ) : ℂ) * Complex.I) = _
    push_cast
    rw [← hr3]
    field_simp
  have hexp : Complex.exp (r3 * tau) = -1 := by rw [htau, Complex.exp_pi_mul_I]
  have hexp' : Complex.exp (-r3 * tau) = -1 := by
    rw [neg_mul, htau, Complex.exp_neg, Complex.exp_pi_mul_I]; norm_num
  -- the eigenvectors of the small matrix
  have hT : triC 3 s.alpha s.beta = !![0, r2, 0; r2, 0, 1; 0, 1, 0] := by
    ext i j
    fin_cases i <;> fin_cases j <;> simp [triC, tri, a0, a1, a2, b0, b1, hr2]
  have hc := coef_decomp L 3 s.alpha s.beta tau 0 rfl 3 ![0, r3, -r3]
    ![![1 / 3, 0, -r2 / 3], ![1 / 3, r3 * r2 / 6, r2 / 6], ![1 / 3, -(r3 * r2 / 6), r2 / 6]]
    (by
      intro k
      rw [hT]
      funext i
      fin_cases k <;> fin_cases i <;>
        simp [Matrix.mulVec, dotProduct, Fin.sum_univ_three] <;> ring_nf <;>
        (try simp only [show r2 ^ 2 = 2 by rw [pow_two, h2c], show r3 ^ 2 = 3 by rw [pow_two, h3c]]) <;>
        (try ring_nf))
    (by
      intro j
      fin_cases j <;> simp [Fin.sum_univ_three] <;> ring_nf)
  have c0 : silCoef L 3 s.alpha s.beta tau 0 = -1 / 3 := by
    rw [hc, Fin.sum_univ_three]
    show Complex.exp (0 * tau) * (1 / 3) + Complex.exp (r3 * tau) * (1 / 3) +
      Complex.exp (-r3 * tau) * (1 / 3) = _
    rw [zero_mul, Complex.exp_zero, hexp, hexp']
    norm_num
  have c1 : silCoef L 3 s.alpha s.beta tau 1 = 0 := by
    rw [hc, Fin.sum_univ_three]
    show Complex.exp (0 * tau) * 0 + Complex.exp (r3 * tau) * (r3 * r2 / 6) +
      Complex.exp (-r3 * tau) * (-(r3 * r2 / 6)) = _
    rw [zero_mul, Complex.exp_zero, hexp, hexp']
    ring
  have c2 : silCoef L 3 s.alpha s.beta tau 2 = -2 * r2 / 3 := by
    rw [hc, Fin.sum_univ_three]
    show Complex.exp (0 * tau) * (-r2 / 3) + Complex.exp (r3 * tau) * (r2 / 6) +
      Complex.exp (-r3 * tau) * (r2 / 6) = _
    rw [zero_mul, Complex.exp_zero, hexp, hexp']
    ring
  refine ⟨tau, vec2 r2 0, vec2 (r2 / 3) 0, ?_, ?_, swap2_symm, ?_, ?_⟩
  · show (((Real.pi / Real.sqrt 3 : ℝ) : ℂ) * Complex.I).re = 0
    simp
  · rw [vec2_norm, hr2]
    simp
  · unfold silStep
    rw [hs]
    simp only [hcv, combine]
    rw [show List.range (3 - 1) = [0, 1] from rfl]
    simp only [List.foldl_cons, List.foldl_nil, hq1, hq2, arr]
    rw [dif_pos (show 0 < 3 by omega), dif_pos (show 0 + 1 < 3 by omega),
      dif_pos (show 1 + 1 < 3 by omega)]
    rw [show (⟨0, by omega⟩ : Fin 3) = 0 from rfl, show (⟨0 + 1, by omega⟩ : Fin 3) = 1 from rfl,
      show (⟨1 + 1, by omega⟩ : Fin 3) = 2 from rfl, c0, c1, c2, vec2_smul, vec2_smul, vec2_smul,
      vec2_add, vec2_add]
    congr 2 <;> ring
  · rw [vec2_norm, vec2_norm]
    have : ‖r2 / 3‖ = ‖r2‖ / 3 := by rw [norm_div]; norm_num
    rw [this, norm_zero]
    simp [Real.sqrt_sq, div_nonneg]

end QDng.Krylov
