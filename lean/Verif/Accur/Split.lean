import Verif.Accur.Strang
import Verif.Accur.Spec
import Verif.Spo.Props
import Mathlib.Analysis.InnerProductSpace.PiL2
import Mathlib.Analysis.Calculus.Deriv.Prod

/-
Property C271: accuracy of the split operator propagator.
-/

namespace QDng.Accur

open QDng.Chexp QDng.Deriv QDng.Spo QDng.Common

/-- The wave functions of a grid as a Hilbert space. -/
abbrev G (s : Space) : Type := EuclideanSpace ℂ s.Pt

/-- A linear map of wave functions. -/
noncomputable def lift {s : Space} (A : s.Wf → s.Wf) (hA : Lin A) : G s →ₗ[ℂ] G s :=
  have h0 : A 0 = 0 := by simpa using hA (-1) 0 0
  { toFun := fun v => WithLp.toLp 2 (A v.ofLp)
    map_add' := fun u v => by
      have := hA 1 u.ofLp v.ofLp
      rw [one_smul, one_smul] at this
      rw [WithLp.ofLp_add, this, WithLp.toLp_add]
    map_smul' := fun c v => by
      have := hA c v.ofLp 0
      rw [add_zero, h0, add_zero] at this
      rw [WithLp.ofLp_smul, this, WithLp.toLp_smul]
      rfl }

theorem lift_apply {s : Space} (A : s.Wf → s.Wf) (hA : Lin A) (v : G s) :
    lift A hA v = WithLp.toLp 2 (A v.ofLp) := rfl

theorem inner_eq {s : Space} (φ ψ : s.Wf) : inner ℂ (WithLp.toLp 2 φ : G s) (WithLp.toLp 2 ψ) = ip s φ ψ := by
  rw [PiLp.inner_apply]
  unfold ip
  refine Finset.sum_congr rfl (fun x _ => ?_)
  simp [mul_comm]

theorem normOf_eq {s : Space} (h : s.Ok) (ψ : s.Wf) :
    normOf s ψ = Real.sqrt (∏ i, spacing s i) * ‖(WithLp.toLp 2 ψ : G s)‖ := by
  unfold normOf
  rw [scal_eq, ← inner_eq, inner_self_eq_norm_sq_to_K]
  have : (((∏ i, spacing s i : ℝ) : ℂ) * ((‖(WithLp.toLp 2 ψ : G s)‖ : ℝ) : ℂ) ^ 2).re =
      (∏ i, spacing s i) * ‖(WithLp.toLp 2 ψ : G s)‖ ^ 2 := by
    rw [← Complex.ofReal_pow, ← Complex.ofReal_mul, Complex.ofReal_re]
  refine (congrArg Real.sqrt this).trans ?_
  rw [Real.sqrt_mul (vol_pos h).le, Real.sqrt_sq (norm_nonneg _)]

theorem wave_orth {s : Space} (h : s.Ok) (q p : s.Pt) (hqp : q ≠ p) : ip s (wave s q) (wave s p) = 0 := by
  rw [wave_eq h p, ip_smul_right, ip_E, wave_eq h q]
  have hf : forward s (phase s q • E s q) = phase s q • forward s (E s q) := by
    have := lin_forward s (phase s q) (E s q) 0
    have h0 : forward s 0 = 0 := by simpa using lin_forward s (-1) 0 0
    rwa [add_zero, h0, add_zero] at this
  rw [hf]
  simp [forward_E, hqp, hqp.symm]

/-- The plane waves as an orthonormal basis. -/
theorem wave_basis {s : Space} (h : s.Ok) : ∃ b : OrthonormalBasis s.Pt ℂ (G s),
    ∀ q, ∃ z : ℂ, b q = z • (WithLp.toLp 2 (wave s q) : G s) := by
  have hs : (0 : ℝ) < s.size := by exact_mod_cast size_pos h
  have hsq : ((Real.sqrt s.size : ℝ) : ℂ) ^ 2 = (s.size : ℂ) := by
    rw [← Complex.ofReal_pow, Real.sq_sqrt hs.le, Complex.ofReal_natCast]
  have hne : ((Real.sqrt s.size : ℝ) : ℂ) ≠ 0 := by
    exact_mod_cast (Real.sqrt_pos.2 hs).ne'
  have ho : Orthonormal ℂ (fun q : s.Pt => ((Real.sqrt s.size : ℝ) : ℂ)⁻¹ • (WithLp.toLp 2 (wave s q) : G s)) := by
    classical
    rw [orthonormal_iff_ite]
    intro q p
    rw [inner_smul_left, inner_smul_right, inner_eq]
    split_ifs with hqp
    · subst hqp
      rw [ip_wave, map_inv₀, Complex.conj_ofReal, ← hsq]
      field_simp
    · rw [wave_orth h q p hqp, mul_zero, mul_zero]
  have hcard : Fintype.card s.Pt = Module.finrank ℂ (G s) := by rw [finrank_euclideanSpace]
  have q0 : s.Pt := fun i => ⟨0, by have := (h i).1; omega⟩
  have : Nonempty s.Pt := ⟨q0⟩
  have hb : ⇑(basisOfOrthonormalOfCardEqFinrank ho hcard) = _ := coe_basisOfOrthonormalOfCardEqFinrank ho hcard
  refine ⟨(basisOfOrthonormalOfCardEqFinrank ho hcard).toOrthonormalBasis (by rw [hb]; exact ho),
    fun q => ⟨((Real.sqrt s.size : ℝ) : ℂ)⁻¹, ?_⟩⟩
  rw [Module.Basis.coe_toOrthonormalBasis, hb]

theorem lin_smul {s : Space} {A : s.Wf → s.Wf} (hA : Lin A) (c : ℂ) (ψ : s.Wf) : A (c • ψ) = c • A ψ := by
  have h0 : A 0 = 0 := by simpa using hA (-1) 0 0
  have := hA c ψ 0
  rwa [add_zero, h0, add_zero] at this

/-- An eigenfunction. -/
theorem lift_eigen {s : Space} {A : s.Wf → s.Wf} (hA : Lin A) (ψ : s.Wf) (m z : ℂ) (h : A ψ = m • ψ) (u : G s)
    (hu : u = z • (WithLp.toLp 2 ψ : G s)) : lift A hA u = m • u := by
  have e : u.ofLp = z • ψ := by rw [hu, WithLp.ofLp_smul]
  rw [lift_apply, e, lin_smul hA, h, smul_comm, hu]
  rfl

theorem lin_pot {s : Space} (m : s.Pt → ℂ) : Lin (fun (ψ : s.Wf) (x : s.Pt) => m x * ψ x) := by
  intro c φ ψ
  funext x
  simp only [Pi.add_apply, Pi.smul_apply, smul_eq_mul]
  ring

theorem lift_single {s : Space} [DecidableEq s.Pt] (m : s.Pt → ℂ) (x : s.Pt) :
    lift (fun (ψ : s.Wf) (y : s.Pt) => m y * ψ y) (lin_pot m) (EuclideanSpace.basisFun s.Pt ℂ x) =
      m x • (EuclideanSpace.basisFun s.Pt ℂ x : G s) := by
  rw [lift_apply]
  ext y
  simp only [EuclideanSpace.basisFun_apply, PiLp.smul_apply, smul_eq_mul, PiLp.single_apply]
  by_cases hy : y = x
  · subst hy; simp
  · simp [hy]

/-- The exponential of the potential energy. -/
theorem expo_pot {s : Space} (v : s.Pt → ℝ) (dt b : ℝ) (hb : 0 ≤ b) (hv : ∀ x, |v x| ≤ b) :
    Expo (lift (fun (ψ : s.Wf) (x : s.Pt) => (-Complex.I * dt / 2 * (v x : ℂ)) * ψ x) (lin_pot _))
      (lift (fun (ψ : s.Wf) (x : s.Pt) => Complex.exp (-Complex.I * dt / 2 * (v x : ℂ)) * ψ x) (lin_pot _))
      (|dt| * b / 2) := by
  classical
  have e : ∀ x, -Complex.I * dt / 2 * (v x : ℂ) = Complex.I * ((-(dt / 2 * v x) : ℝ) : ℂ) := fun x => by
    push_cast; ring
  refine expo_of_basis (EuclideanSpace.basisFun s.Pt ℂ) _ _ (fun x => -(dt / 2 * v x)) _ (by positivity) (fun x => ?_)
    (fun x => ?_) (fun x => ?_)
  · rw [abs_neg, abs_mul, abs_div, abs_two]
    have := mul_le_mul_of_nonneg_left (hv x) (abs_nonneg dt)
    linarith
  · rw [lift_single, ← e]
  · rw [lift_single, ← e]

/-- The exponential of the kinetic energy. -/
theorem expo_kin {s : Space} (h : s.Ok) {mass : Fin s.d → ℝ} {T K : s.Wf → s.Wf} (hT : IsKinetic s mass T) (dt a : ℝ)
    (hK : IsKinExp s mass (-Complex.I * dt) K) (ha0 : 0 ≤ a)
    (ha : ∀ q, |∑ i, wavenum s q i ^ 2 / (2 * mass i)| ≤ a) :
    Expo ((-Complex.I * (dt : ℂ)) • lift T hT.1) (lift K hK.1) (|dt| * a) := by
  obtain ⟨b, hb⟩ := wave_basis h
  have e : ∀ l : ℝ, -Complex.I * dt * (l : ℂ) = Complex.I * ((-(dt * l) : ℝ) : ℂ) := fun x => by
    push_cast; ring
  refine expo_of_basis b _ _ (fun q => -(dt * ∑ i, wavenum s q i ^ 2 / (2 * mass i))) _ (by positivity) (fun q => ?_)
    (fun q => ?_) (fun q => ?_)
  · rw [abs_neg, abs_mul]
    exact mul_le_mul_of_nonneg_left (ha q) (abs_nonneg dt)
  · obtain ⟨z, hz⟩ := hb q
    rw [LinearMap.smul_apply, lift_eigen hT.1 _ _ z (hT.2 q) _ hz, smul_smul, ← e]
  · obtain ⟨z, hz⟩ := hb q
    rw [lift_eigen hK.1 _ _ z (hK.2 q) _ hz, ← e]

theorem hermitian_kin {s : Space} (h : s.Ok) {mass : Fin s.d → ℝ} {T : s.Wf → s.Wf} (hT : IsKinetic s mass T) :
    Hermitian (lift T hT.1) := by
  intro u v
  have hE : ∀ q, T (E s q) = ((∑ i, wavenum s q i ^ 2 / (2 * mass i) : ℝ) : ℂ) • E s q := by
    intro q
    have h1 := hT.2 q
    rw [wave_eq h, lin_smul hT.1, smul_comm] at h1
    exact smul_right_injective _ (phase_ne s q) h1
  have := diag_symm h hT.1 (fun q => ∑ i, wavenum s q i ^ 2 / (2 * mass i)) hE u.ofLp v.ofLp
  rw [← inner_eq, ← inner_eq] at this
  exact this.symm

theorem hermitian_pot {s : Space} (v : s.Pt → ℝ) :
    Hermitian (lift (fun (ψ : s.Wf) (x : s.Pt) => (v x : ℂ) * ψ x) (lin_pot _)) := by
  intro a b
  rw [lift_apply, lift_apply]
  show inner ℂ (WithLp.toLp 2 _ : G s) (WithLp.toLp 2 b.ofLp) = inner ℂ (WithLp.toLp 2 a.ofLp : G s) (WithLp.toLp 2 _)
  rw [inner_eq, inner_eq]
  unfold ip
  refine Finset.sum_congr rfl (fun x _ => ?_)
  simp only [map_mul, Complex.conj_ofReal]
  ring

/-- The Hamiltonian. -/
noncomputable def ham {s : Space} {T : s.Wf → s.Wf} (hT : Lin T) (v : s.Pt → ℝ) : G s →ₗ[ℂ] G s :=
  lift T hT + lift (fun (ψ : s.Wf) (x : s.Pt) => (v x : ℂ) * ψ x) (lin_pot _)

theorem ham_hermitian {s : Space} (h : s.Ok) {mass : Fin s.d → ℝ} {T : s.Wf → s.Wf} (hT : IsKinetic s mass T)
    (v : s.Pt → ℝ) : Hermitian (ham hT.1 v) := by
  intro a b
  unfold ham
  rw [LinearMap.add_apply, LinearMap.add_apply, inner_add_left, inner_add_right, hermitian_kin h hT, hermitian_pot v]

theorem ham_norm {s : Space} (h : s.Ok) {mass : Fin s.d → ℝ} {T : s.Wf → s.Wf} (hT : IsKinetic s mass T)
    (v : s.Pt → ℝ) (a b : ℝ) (ha0 : 0 ≤ a) (hb0 : 0 ≤ b)
    (ha : ∀ q, |∑ i, wavenum s q i ^ 2 / (2 * mass i)| ≤ a) (hb : ∀ x, |v x| ≤ b) (u : G s) :
    ‖ham hT.1 v u‖ ≤ (a + b) * ‖u‖ := by
  classical
  unfold ham
  rw [LinearMap.add_apply, add_mul]
  refine norm_add_le_of_le ?_ ?_
  · obtain ⟨B, hB⟩ := wave_basis h
    refine norm_le_of_coeff B _ _ _ ha0 (fun q => ?_)
    rw [diag_component B _ (fun q => ((∑ i, wavenum s q i ^ 2 / (2 * mass i) : ℝ) : ℂ)) (fun q => ?_), norm_mul,
      Complex.norm_real]
    · exact mul_le_mul_of_nonneg_right (ha q) (norm_nonneg _)
    · obtain ⟨z, hz⟩ := hB q
      exact lift_eigen hT.1 _ _ z (hT.2 q) _ hz
  · refine norm_le_of_coeff (EuclideanSpace.basisFun s.Pt ℂ) _ _ _ hb0 (fun x => ?_)
    rw [diag_component (EuclideanSpace.basisFun s.Pt ℂ) _ _ (lift_single _), norm_mul, Complex.norm_real]
    exact mul_le_mul_of_nonneg_right (hb x) (norm_nonneg _)

theorem solves_of {s : Space} {T : s.Wf → s.Wf} (hT : Lin T) (v : s.Pt → ℝ) (psi : ℝ → s.Wf) (hp : SolvesOn s T v psi) :
    Solves (ham hT v) (fun t => (WithLp.toLp 2 (psi t) : G s)) := by
  intro t
  have h1 : HasDerivAt psi (fun x => -Complex.I * (T (psi t) x + v x * psi t x)) t := hasDerivAt_pi.2 (hp t)
  have h2 := ((PiLp.continuousLinearEquiv 2 ℝ (fun _ : s.Pt => ℂ)).symm.toContinuousLinearMap.hasFDerivAt.comp_hasDerivAt t h1)
  refine HasDerivAt.congr_deriv h2 ?_
  ext x
  simp [ham, lift_apply]
  ring

/-- One symmetric product of exponentials and the solution. -/
theorem split_error {s : Space} (h : s.Ok) {mass : Fin s.d → ℝ} {T K : s.Wf → s.Wf} (hT : IsKinetic s mass T)
    (dt a b : ℝ) (hK : IsKinExp s mass (-Complex.I * dt) K) (ha0 : 0 ≤ a) (hb0 : 0 ≤ b)
    (ha : ∀ q, |∑ i, wavenum s q i ^ 2 / (2 * mass i)| ≤ a) (v : s.Pt → ℝ) (hb : ∀ x, |v x| ≤ b)
    (psi : ℝ → G s) (hp : Solves (ham hT.1 v) psi) (t : ℝ) :
    ‖(WithLp.toLp 2 (strang K (-Complex.I * dt) v (psi t).ofLp) : G s) - psi (t + dt)‖ ≤
      (|dt| * (a + b)) ^ 3 / 3 * ‖psi t‖ := by
  have h1 := strang_error (expo_pot v dt b hb0 hb) (expo_kin h hT dt a hK ha0 ha) (psi t)
  have h2 := solution_second (ham hT.1 v) (ham_hermitian h hT v) (a + b) (by positivity)
    (ham_norm h hT v a b ha0 hb0 ha hb) dt psi hp t
  have hY : ∀ u : G s, ((-Complex.I * (dt : ℂ)) • lift T hT.1) u + (2 : ℂ) •
      lift (fun (ψ : s.Wf) (x : s.Pt) => (-Complex.I * dt / 2 * (v x : ℂ)) * ψ x) (lin_pot _) u =
      (-Complex.I * (dt : ℂ)) • ham hT.1 v u := by
    intro u
    ext x
    simp [ham, lift_apply]
    ring
  rw [hY, hY] at h1
  have e : (WithLp.toLp 2 (strang K (-Complex.I * dt) v (psi t).ofLp) : G s) =
      lift (fun (ψ : s.Wf) (x : s.Pt) => Complex.exp (-Complex.I * dt / 2 * (v x : ℂ)) * ψ x) (lin_pot _)
        (lift K hK.1 (lift (fun (ψ : s.Wf) (x : s.Pt) => Complex.exp (-Complex.I * dt / 2 * (v x : ℂ)) * ψ x) (lin_pot _)
          (psi t))) := rfl
  rw [← e] at h1
  have h3 := norm_sub_le_norm_sub_add_norm_sub
    (WithLp.toLp 2 (strang K (-Complex.I * dt) v (psi t).ofLp) : G s)
    (psi t + (-Complex.I * dt) • ham hT.1 v (psi t) +
      (1 / 2 : ℂ) • (-Complex.I * dt) • ham hT.1 v ((-Complex.I * dt) • ham hT.1 v (psi t))) (psi (t + dt))
  rw [norm_sub_rev (psi (t + dt))] at h2
  refine (h3.trans (add_le_add h1 h2)).trans (le_of_eq ?_)
  ring

end QDng.Accur
