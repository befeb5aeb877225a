import Verif.Deriv.Lemmas

namespace QDng.Deriv

open QDng.Grid

/-- The operator in terms of a diagonal. -/
theorem dnDxnAll_eq (s : Space) (k : s.Pt → ℝ) (ψ : s.Wf) (d : ℝ) :
    dnDxnAll s k ψ d = diag s (fun p => (k p : ℂ) * ((d / (s.size : ℝ) : ℝ) : ℂ)) ψ := by
  unfold dnDxnAll diag
  simp only [mul_assoc]

theorem dnDxnAll_E {s : Space} (h : s.Ok) (k : s.Pt → ℝ) (d : ℝ) (q : s.Pt) :
    dnDxnAll s k (E s q) d = ((d * k q : ℝ) : ℂ) • E s q := by
  have hn := size_ne h
  rw [dnDxnAll_eq, diag_E]
  congr 1
  push_cast
  field_simp

theorem lin_dnDxnAll (s : Space) (k : s.Pt → ℝ) (d : ℝ) : Lin (fun ψ => dnDxnAll s k ψ d) := by
  have := lin_diag s (fun p => (k p : ℂ) * ((d / (s.size : ℝ) : ℝ) : ℂ))
  intro c φ ψ
  simp only [dnDxnAll_eq]
  exact this c φ ψ

theorem create_ok {s : Space} {mass : Fin s.d → ℝ} {o : KinOp s} (h : KinOp.create s mass = .ok o) :
    o.mass = mass ∧ o.pfac = (fun i => -1 / 2 / mass i) ∧ o.kspace = none ∧ o.dspace = none ∧
      ∀ i, mass i ≠ 0 := by
  unfold KinOp.create initMass at h
  by_cases h1 : s.d < 1
  · simp [h1] at h
  · by_cases h2 : ∃ i, mass i = 0
    · simp [h1, h2] at h
    · by_cases h3 : ∃ i, mass i > 0
      · simp only [h1, h2, h3, not_true, if_false, Except.ok.injEq] at h
        subst h
        refine ⟨rfl, rfl, rfl, rfl, fun i hi => h2 ⟨i, hi⟩⟩
      · simp [h1, h2, h3] at h

/-- The kinetic energy of a plane wave. -/
noncomputable def kinE (s : Space) (mass : Fin s.d → ℝ) (q : s.Pt) : ℝ :=
  ∑ i, wavenum s q i ^ 2 / (2 * mass i)

theorem collective_eq {s : Space} (h : s.Ok) (mass : Fin s.d → ℝ) (q : s.Pt) :
    collective s (fun i => -1 / 2 / mass i) q = kinE s mass q := by
  unfold collective kinE
  refine Finset.sum_congr rfl (fun i _ => ?_)
  rw [d2dx2_eq h]
  show -wavenum s q i ^ 2 * (-1 / 2 / mass i) = _
  rw [div_div]
  ring

/-- The operator as a map. -/
noncomputable def kin (s : Space) (k : s.Pt → ℝ) (ψ : s.Wf) : s.Wf := dnDxnAll s k ψ 1

theorem kin_E {s : Space} (h : s.Ok) (k : s.Pt → ℝ) (q : s.Pt) :
    kin s k (E s q) = (k q : ℂ) • E s q := by
  unfold kin
  rw [dnDxnAll_E h, one_mul]

theorem lin_kin (s : Space) (k : s.Pt → ℝ) : Lin (kin s k) := lin_dnDxnAll s k 1

theorem init_apply {s : Space} (h : s.Ok) {mass : Fin s.d → ℝ} {o : KinOp s}
    (hc : KinOp.create s mass = .ok o) (ψ : s.Wf) :
    o.init.apply ψ = some (kin s (kinE s mass) ψ) := by
  obtain ⟨_, h2, h3, h4, _⟩ := create_ok hc
  unfold KinOp.init
  rw [h4]
  simp only [KinOp.apply]
  rw [h2]
  have : collective s (fun i => -1 / 2 / mass i) = kinE s mass := funext (collective_eq h mass)
  rw [this]
  rfl

theorem scal_eq (s : Space) (φ ψ : s.Wf) : scal s φ ψ = ((∏ i, spacing s i : ℝ) : ℂ) * ip s φ ψ := rfl

theorem vol_pos {s : Space} (h : s.Ok) : 0 < ∏ i, spacing s i :=
  Finset.prod_pos (fun i _ => spacing_pos h i)

theorem kinE_nonneg {s : Space} {mass : Fin s.d → ℝ} (hm : ∀ i, 0 < mass i) (q : s.Pt) :
    0 ≤ kinE s mass q :=
  Finset.sum_nonneg (fun i _ => by have := hm i; positivity)

theorem kinE_le {s : Space} (h : s.Ok) {mass : Fin s.d → ℝ} (hm : ∀ i, 0 < mass i) (q : s.Pt) :
    kinE s mass q ≤ (∑ i, 1 / (mass i * spacing s i * spacing s i)) * (Real.pi * Real.pi / 2) := by
  unfold kinE
  rw [Finset.sum_mul]
  refine Finset.sum_le_sum (fun i _ => ?_)
  have hs := spacing_pos h i
  have hmi := hm i
  have h1 := wavenum_le h q i
  have h2 : wavenum s q i ^ 2 ≤ (Real.pi / spacing s i) ^ 2 := by
    rw [← sq_abs (wavenum s q i)]
    exact pow_le_pow_left₀ (abs_nonneg _) h1 2
  calc wavenum s q i ^ 2 / (2 * mass i) ≤ (Real.pi / spacing s i) ^ 2 / (2 * mass i) := by
        apply div_le_div_of_nonneg_right h2
        positivity
    _ = 1 / (mass i * spacing s i * spacing s i) * (Real.pi * Real.pi / 2) := by
        field_simp

theorem emax_eq {s : Space} {mass : Fin s.d → ℝ} (hm : ∀ i, 0 < mass i) {o : KinOp s}
    (ho : o.mass = mass) :
    o.emax = (∑ i, 1 / (mass i * spacing s i * spacing s i)) * (Real.pi * Real.pi / 2) := by
  unfold KinOp.emax
  rw [ho]
  congr 1
  refine Finset.sum_congr rfl (fun i _ => ?_)
  rw [if_pos (hm i), dx_eq]

/-- The exponential in terms of a diagonal. -/
theorem expo_eq {s : Space} (h : s.Ok) {mass : Fin s.d → ℝ} {o : KinOp s}
    (hc : KinOp.create s mass = .ok o) (c : ℂ) (ψ : s.Wf) :
    o.init.expo c ψ = some (diag s (fun p => Complex.exp ((kinE s mass p : ℂ) * c) *
      ((1 / (s.size : ℝ) : ℝ) : ℂ)) ψ) := by
  obtain ⟨_, h2, h3, h4, _⟩ := create_ok hc
  have h5 : o.init.init = o.init := by
    unfold KinOp.init
    rw [h4]
  unfold KinOp.expo
  rw [h5]
  have h6 : o.init.dspace = some (kinE s mass) := by
    unfold KinOp.init
    rw [h4]
    simp only
    rw [h2]
    exact congrArg some (funext (collective_eq h mass))
  rw [h6]
  rfl

theorem expo_E {s : Space} (h : s.Ok) (m : s.Wf) (q : s.Pt) :
    diag s (fun p => m p * ((1 / (s.size : ℝ) : ℝ) : ℂ)) (E s q) = m q • E s q := by
  have hn := size_ne h
  rw [diag_E]
  congr 1
  push_cast
  field_simp

/-- Each wave function is a sum of plane waves. -/
theorem span {s : Space} (h : s.Ok) (ψ : s.Wf) : ∃ c : s.Pt → ℂ, ψ = ∑ q, c q • wave s q := by
  refine ⟨fun q => forward s ψ q / (s.size : ℂ) / phase s q, ?_⟩
  conv_lhs => rw [expand h ψ]
  refine Finset.sum_congr rfl (fun q _ => ?_)
  rw [wave_eq h, smul_smul, div_mul_cancel₀ _ (phase_ne s q)]

theorem Lin.ext_wave {s : Space} (h : s.Ok) {A B : s.Wf → s.Wf} (hA : Lin A) (hB : Lin B)
    (he : ∀ q, A (wave s q) = B (wave s q)) : A = B := by
  funext ψ
  obtain ⟨c, hc⟩ := span h ψ
  rw [hc, hA.map_sum, hB.map_sum]
  simp only [he]

theorem ip_wave {s : Space} (q : s.Pt) : ip s (wave s q) (wave s q) = (s.size : ℂ) := by
  unfold ip
  have h1 : ∀ x : s.Pt, (starRingEnd ℂ) (wave s q x) * wave s q x = 1 := by
    intro x
    unfold wave planeWave
    rw [← Complex.exp_conj, ← Complex.exp_add, map_mul, Complex.conj_I, Complex.conj_ofReal]
    rw [neg_mul, neg_add_cancel, Complex.exp_zero]
  simp only [h1]
  rw [Finset.sum_const, nsmul_eq_mul, mul_one]
  congr 1
  rw [Finset.card_univ, Fintype.card_pi]
  simp [Space.size]

theorem scal_wave_pos {s : Space} (h : s.Ok) (q : s.Pt) : 0 < (scal s (wave s q) (wave s q)).re := by
  rw [scal_eq, ip_wave, ← Complex.ofReal_natCast, ← Complex.ofReal_mul, Complex.ofReal_re]
  have h1 := vol_pos h
  have h2 : (0 : ℝ) < s.size := by exact_mod_cast size_pos h
  positivity

end QDng.Deriv
