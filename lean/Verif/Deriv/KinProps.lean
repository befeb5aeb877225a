import Verif.Deriv.KinLemmas
import Mathlib.Tactic.FinCases

/-
Properties C131-C135 of the kinetic energy operator.
-/

namespace QDng.Deriv

open QDng.Grid

/-- Two dimensions with four points each and unit spacing. -/
abbrev square : Space := { d := 2, axes := fun _ => { n := 4, xmin := 0, xmax := 3 } }

theorem square_ok : square.Ok := by
  intro i
  refine ⟨?_, ?_⟩
  · show 2 ≤ 4
    omega
  · show (0 : ℝ) < 3
    norm_num

theorem square_spacing (i : Fin square.d) : spacing square i = 1 := by
  show ((3 : ℝ) - 0) / (((4 : Nat) : ℝ) - 1) = 1
  norm_num

/-! ### C131 -/

/-- **C131.**  The kinetic energy operator is the one linear map that multiplies each plane wave of
the grid with the sum of `k_i^2 / (2 m_i)` over the dimensions. -/
theorem C131_kinetic {s : Space} (h : s.Ok) (mass : Fin s.d → ℝ) (o : KinOp s)
    (hc : KinOp.create s mass = .ok o) :
    ∃ T : s.Wf → s.Wf,
      (∀ ψ, o.init.apply ψ = some (T ψ)) ∧
      (∀ (c : ℂ) φ ψ, T (c • φ + ψ) = c • T φ + T ψ) ∧
      (∀ q, T (wave s q) = ((∑ i, wavenum s q i ^ 2 / (2 * mass i) : ℝ) : ℂ) • wave s q) ∧
      (∀ T' : s.Wf → s.Wf, (∀ (c : ℂ) φ ψ, T' (c • φ + ψ) = c • T' φ + T' ψ) →
        (∀ q, T' (wave s q) = ((∑ i, wavenum s q i ^ 2 / (2 * mass i) : ℝ) : ℂ) • wave s q) →
        T' = T) := by
  have hw : ∀ q, kin s (kinE s mass) (wave s q) = (kinE s mass q : ℂ) • wave s q := fun q =>
    (scale_wave h (lin_kin s _) q _).2 (kin_E h _ q)
  refine ⟨kin s (kinE s mass), init_apply h hc, lin_kin s _, hw, ?_⟩
  intro T' h1 h2
  exact Lin.ext_wave h h1 (lin_kin s _) (fun q => by rw [hw, h2]; rfl)

/-- **C131.**  The plane waves of the grid span all wave functions. -/
theorem C131_span {s : Space} (h : s.Ok) (ψ : s.Wf) :
    ∃ c : s.Pt → ℂ, ψ = ∑ q, c q • wave s q := span h ψ

theorem square_create (m : Fin square.d → ℝ) (h : ∀ i, m i ≠ 0) (h2 : ∃ i, 0 < m i) :
    ∃ o, KinOp.create square m = .ok o := by
  unfold KinOp.create initMass
  rw [if_neg (show ¬ square.d < 1 by show ¬ (2 < 1); omega), if_neg (by push Not; exact h),
    if_neg (not_not.2 h2)]
  exact ⟨_, rfl⟩

/-- The hypotheses hold for a grid of two dimensions and different masses. -/
example : square.Ok ∧ ∃ o, KinOp.create square (fun i => (i : ℝ) + 1) = .ok o :=
  ⟨square_ok, square_create _ (fun i => by positivity) ⟨⟨0, by show 0 < 2; omega⟩, by positivity⟩⟩

/-! ### C132 -/

/-- **C132.**  The kinetic energy operator is Hermitian. -/
theorem C132_hermitian {s : Space} (h : s.Ok) (mass : Fin s.d → ℝ) (o : KinOp s)
    (hc : KinOp.create s mass = .ok o) (φ ψ Tφ Tψ : s.Wf)
    (h1 : o.init.apply φ = some Tφ) (h2 : o.init.apply ψ = some Tψ) :
    scal s φ Tψ = scal s Tφ ψ := by
  rw [init_apply h hc, Option.some.injEq] at h1 h2
  subst h1 h2
  rw [scal_eq, scal_eq, diag_symm h (lin_kin s _) (kinE s mass) (kin_E h _)]

/-- **C132.**  For positive masses the kinetic energy of each wave function is a real number between
`Emin` and `Emax` times the norm. -/
theorem C132_bounds {s : Space} (h : s.Ok) (mass : Fin s.d → ℝ) (hm : ∀ i, 0 < mass i) (o : KinOp s)
    (hc : KinOp.create s mass = .ok o) (ψ Tψ : s.Wf) (h1 : o.init.apply ψ = some Tψ) :
    ∃ t n : ℝ, scal s ψ Tψ = (t : ℂ) ∧ scal s ψ ψ = (n : ℂ) ∧
      o.init.emin * n ≤ t ∧ t ≤ o.init.emax * n := by
  rw [init_apply h hc, Option.some.injEq] at h1
  subst h1
  have hv := vol_pos h
  have hs : (0 : ℝ) < s.size := by exact_mod_cast size_pos h
  have hmass : o.init.mass = mass := by
    unfold KinOp.init
    split
    · exact (create_ok hc).1
    · exact (create_ok hc).1
  refine ⟨(∏ i, spacing s i) * ((∑ q, kinE s mass q * ‖forward s ψ q‖ ^ 2) / (s.size : ℝ)),
    (∏ i, spacing s i) * ((∑ q, ‖forward s ψ q‖ ^ 2) / (s.size : ℝ)), ?_, ?_, ?_, ?_⟩
  · rw [scal_eq, diag_expec h (lin_kin s _) (kinE s mass) (kin_E h _), Complex.ofReal_mul]
  · rw [scal_eq, norm_expec h, Complex.ofReal_mul]
  · show 0 * _ ≤ _
    rw [zero_mul]
    have : 0 ≤ ∑ q, kinE s mass q * ‖forward s ψ q‖ ^ 2 :=
      Finset.sum_nonneg (fun q _ => mul_nonneg (kinE_nonneg hm q) (by positivity))
    positivity
  · rw [emax_eq hm hmass, mul_left_comm]
    apply mul_le_mul_of_nonneg_left _ hv.le
    rw [← mul_div_assoc]
    apply div_le_div_of_nonneg_right _ hs.le
    rw [Finset.mul_sum]
    exact Finset.sum_le_sum (fun q _ =>
      mul_le_mul_of_nonneg_right (kinE_le h hm q) (by positivity))

/-- **C132.**  `Emax` is the kinetic energy of the fastest plane wave if the number of points of each
dimension is even: the bound is attained. -/
theorem C132_sharp {s : Space} (h : s.Ok) (mass : Fin s.d → ℝ) (hm : ∀ i, 0 < mass i) (o : KinOp s)
    (hc : KinOp.create s mass = .ok o) (he : ∀ i, Even (s.axes i).n) :
    ∃ ψ : s.Wf, ψ ≠ 0 ∧ o.init.apply ψ = some ((o.init.emax : ℂ) • ψ) := by
  have hlt : ∀ i, (s.axes i).n / 2 < (s.axes i).n := fun i => by have := (h i).1; omega
  refine ⟨wave s (fun i => ⟨(s.axes i).n / 2, hlt i⟩), ?_, ?_⟩
  · intro h0
    have := scal_wave_pos h (fun i => ⟨(s.axes i).n / 2, hlt i⟩)
    rw [h0] at this
    simp [scal] at this
  · have hmass : o.init.mass = mass := by
      unfold KinOp.init
      split
      · exact (create_ok hc).1
      · exact (create_ok hc).1
    rw [init_apply h hc, (scale_wave h (lin_kin s _) _ _).2 (kin_E h _ _), emax_eq hm hmass]
    congr 3
    unfold kinE
    rw [Finset.sum_mul]
    refine Finset.sum_congr rfl (fun i _ => ?_)
    have hs := spacing_pos h i
    have hmi := hm i
    obtain ⟨k, hk⟩ := he i
    have hk2 : (s.axes i).n / 2 = k := by omega
    have hn : ((s.axes i).n : ℝ) = 2 * k := by rw [hk]; push_cast; ring
    have hk0 : (k : ℝ) ≠ 0 := by
      have : 0 < k := by have := (h i).1; omega
      positivity
    have hw : wavenum s (fun i => ⟨(s.axes i).n / 2, hlt i⟩) i = -(Real.pi / spacing s i) := by
      unfold wavenum freq
      simp only
      rw [if_neg (by omega), hk2, hn]
      push_cast
      rw [hn]
      field_simp
      ring
    rw [hw]
    field_simp

/-- **C132.**  The claim is wrong for negative masses, which are accepted besides a positive one: then
there is a wave function with an energy below `Emin`. -/
theorem C132_negative_violated :
    ∃ (s : Space) (mass : Fin s.d → ℝ) (o : KinOp s), s.Ok ∧ KinOp.create s mass = .ok o ∧
      ∃ ψ Tψ : s.Wf, o.init.apply ψ = some Tψ ∧
        (scal s ψ Tψ).re < o.init.emin * (scal s ψ ψ).re := by
  obtain ⟨o, ho⟩ := square_create (fun i => if (i : Nat) = 0 then 1 else -1)
    (fun i => by split <;> norm_num) ⟨⟨0, by show 0 < 2; omega⟩, by simp⟩
  have hq : ∀ i : Fin square.d, (i : Nat) < (square.axes i).n := fun i => by
    show (i : Nat) < 4
    have := i.2
    have : (i : Nat) < 2 := this
    omega
  refine ⟨square, _, o, square_ok, ho, wave square (fun i => ⟨i, hq i⟩), _,
    init_apply square_ok ho _, ?_⟩
  rw [(scale_wave square_ok (lin_kin _ _) _ _).2 (kin_E square_ok _ _)]
  have hE : kinE square (fun i => if (i : Nat) = 0 then 1 else -1) (fun i => ⟨i, hq i⟩) < 0 := by
    unfold kinE
    rw [show (∑ i : Fin square.d, wavenum square (fun i => ⟨i, hq i⟩) i ^ 2 /
      (2 * (if (i : Nat) = 0 then 1 else -1))) =
      ∑ i : Fin 2, wavenum square (fun i => ⟨i, hq i⟩) i ^ 2 /
      (2 * (if (i : Nat) = 0 then 1 else -1)) from rfl, Fin.sum_univ_two]
    have h0 : wavenum square (fun i => ⟨i, hq i⟩) (0 : Fin 2) = 0 := by
      unfold wavenum freq
      rw [if_pos (by show 2 * 0 < 4; omega)]
      show (((0 : Nat) : ℤ) : ℝ) * _ = 0
      simp
    have h1 : wavenum square (fun i => ⟨i, hq i⟩) (1 : Fin 2) = Real.pi / 2 := by
      unfold wavenum freq
      rw [if_pos (by show 2 * 1 < 4; omega), square_spacing]
      show (((1 : Nat) : ℤ) : ℝ) * (2 * Real.pi / (((4 : Nat) : ℝ) * 1)) = _
      push_cast
      ring
    rw [h0, h1, if_pos (show ((0 : Fin 2) : Nat) = 0 from rfl),
      if_neg (show ¬ ((1 : Fin 2) : Nat) = 0 by show ¬ (1 = 0); omega)]
    have := Real.pi_pos
    have h2 : 0 < (Real.pi / 2) ^ 2 := by positivity
    rw [show (0 : ℝ) ^ 2 / (2 * 1) + (Real.pi / 2) ^ 2 / (2 * -1) = -((Real.pi / 2) ^ 2 / 2) by ring]
    linarith
  rw [scal_eq, ip_smul_right, mul_left_comm, ← scal_eq, Complex.re_ofReal_mul]
  show _ < 0 * _
  rw [zero_mul]
  exact mul_neg_of_neg_of_pos hE (scal_wave_pos square_ok _)

/-! ### C133 -/

/-- **C133.**  The Handbook says that a mass of zero leaves the dimension out.  Instead each such
input is rejected. -/
theorem C133_zero_mass_violated (s : Space) (hd : 1 ≤ s.d) (mass : Fin s.d → ℝ) (i : Fin s.d)
    (hz : mass i = 0) : KinOp.create s mass = .error .zeroMass := by
  unfold KinOp.create initMass
  rw [if_neg (by omega), if_pos ⟨i, hz⟩]

/-- **C133.**  Which masses are accepted: at least one, none zero and one positive. -/
theorem C133_accept_partial (s : Space) (mass : Fin s.d → ℝ) :
    (∃ o, KinOp.create s mass = .ok o) ↔
      1 ≤ s.d ∧ (∀ i, mass i ≠ 0) ∧ ∃ i, 0 < mass i := by
  unfold KinOp.create initMass
  by_cases h1 : s.d < 1
  · rw [if_pos h1]
    constructor
    · rintro ⟨o, ho⟩
      exact absurd ho (by simp)
    · rintro ⟨h2, _⟩
      omega
  · rw [if_neg h1]
    by_cases h2 : ∃ i, mass i = 0
    · rw [if_pos h2]
      constructor
      · rintro ⟨o, ho⟩
        exact absurd ho (by simp)
      · rintro ⟨_, h3, _⟩
        obtain ⟨i, hi⟩ := h2
        exact absurd hi (h3 i)
    · rw [if_neg h2]
      by_cases h3 : ∃ i, mass i > 0
      · rw [if_neg (not_not.2 h3)]
        exact ⟨fun _ => ⟨by omega, fun i hi => h2 ⟨i, hi⟩, h3⟩, fun _ => ⟨_, rfl⟩⟩
      · rw [if_pos h3]
        constructor
        · rintro ⟨o, ho⟩
          exact absurd ho (by simp)
        · rintro ⟨_, _, h4⟩
          exact absurd h4 h3

example : KinOp.create square (fun i => if (i : Nat) = 0 then 1 else 0) = .error .zeroMass :=
  C133_zero_mass_violated square (by show 1 ≤ 2; omega) _ ⟨1, by show 1 < 2; omega⟩ (by simp)

/-! ### C134 -/

/-- **C134.**  A copy of an operator that is in use reads an empty vector, with or without a new
initialisation. -/
theorem C134_copy_violated {s : Space} (mass : Fin s.d → ℝ) (o : KinOp s)
    (hc : KinOp.create s mass = .ok o) (ψ : s.Wf) :
    o.init.copy.apply ψ = none ∧ o.init.copy.init.apply ψ = none := by
  obtain ⟨_, _, _, h4, _⟩ := create_ok hc
  refine ⟨rfl, ?_⟩
  have h5 : ∃ k, o.init.dspace = some k := by
    unfold KinOp.init
    rw [h4]
    exact ⟨_, rfl⟩
  obtain ⟨k, hk⟩ := h5
  have h6 : o.init.copy.init = o.init.copy := by
    show (match o.init.copy.dspace with | some _ => o.init.copy | none => _) = _
    rw [show o.init.copy.dspace = some k from hk]
  rw [h6]
  rfl

/-- **C134.**  A copy of an operator that was not in use yet gives minus the sum of the squared wave
numbers: the masses and the sign of the kinetic energy are lost. -/
theorem C134_early_copy_violated {s : Space} (h : s.Ok) (mass : Fin s.d → ℝ) (o : KinOp s)
    (hc : KinOp.create s mass = .ok o) (q : s.Pt) :
    o.copy.init.apply (wave s q) = some (((-∑ i, wavenum s q i ^ 2 : ℝ) : ℂ) • wave s q) := by
  obtain ⟨_, _, _, h4, _⟩ := create_ok hc
  have h6 : o.copy.init.apply (wave s q) = some (kin s (collective s (fun _ => 1)) (wave s q)) := by
    show KinOp.apply (match o.copy.dspace with | some _ => o.copy | none => _) _ = _
    rw [show o.copy.dspace = none from h4]
    rfl
  rw [h6, (scale_wave h (lin_kin s _) q _).2 (kin_E h _ q)]
  congr 3
  unfold collective
  rw [← Finset.sum_neg_distrib]
  refine Finset.sum_congr rfl (fun i _ => ?_)
  rw [d2dx2_eq h, mul_one]

/-- **C134.**  What a copy keeps: the energy bounds and, for an operator in use, the exponential. -/
theorem C134_copy_partial {s : Space} (mass : Fin s.d → ℝ) (o : KinOp s)
    (hc : KinOp.create s mass = .ok o) (c : ℂ) (ψ : s.Wf) :
    o.init.copy.emax = o.init.emax ∧ o.init.copy.emin = o.init.emin ∧
      o.init.copy.expo c ψ = o.init.expo c ψ := by
  refine ⟨rfl, rfl, ?_⟩
  obtain ⟨_, _, _, h4, _⟩ := create_ok hc
  have h5 : ∃ k, o.init.dspace = some k := by
    unfold KinOp.init
    rw [h4]
    exact ⟨_, rfl⟩
  obtain ⟨k, hk⟩ := h5
  have h6 : ∀ a : KinOp s, a.dspace = some k → a.init.dspace = some k := by
    intro a ha
    unfold KinOp.init
    rw [ha]
    exact ha
  unfold KinOp.expo
  rw [h6 _ hk, h6 o.init.copy hk]

/-! ### C135 -/

/-- **C135.**  The exponential of the kinetic energy operator, as used by the split operator
propagator, multiplies each plane wave with the exponential of its kinetic energy. -/
theorem C135_exponential {s : Space} (h : s.Ok) (mass : Fin s.d → ℝ) (o : KinOp s)
    (hc : KinOp.create s mass = .ok o) (c : ℂ) :
    ∃ U : s.Wf → s.Wf,
      (∀ ψ, o.init.expo c ψ = some (U ψ)) ∧
      (∀ (a : ℂ) φ ψ, U (a • φ + ψ) = a • U φ + U ψ) ∧
      ∀ q, U (wave s q) =
        Complex.exp (c * ((∑ i, wavenum s q i ^ 2 / (2 * mass i) : ℝ) : ℂ)) • wave s q := by
  refine ⟨_, fun ψ => expo_eq h hc c ψ, lin_diag s _, fun q => ?_⟩
  refine (scale_wave h (lin_diag s _) q _).2 ?_
  rw [expo_E h, mul_comm c]
  rfl

/-- **C135.**  Applying the exponentials of `a` and `b` in turn is the exponential of `a + b`. -/
theorem C135_group {s : Space} (h : s.Ok) (mass : Fin s.d → ℝ) (o : KinOp s)
    (hc : KinOp.create s mass = .ok o) (a b : ℂ) (ψ : s.Wf) :
    (o.init.expo a ψ).bind (o.init.expo b) = o.init.expo (a + b) ψ := by
  simp only [expo_eq h hc, Option.bind_some]
  congr 1
  refine Lin.ext h ((lin_diag s _).comp (lin_diag s _)) (lin_diag s _) (fun q => ?_) ψ
  have hl := fun (m : s.Wf) (c : ℂ) (φ : s.Wf) =>
    (lin_diag s m).map_sum (Finset.univ : Finset Unit) (fun _ => c) (fun _ => φ)
  simp only [Finset.univ_unique, Finset.sum_singleton] at hl
  simp only [expo_E h]
  rw [hl, expo_E h, smul_smul, ← Complex.exp_add, ← mul_add]

/-- **C135.**  The exponential with an imaginary factor conserves all scalar products. -/
theorem C135_unitary {s : Space} (h : s.Ok) (mass : Fin s.d → ℝ) (o : KinOp s)
    (hc : KinOp.create s mass = .ok o) (t : ℝ) (φ ψ Uφ Uψ : s.Wf)
    (h1 : o.init.expo (-Complex.I * (t : ℂ)) φ = some Uφ)
    (h2 : o.init.expo (-Complex.I * (t : ℂ)) ψ = some Uψ) : scal s Uφ Uψ = scal s φ ψ := by
  rw [expo_eq h hc, Option.some.injEq] at h1 h2
  rw [scal_eq, scal_eq]
  congr 1
  have key : ∀ (m : s.Wf) (χ : s.Wf) (q : s.Pt),
      forward s (diag s (fun p => m p * ((1 / (s.size : ℝ) : ℝ) : ℂ)) χ) q = m q * forward s χ q := by
    intro m χ q
    have hA : Lin (fun χ => (fun p => forward s (diag s
        (fun p => m p * ((1 / (s.size : ℝ) : ℝ) : ℂ)) χ) p : s.Wf)) :=
      (lin_forward s).comp (lin_diag s _)
    have hB : Lin (fun χ => (fun p => forward s χ p * m p : s.Wf)) :=
      (lin_mul m).comp (lin_forward s)
    have := Lin.ext h hA hB (fun q' => by
      funext p
      have hl := (lin_forward s).map_sum (Finset.univ : Finset Unit) (fun _ => m q')
        (fun _ => E s q')
      simp only [Finset.univ_unique, Finset.sum_singleton] at hl
      simp only [expo_E h]
      rw [hl, Pi.smul_apply, smul_eq_mul, forward_E]
      by_cases hp : p = q'
      · rw [hp, mul_comm]
      · rw [if_neg hp, mul_zero, zero_mul]) χ
    have h3 := congrFun this q
    rw [h3, mul_comm]
  rw [parseval h, parseval h, ← h1, ← h2]
  congr 1
  refine Finset.sum_congr rfl (fun q _ => ?_)
  rw [key (fun p => Complex.exp ((kinE s mass p : ℂ) * (-Complex.I * (t : ℂ)))),
    key (fun p => Complex.exp ((kinE s mass p : ℂ) * (-Complex.I * (t : ℂ)))), map_mul,
    ← Complex.exp_conj]
  have h4 : Complex.exp ((starRingEnd ℂ) ((kinE s mass q : ℂ) * (-Complex.I * (t : ℂ)))) *
      Complex.exp ((kinE s mass q : ℂ) * (-Complex.I * (t : ℂ))) = 1 := by
    rw [← Complex.exp_add, map_mul, map_mul, Complex.conj_ofReal, Complex.conj_ofReal, map_neg,
      Complex.conj_I]
    rw [show (kinE s mass q : ℂ) * (- -Complex.I * (t : ℂ)) +
      (kinE s mass q : ℂ) * (-Complex.I * (t : ℂ)) = 0 by ring, Complex.exp_zero]
  linear_combination (starRingEnd ℂ) (forward s φ q) * forward s ψ q * h4

end QDng.Deriv
