import Verif.Absorb.Lemmas
import Mathlib.Analysis.Real.Pi.Bounds
import Mathlib.Analysis.SpecialFunctions.Trigonometric.Bounds

/-
Properties C202 to C208: the absorbing layer and the kinetic energy with absorbing layers.
-/

namespace QDng.Absorb

open QDng.Grid QDng.Deriv

/-! ### C202: the layer damps -/

/-- **C202.**  For an even order, an angle of at most a quarter turn (`|gamma| ≤ 1/2`) and a strength
that is not negative, all factors of the layer are numbers, none amplifies, and a point nearer to the
border is damped at least as much as one further inside. -/
theorem C202_damping_partial (c : Par) (hs : 0 ≤ c.smax) (hp : Even c.p) (hp0 : 0 ≤ c.p)
    (hg : |c.gamma| ≤ 1 / 2) :
    ∃ f : ℕ → ℂ, (∀ i, i < c.thick → c.f1 i = some (f i) ∧ f i ≠ 0 ∧ ‖f i‖ ≤ 1) ∧
      ∀ i j, i ≤ j → j < c.thick → ‖f i‖ ≤ ‖f j‖ := by
  have hd : ∀ i, i < c.thick → c.den i ≠ 0 := by
    intro i hi h0
    have := one_le_den hs hp hg hi
    rw [h0, norm_zero] at this
    linarith
  refine ⟨fun i => 1 / c.den i, fun i hi => ⟨?_, ?_, ?_⟩, fun i j hij hj => ?_⟩
  · unfold Par.f1
    rw [if_neg (hd i hi)]
  · exact one_div_ne_zero (hd i hi)
  · rw [norm_div, norm_one]
    have := one_le_den hs hp hg hi
    exact div_le_one_of_le₀ this (norm_nonneg _)
  · rw [norm_div, norm_div, norm_one]
    have h1 := one_le_den hs hp hg hj
    refine one_div_le_one_div_of_le (by linarith) ?_
    have hm := strength_mono hs hp0 hij hj
    have hn := strength_nonneg hs hj
    have hc := cos_gamma hg
    refine le_of_sq_le_sq ?_ (norm_nonneg _)
    rw [den_norm hp, den_norm hp]
    have := mul_le_mul_of_nonneg_left hm hc
    nlinarith

/-- **C202.**  The default parameters meet the conditions. -/
theorem C202_default_partial : ∃ f : ℕ → ℂ, (∀ i, i < 10 → Par.default.f1 i = some (f i) ∧ f i ≠ 0 ∧ ‖f i‖ ≤ 1) ∧
    ∀ i j, i ≤ j → j < 10 → ‖f i‖ ≤ ‖f j‖ :=
  C202_damping_partial Par.default (by norm_num [Par.default]) ⟨2, rfl⟩ (by norm_num [Par.default])
    (by norm_num [Par.default, abs_of_pos])

/-- **C202.**  With an angle between zero and a quarter turn the factors lie in the quadrant of
absorption: real part not negative, imaginary part not positive. -/
theorem C202_quadrant_partial (c : Par) (hs : 0 ≤ c.smax) (hp : Even c.p) (h0 : 0 ≤ c.gamma)
    (h1 : c.gamma ≤ 1 / 2) (i : ℕ) (hi : i < c.thick) :
    ∃ f, c.f1 i = some f ∧ 0 ≤ f.re ∧ f.im ≤ 0 := by
  have hg : |c.gamma| ≤ 1 / 2 := by rw [abs_of_nonneg h0]; exact h1
  have hden := one_le_den hs hp hg hi
  have hd : c.den i ≠ 0 := by
    intro h
    rw [h, norm_zero] at hden
    linarith
  refine ⟨1 / c.den i, ?_, ?_, ?_⟩
  · unfold Par.f1
    rw [if_neg hd]
  · rw [one_div, Complex.inv_re, den_even hp]
    refine div_nonneg ?_ (Complex.normSq_nonneg _)
    rw [(exp_parts _ _).1]
    have := mul_nonneg (cos_gamma hg) (strength_nonneg hs hi)
    linarith
  · rw [one_div, Complex.inv_im, den_even hp]
    refine div_nonpos_of_nonpos_of_nonneg ?_ (Complex.normSq_nonneg _)
    rw [(exp_parts _ _).2]
    have hpi := Real.pi_pos
    have hsin : 0 ≤ Real.sin (c.gamma * Real.pi) :=
      Real.sin_nonneg_of_nonneg_of_le_pi (by positivity) (by nlinarith)
    have := mul_nonneg hsin (strength_nonneg hs hi)
    linarith

example : ∃ f, Par.default.f1 0 = some f ∧ 0 ≤ f.re ∧ f.im ≤ 0 :=
  C202_quadrant_partial Par.default (by norm_num [Par.default]) ⟨2, rfl⟩ (by norm_num [Par.default])
    (by norm_num [Par.default]) 0 (by norm_num [Par.default])

/-- **C202 is violated** for odd orders: the monomial is negative in the layer, so a layer that is
not very strong amplifies. -/
theorem C202_violated_odd (c : Par) (hp : Odd c.p) (i : ℕ) (h0 : 0 < c.strength i)
    (h1 : c.strength i < 2 * Real.cos (c.gamma * Real.pi)) (f : ℂ) (hf : c.f1 i = some f) : 1 < ‖f‖ := by
  unfold Par.f1 at hf
  split at hf
  · cases hf
  · rename_i hd
    cases hf
    have hn : ‖c.den i‖ ^ 2 < 1 := by
      rw [den_odd hp, exp_normSq]
      nlinarith
    have hpos : 0 < ‖c.den i‖ := norm_pos_iff.2 hd
    have hlt : ‖c.den i‖ < 1 := by
      by_contra h
      push Not at h
      nlinarith
    rw [norm_div, norm_one]
    exact (one_lt_div hpos).2 hlt

/-- The third order with the default angle, thickness and strength: the innermost factor
amplifies. -/
theorem C202_violated_amplifies :
    ∃ f, ({ Par.default with p := 3 } : Par).f1 9 = some f ∧ 1 < ‖f‖ := by
  have hodd : Odd (({ Par.default with p := 3 } : Par)).p := ⟨1, rfl⟩
  have hs : ({ Par.default with p := 3 } : Par).strength 9 = 1 / 125 := by
    norm_num [Par.strength, Par.default, zpow_ofNat]
  have hc : 1 / 125 < 2 * Real.cos (({ Par.default with p := 3 } : Par).gamma * Real.pi) := by
    have : ({ Par.default with p := 3 } : Par).gamma * Real.pi = Real.pi / 4 := by
      norm_num [Par.default]; ring
    rw [this, Real.cos_pi_div_four]
    have : (1 : ℝ) ≤ Real.sqrt 2 := Real.one_le_sqrt.2 (by norm_num)
    linarith
  have hd : ({ Par.default with p := 3 } : Par).den 9 ≠ 0 := by
    intro h
    have h2 : (({ Par.default with p := 3 } : Par).den 9).re = 0 := by rw [h]; rfl
    rw [den_odd hodd, (exp_parts _ _).1, hs] at h2
    have := Real.cos_le_one (({ Par.default with p := 3 } : Par).gamma * Real.pi)
    linarith
  have hf : ({ Par.default with p := 3 } : Par).f1 9 = some (1 / ({ Par.default with p := 3 } : Par).den 9) := by
    unfold Par.f1
    rw [if_neg hd]
  exact ⟨_, hf, C202_violated_odd _ hodd 9 (by rw [hs]; norm_num) (by rw [hs]; exact hc) _ hf⟩

/-- **C202 is violated**: for an odd order and angle zero the factor can be a division by zero. -/
theorem C202_violated_infinite :
    ({ gamma := 0, smax := 1 / 8, p := 3, thick := 1 } : Par).f1 0 = none := by
  unfold Par.f1
  rw [if_pos]
  rw [den_eq]
  norm_num [zpow_ofNat]

/-- **C202 is violated** for the profile: at depth `1` (the border) the usual strength is `smax`, at
the innermost point of the layer it is that of depth `1/thick`.  The code uses the depths
`1 + 1/thick` and `2/thick`. -/
theorem C202_violated_profile (c : Par) (p : ℕ) (hp : c.p = p) (he : Even p) (ht : 0 < c.thick) :
    c.den 0 = 1 + Complex.exp (((c.gamma * Real.pi : ℝ) : ℂ) * Complex.I) *
        ((profile c.smax p (1 + 1 / c.thick) : ℝ) : ℂ) ∧
      c.den (c.thick - 1) = 1 + Complex.exp (((c.gamma * Real.pi : ℝ) : ℂ) * Complex.I) *
        ((profile c.smax p (2 / c.thick) : ℝ) : ℂ) ∧
      (0 < c.smax → p ≠ 0 → profile c.smax p 1 < profile c.smax p (1 + 1 / c.thick) ∧
        profile c.smax p (1 / c.thick) < profile c.smax p (2 / c.thick)) := by
  have he' : Even c.p := by rw [hp]; exact (Int.even_coe_nat p).2 he
  have ht' : (0 : ℝ) < c.thick := by exact_mod_cast ht
  refine ⟨?_, ?_, fun hs hp0 => ⟨?_, ?_⟩⟩
  · rw [den_even he']
    unfold Par.strength profile
    rw [hp, zpow_natCast]
    congr 5
    push_cast
    field_simp
    ring
  · rw [den_even he']
    unfold Par.strength profile
    rw [hp, zpow_natCast, Nat.cast_sub ht]
    congr 5
    push_cast
    ring
  · unfold profile
    refine mul_lt_mul_of_pos_left (pow_lt_pow_left₀ ?_ zero_le_one hp0) hs
    have : 0 < 1 / (c.thick : ℝ) := by positivity
    linarith
  · unfold profile
    refine mul_lt_mul_of_pos_left (pow_lt_pow_left₀ ?_ (by positivity) hp0) hs
    exact div_lt_div_of_pos_right (by norm_num) ht'

/-- With the default parameters the strength at the border is half as large again as `smax`. -/
example : profile Par.default.smax 4 (1 + 1 / Par.default.thick) = 1.4641 := by
  norm_num [profile, Par.default]

/-! ### C203: the strength that is estimated -/

/-- **C203.**  With the strength that is estimated from the tolerance, a wave with the
characteristic wave number returns from the border with the tolerance to the power
`2 sin(gamma pi) / 1.141`. -/
theorem C203_estimate_partial (gamma otol k dx : ℝ) (p thick : ℕ) (ho : 0 < otol) (hk : k ≠ 0)
    (ht : thick ≠ 0) (hdx : dx ≠ 0) :
    roundTrip gamma (smaxEst otol p k thick dx) p k (thick * dx) =
      otol ^ (2 * Real.sin (gamma * Real.pi) / 1.141) := by
  have ht' : (thick : ℝ) ≠ 0 := by exact_mod_cast ht
  have hp' : ((p : ℝ) + 1) ≠ 0 := by positivity
  unfold roundTrip
  rw [profile_integral _ _ (mul_ne_zero ht' hdx), Real.rpow_def_of_pos ho]
  congr 1
  unfold smaxEst
  push_cast
  field_simp

/-- **C203.**  If the angle is large enough (the default is), the returning amplitude is at most the
tolerance. -/
theorem C203_tolerance_partial (gamma otol k dx : ℝ) (p thick : ℕ) (ho : 0 < otol) (ho1 : otol ≤ 1)
    (hk : k ≠ 0) (ht : thick ≠ 0) (hdx : dx ≠ 0)
    (hg : 1.141 / 2 ≤ Real.sin (gamma * Real.pi)) :
    roundTrip gamma (smaxEst otol p k thick dx) p k (thick * dx) ≤ otol := by
  rw [C203_estimate_partial gamma otol k dx p thick ho hk ht hdx]
  calc otol ^ (2 * Real.sin (gamma * Real.pi) / 1.141) ≤ otol ^ (1 : ℝ) :=
        Real.rpow_le_rpow_of_exponent_ge ho ho1 (by
          rw [le_div_iff₀ (by norm_num)]
          linarith)
    _ = otol := Real.rpow_one _

/-- The default angle and tolerance meet the condition. -/
theorem C203_default_partial (k dx : ℝ) (p thick : ℕ) (hk : k ≠ 0) (ht : thick ≠ 0) (hdx : dx ≠ 0) :
    roundTrip Par.default.gamma (smaxEst 1e-5 p k thick dx) p k (thick * dx) ≤ 1e-5 := by
  refine C203_tolerance_partial _ _ k dx p thick (by norm_num) (by norm_num) hk ht hdx ?_
  have : Par.default.gamma * Real.pi = Real.pi / 4 := by norm_num [Par.default]; ring
  rw [this, Real.sin_pi_div_four]
  have : (1.4 : ℝ) ≤ Real.sqrt 2 := Real.le_sqrt_of_sq_le (by norm_num)
  norm_num at *
  linarith

example : roundTrip Par.default.gamma (smaxEst 1e-5 4 (kDefault 0.1) 10 0.1) 4 (kDefault 0.1) (10 * 0.1) ≤ 1e-5 := by
  have h := C203_default_partial (kDefault 0.1) 0.1 4 10
    (by unfold kDefault; have := Real.pi_pos; positivity) (by norm_num) (by norm_num)
  exact_mod_cast h

/-- **C203 is violated** for smaller angles, since the estimate does not know the angle: with
`gamma = 0.1` more than the tolerance returns, without an angle everything does. -/
theorem C203_violated (k dx : ℝ) (p thick : ℕ) (hk : k ≠ 0) (ht : thick ≠ 0) (hdx : dx ≠ 0) :
    1e-5 < roundTrip 0.1 (smaxEst 1e-5 p k thick dx) p k (thick * dx) ∧
      roundTrip 0 (smaxEst 1e-5 p k thick dx) p k (thick * dx) = 1 := by
  constructor
  · rw [C203_estimate_partial _ _ k dx p thick (by norm_num) hk ht hdx]
    have hs : Real.sin (0.1 * Real.pi) < 0.32 := by
      have h1 := Real.sin_le (x := 0.1 * Real.pi) (by positivity)
      have h2 := Real.pi_lt_d6
      linarith
    calc (1e-5 : ℝ) = 1e-5 ^ (1 : ℝ) := (Real.rpow_one _).symm
      _ < 1e-5 ^ (2 * Real.sin (0.1 * Real.pi) / 1.141) :=
        Real.rpow_lt_rpow_of_exponent_gt (by norm_num) (by norm_num) (by
          rw [div_lt_iff₀ (by norm_num)]
          linarith)
  · rw [C203_estimate_partial _ _ k dx p thick (by norm_num) hk ht hdx]
    simp

/-! ### C204: the energy range -/

/-- **C204.**  With layers that do not amplify and positive masses, the operator is bounded by the
maximal energy it reports: no component of a wave function is multiplied by more. -/
theorem C204_emax_partial {s : Space} (h : s.Ok) (o : Op s) (hm : ∀ i, 0 < o.mass i)
    (hl : ∀ i j, j < (o.layer i).thick → ‖(o.layer i).f1 j‖ ≤ 1) (ψ : s.Wf) :
    norm2 s (o.apply ψ) ≤ o.emax * norm2 s ψ := by
  rw [apply_eq h]
  refine (norm2_sum _ _).trans ?_
  unfold Op.emax
  rw [Finset.sum_mul, Finset.sum_mul]
  refine Finset.sum_le_sum (fun i _ => ?_)
  rw [if_pos (hm i), dx_eq]
  have hf : ∀ x, ‖o.fac i x‖ ≤ 1 := fun x => factor_norm (hl i) o.conj _ _
  have e : o.term i ψ = ((-1 / 2 / o.mass i : ℝ) : ℂ) •
      (fun x => D s i (fun y => D s i ψ y * o.fac i y) x * o.fac i x : s.Wf) := rfl
  have hs := spacing_pos h i
  have hmi := hm i
  have hpi := Real.pi_pos
  have hk : 0 ≤ Real.pi / spacing s i := (div_pos hpi hs).le
  rw [e, norm2_smul, Complex.norm_real, Real.norm_eq_abs]
  have ha : |(-1 / 2 / o.mass i : ℝ)| = 1 / (2 * o.mass i) := by
    rw [abs_div, abs_of_pos hmi]
    norm_num
    field_simp
  rw [ha]
  calc 1 / (2 * o.mass i) * norm2 s (fun x => D s i (fun y => D s i ψ y * o.fac i y) x * o.fac i x)
      ≤ 1 / (2 * o.mass i) * (Real.pi / spacing s i * (Real.pi / spacing s i * norm2 s ψ)) := by
        refine mul_le_mul_of_nonneg_left ?_ (by positivity)
        refine (norm2_mul_le _ _ hf).trans ((norm2_D h i _).trans ?_)
        exact mul_le_mul_of_nonneg_left ((norm2_mul_le _ _ hf).trans (norm2_D h i ψ)) hk
    _ = 1 / (o.mass i * spacing s i * spacing s i) * (Real.pi * Real.pi / 2) * norm2 s ψ := by
        field_simp

/-- The grid with two points. -/
noncomputable def two : Space := { d := 1, axes := fun _ => { n := 2, xmin := 0, xmax := 1 } }

theorem two_ok : two.Ok := fun _ => ⟨le_refl 2, show (0 : ℝ) < 1 from one_pos⟩

theorem two_spacing (i : Fin two.d) : spacing two i = 1 := by
  show ((1 : ℝ) - 0) / (((2 : ℕ) : ℝ) - 1) = 1
  norm_num

/-- The only dimension. -/
def dim0 : Fin two.d := (0 : Fin 1)

theorem dim0_eq (j : Fin two.d) : j = dim0 := Subsingleton.elim (α := Fin 1) _ _

theorem two_sum (f : Fin two.d → two.Wf) : ∑ i, f i = f dim0 :=
  Fintype.sum_eq_single dim0 (fun j hj => absurd (dim0_eq j) hj)

/-- A layer of one point. -/
noncomputable def onePar : Par := { gamma := 1 / 2, smax := 1 / 16, p := 4, thick := 1 }

theorem onePar_den : onePar.den 0 = 1 + Complex.I := by
  rw [den_eq]
  have h1 : ((onePar.gamma * Real.pi : ℝ) : ℂ) * Complex.I = (Real.pi : ℂ) / 2 * Complex.I := by
    norm_num [onePar]; ring_nf
  rw [h1, Complex.exp_pi_div_two_mul_I]
  norm_num [onePar, zpow_ofNat]

theorem onePar_f1 : onePar.f1 0 = some (1 / (1 + Complex.I)) := by
  unfold Par.f1
  rw [onePar_den, if_neg]
  intro h
  have := congrArg Complex.re h
  simp at this

/-- The value of the factor of that layer. -/
theorem onePar_val : (onePar.layer 3).f1 0 = 1 / (1 + Complex.I) := by
  show (onePar.f1 0).getD 0 = _
  rw [onePar_f1]
  rfl

/-- The kinetic energy with mass one and that layer on the grid with two points. -/
noncomputable def twoOp (side : ℕ) : Op two :=
  { mass := fun _ => 1, layer := fun _ => onePar.layer side, conj := false }

theorem I_val : (1 : ℂ) / (1 + Complex.I) = (1 - Complex.I) / 2 := by
  have h : (1 : ℂ) + Complex.I ≠ 0 := by
    intro h
    have := congrArg Complex.re h
    simp at this
  rw [div_eq_div_iff h two_ne_zero]
  linear_combination Complex.I_mul_I

theorem two_norm (side : ℕ) (i : Fin two.d) (j : ℕ) (hj : j < ((twoOp side).layer i).thick) :
    ‖((twoOp side).layer i).f1 j‖ ≤ 1 := by
  have hj0 : j = 0 := by
    have : j < 1 := hj
    omega
  subst hj0
  show ‖(onePar.f1 0).getD 0‖ ≤ 1
  obtain ⟨f, hf, _⟩ := C202_damping_partial onePar (by norm_num [onePar]) ⟨2, rfl⟩ (by norm_num [onePar])
    (by norm_num [onePar, abs_of_pos])
  obtain ⟨h1, _, h2⟩ := hf 0 (by norm_num [onePar])
  rw [h1]
  exact h2

example (ψ : two.Wf) : norm2 two ((twoOp 3).apply ψ) ≤ (twoOp 3).emax * norm2 two ψ :=
  C204_emax_partial two_ok (twoOp 3) (fun _ => one_pos) (two_norm 3) ψ

/-- The point with the highest frequency. -/
def top : two.Pt := fun _ => ⟨1, by show (1 : ℕ) < 2; omega⟩

theorem wavenum_top (i : Fin two.d) : wavenum two top i ^ 2 = Real.pi ^ 2 := by
  unfold wavenum
  rw [two_spacing]
  have hn : (two.axes i).n = 2 := rfl
  have hf : (freq (two.axes i).n (top i) : ℝ) ^ 2 = 1 := by
    show ((freq 2 1 : ℤ) : ℝ) ^ 2 = 1
    norm_num [freq]
  rw [mul_pow, hf, hn]
  norm_num

theorem two_fac (i : Fin two.d) (x : two.Pt) : (twoOp 3).fac i x = 1 / (1 + Complex.I) := by
  show (onePar.layer 3).factor false 2 (x i) = _
  have hx : (x i : ℕ) < 2 := (x i).2
  have hv := onePar_val
  have : (x i : ℕ) = 0 ∨ (x i : ℕ) = 1 := by omega
  unfold Layer.factor
  have ht : (onePar.layer 3).thick = 1 := rfl
  have hs : (onePar.layer 3).side = 3 := rfl
  rcases this with h | h <;> rw [h] <;> simp [ht, hs, hv]

/-- **C204 is violated** for the lower end: the imaginary part of an eigenvalue of the operator is
below the imaginary part of the minimal energy (the angle is used without the factor pi). -/
theorem C204_violated_emin :
    ∃ (c : Par) (o : Op two) (side : ℕ) (q : two.Pt) (e : ℂ), (∀ i, o.layer i = c.layer side) ∧
      (∀ j, j < c.thick → c.f1 j ≠ none) ∧ (∀ i, o.mass i = 1) ∧ o.conj = false ∧
      o.apply (wave two q) = e • wave two q ∧ e.im < eminIm 1 1 c.gamma c.smax := by
  refine ⟨onePar, twoOp 3, 3, top, 1 / (1 + Complex.I) * (1 / (1 + Complex.I)) * ((Real.pi ^ 2 / 2 : ℝ) : ℂ),
    fun _ => rfl, ?_, fun _ => rfl, rfl, ?_, ?_⟩
  · intro j hj
    have hj0 : j = 0 := by
      have : j < 1 := hj
      omega
    subst hj0
    rw [onePar_f1]
    exact Option.some_ne_none _
  · rw [scale_wave two_ok (lin_apply two_ok _), apply_eq two_ok]
    rw [two_sum, term_const two_ok (twoOp 3) _ _ (two_fac _), wavenum_top]
    norm_num [twoOp]
  · rw [I_val]
    have hl : ((1 - Complex.I) / 2 * ((1 - Complex.I) / 2) * ((Real.pi ^ 2 / 2 : ℝ) : ℂ)) =
        ((-(Real.pi ^ 2 / 4) : ℝ) : ℂ) * Complex.I := by
      push_cast
      linear_combination ((Real.pi : ℂ) ^ 2 / 8) * Complex.I_mul_I
    rw [hl, Complex.im_ofReal_mul, Complex.I_im, mul_one]
    unfold eminIm
    simp only
    have hz : (1 : ℂ) + (onePar.smax : ℂ) * Complex.exp ((onePar.gamma : ℂ) * Complex.I) =
        1 + Complex.exp ((onePar.gamma : ℂ) * Complex.I) * (onePar.smax : ℂ) := by ring
    have hdiv : ∀ (a : ℝ) (z : ℂ), ((a : ℂ) / z).im = a * z⁻¹.im := by
      intro a z
      rw [div_eq_mul_inv, Complex.im_ofReal_mul]
    rw [hz, hdiv, Complex.inv_im, (exp_parts _ _).2, Complex.normSq_eq_norm_sq, exp_normSq, div_one]
    have hc : 0 ≤ Real.cos onePar.gamma := by
      have := Real.pi_gt_d6
      exact Real.cos_nonneg_of_mem_Icc ⟨by norm_num [onePar]; linarith, by norm_num [onePar]; linarith⟩
    have h1 := Real.sin_le_one onePar.gamma
    have hs : onePar.smax = 1 / 16 := rfl
    rw [hs]
    have hN : 1 ≤ 1 + 2 * Real.cos onePar.gamma * (1 / 16) + (1 / 16 : ℝ) ^ 2 := by nlinarith
    have hpi : 0 < Real.pi ^ 2 := by have := Real.pi_pos; positivity
    have hq : -(1 / 16 : ℝ) ≤ -(Real.sin onePar.gamma * (1 / 16)) /
        (1 + 2 * Real.cos onePar.gamma * (1 / 16) + (1 / 16 : ℝ) ^ 2) := by
      rw [le_div_iff₀ (by linarith)]
      nlinarith
    have : Real.pi * Real.pi / 2 / 1 * (-(1 / 16 : ℝ)) ≤ Real.pi * Real.pi / 2 / 1 *
        (-(Real.sin onePar.gamma * (1 / 16)) /
          (1 + 2 * Real.cos onePar.gamma * (1 / 16) + (1 / 16 : ℝ) ^ 2)) :=
      mul_le_mul_of_nonneg_left hq (by nlinarith)
    nlinarith

/-! ### C205: the flag of the adjoint -/

theorem two_E0 : E two (fun _ => ⟨0, by show (0 : ℕ) < 2; omega⟩) = fun _ => 1 := by
  funext x
  unfold E root
  simp

theorem two_E1 (x : two.Pt) : E two top x = if (x dim0 : ℕ) = 0 then 1 else -1 := by
  unfold E
  rw [Fintype.prod_eq_single dim0 (fun j hj => absurd (dim0_eq j) hj)]
  have hx : (x dim0 : ℕ) < 2 := (x dim0).2
  have h01 : (x dim0 : ℕ) = 0 ∨ (x dim0 : ℕ) = 1 := by omega
  show root 1 2 1 (x dim0) = _
  unfold root
  rcases h01 with h | h
  · rw [h]; simp
  · rw [h, if_neg (by omega)]
    have : ((1 * (2 * Real.pi * (((1 : ℕ) : ℝ) * ((1 : ℕ) : ℝ)) / ((2 : ℕ) : ℝ)) : ℝ) : ℂ) * Complex.I =
        (Real.pi : ℂ) * Complex.I := by
      push_cast
      ring
    rw [this, Complex.exp_pi_mul_I]

theorem smul_D {s : Space} (i : Fin s.d) (a : ℂ) (φ : s.Wf) : D s i (a • φ) = a • D s i φ := by
  have := (lin_D s i).map_sum (Finset.univ : Finset Unit) (fun _ => a) (fun _ => φ)
  simpa using this

/-- The matrix element of a term of the operator, with the derivatives on both sides. -/
theorem ip_term {s : Space} (h : s.Ok) (o : Op s) (i : Fin s.d) (φ ψ : s.Wf) :
    ip s φ (o.term i ψ) = ((1 / 2 / o.mass i : ℝ) : ℂ) *
      ip s (D s i (fun x => φ x * (starRingEnd ℂ) (o.fac i x))) (fun x => D s i ψ x * o.fac i x) := by
  have e : o.term i ψ = ((-1 / 2 / o.mass i : ℝ) : ℂ) •
      (fun x => D s i (fun y => D s i ψ y * o.fac i y) x * o.fac i x : s.Wf) := rfl
  have e2 : ip s φ (fun x => D s i (fun y => D s i ψ y * o.fac i y) x * o.fac i x) =
      ip s (fun x => φ x * (starRingEnd ℂ) (o.fac i x)) (D s i (fun y => D s i ψ y * o.fac i y)) := by
    unfold ip
    refine Finset.sum_congr rfl (fun x _ => ?_)
    rw [map_mul, Complex.conj_conj]
    ring
  rw [e, ip_smul_right, e2, D_anti h]
  push_cast
  ring

theorem fac_conj {s : Space} (o : Op s) (hc : o.conj = false) (i : Fin s.d) (x : s.Pt) :
    ({ o with conj := true } : Op s).fac i x = (starRingEnd ℂ) (o.fac i x) := by
  unfold Op.fac
  rw [hc]
  exact factor_conj _ _ _

theorem fac_free {s : Space} (o : Op s) (i : Fin s.d) (ψ : s.Wf) (hψ : Free o ψ) :
    (fun x => ψ x * (starRingEnd ℂ) (o.fac i x)) = ψ := by
  funext x
  by_cases hx : inLayer o i x
  · rw [hψ i x hx, zero_mul]
  · rw [factor_free o i x hx, map_one, mul_one]

/-- **C205.**  Between wave functions that vanish in the layers the operator with the flag set has
the matrix elements of the adjoint. -/
theorem C205_adjoint_partial {s : Space} (h : s.Ok) (o : Op s) (hc : o.conj = false) (φ ψ : s.Wf)
    (hφ : Free o φ) (hψ : Free o ψ) :
    scal s φ (o.apply ψ) = scal s (({ o with conj := true } : Op s).apply φ) ψ := by
  rw [scal_eq, scal_eq, apply_eq h, apply_eq h]
  congr 1
  have hsum : ∀ (a : s.Wf) (f : Fin s.d → s.Wf), ip s a (∑ i, f i) = ∑ i, ip s a (f i) := by
    intro a f
    have := ip_sum s a (Finset.univ : Finset (Fin s.d)) (fun _ => 1) f
    simpa using this
  rw [← ip_conj s ψ, hsum, hsum, map_sum]
  refine Finset.sum_congr rfl (fun i _ => ?_)
  rw [ip_term h, ip_term h, fac_free o i φ hφ]
  have h1 : (fun x => ψ x * (starRingEnd ℂ) (({ o with conj := true } : Op s).fac i x)) = ψ :=
    fac_free _ i ψ hψ
  rw [h1, map_mul, Complex.conj_ofReal, ip_conj]
  congr 1
  unfold ip
  refine Finset.sum_congr rfl (fun x _ => ?_)
  simp only [fac_conj o hc, map_mul, Complex.conj_conj]
  ring

/-- Such wave functions exist: with a layer at the begin, those at the last point. -/
example : ∃ ψ : two.Wf, ψ ≠ 0 ∧ Free (twoOp 1) ψ := by
  refine ⟨fun x => if (x dim0 : ℕ) = 0 then 0 else 1, ?_, ?_⟩
  · intro h
    have := congrFun h top
    simp [top] at this
  · intro i x hx
    rw [dim0_eq i] at hx
    rcases hx with hx | hx
    · have : (x dim0 : ℕ) < 1 := hx.2
      simp only
      rw [if_pos (by omega)]
    · exact absurd rfl hx.1

/-- **C205 is violated** in general: the flag is documented to give the adjoint, but the derivatives
and the layers keep their order. -/
theorem C205_violated_adjoint :
    ∃ φ ψ : two.Wf, scal two φ ((twoOp 1).apply ψ) ≠
      scal two (({ twoOp 1 with conj := true } : Op two).apply φ) ψ := by
  have hI : (1 : ℂ) + Complex.I ≠ 0 := by
    intro h
    have := congrArg Complex.re h
    simp at this
  have hw0 : wavenum two (fun _ => ⟨0, by show (0 : ℕ) < 2; omega⟩) dim0 = 0 := by
    unfold wavenum
    have : (freq (two.axes dim0).n 0 : ℝ) = 0 := by
      show ((freq 2 0 : ℤ) : ℝ) = 0
      norm_num [freq]
    simp only [this, zero_mul]
  have hD0 : D two dim0 (E two (fun _ => ⟨0, by show (0 : ℕ) < 2; omega⟩)) = 0 := by
    rw [D_E two_ok, hw0]
    simp
  have hfac : ∀ x : two.Pt, (twoOp 1).fac dim0 x = if (x dim0 : ℕ) = 0 then (1 - Complex.I) / 2 else 1 := by
    intro x
    show (onePar.layer 1).factor false 2 (x dim0) = _
    have hv : (onePar.layer 1).f1 0 = (1 - Complex.I) / 2 := onePar_val.trans I_val
    have hx : (x dim0 : ℕ) < 2 := (x dim0).2
    have ht : (onePar.layer 1).thick = 1 := rfl
    have hs : (onePar.layer 1).side = 1 := rfl
    have : (x dim0 : ℕ) = 0 ∨ (x dim0 : ℕ) = 1 := by omega
    unfold Layer.factor
    rcases this with h | h <;> rw [h] <;> simp [ht, hs, hv]
  refine ⟨E two (fun _ => ⟨0, by show (0 : ℕ) < 2; omega⟩), E two top, ?_⟩
  rw [scal_eq, scal_eq, apply_eq two_ok, apply_eq two_ok, two_sum, two_sum]
  have hr : ip two (({ twoOp 1 with conj := true } : Op two).term dim0
      (E two (fun _ => ⟨0, by show (0 : ℕ) < 2; omega⟩))) (E two top) = 0 := by
    rw [← ip_conj, ip_term two_ok, hD0]
    simp [ip]
  rw [hr, mul_zero, ip_term two_ok]
  -- the left side of the matrix element
  have hF : (fun x => E two (fun _ => ⟨0, by show (0 : ℕ) < 2; omega⟩) x * (starRingEnd ℂ) ((twoOp 1).fac dim0 x)) =
      ((3 + Complex.I) / 4) • E two (fun _ => ⟨0, by show (0 : ℕ) < 2; omega⟩) +
        ((Complex.I - 1) / 4) • E two top := by
    funext x
    rw [Pi.add_apply, Pi.smul_apply, Pi.smul_apply, two_E0, two_E1, hfac]
    by_cases hx : (x dim0 : ℕ) = 0
    · simp only [hx, if_true, smul_eq_mul, map_div₀, map_sub, map_one, Complex.conj_I, map_ofNat]
      ring
    · simp only [hx, if_false, smul_eq_mul, map_one]
      ring
  rw [hF, lin_D two dim0, hD0, smul_zero, zero_add, smul_D, D_E two_ok]
  have hk : (wavenum two top dim0 : ℂ) ^ 2 = (Real.pi : ℂ) ^ 2 := by
    exact_mod_cast congrArg (fun r : ℝ => (r : ℂ)) (wavenum_top dim0)
  have hsum : ∀ f : two.Pt → ℂ, ∑ x, f x = f (fun _ => ⟨0, by show (0 : ℕ) < 2; omega⟩) + f top := by
    intro f
    have : (Finset.univ : Finset two.Pt) = {(fun _ => ⟨0, by show (0 : ℕ) < 2; omega⟩ : two.Pt), top} := by
      ext x
      simp only [Finset.mem_univ, Finset.mem_insert, Finset.mem_singleton, true_iff]
      have hx : (x dim0 : ℕ) < 2 := (x dim0).2
      have : (x dim0 : ℕ) = 0 ∨ (x dim0 : ℕ) = 1 := by omega
      rcases this with h | h
      · left
        funext j
        rw [dim0_eq j]
        exact Fin.ext h
      · right
        funext j
        rw [dim0_eq j]
        exact Fin.ext h
    rw [this, Finset.sum_insert, Finset.sum_singleton]
    intro hmem
    rw [Finset.mem_singleton] at hmem
    have := congrArg (fun x : two.Pt => (x dim0 : ℕ)) hmem
    simp [top] at this
  have ht0 : (top dim0 : ℕ) = 1 := rfl
  unfold ip
  rw [hsum]
  simp only [Pi.smul_apply, smul_eq_mul, two_E1, hfac, ht0, map_mul, map_div₀, map_sub, map_one,
    Complex.conj_I, map_ofNat, Complex.conj_ofReal, if_true, one_ne_zero, if_false, map_neg]
  have hv : ((∏ i, spacing two i : ℝ) : ℂ) = 1 := by
    simp only [two_spacing, Finset.prod_const_one, Complex.ofReal_one]
  rw [hv, one_mul]
  have hm : (twoOp 1).mass dim0 = 1 := rfl
  rw [hm]
  push_cast
  have hpi : (Real.pi : ℂ) ^ 2 ≠ 0 := by
    have := Real.pi_pos.ne'
    exact pow_ne_zero _ (by exact_mod_cast this)
  intro hz
  have h2 : (Real.pi : ℂ) ^ 2 * ((-Complex.I - 1) * (3 - Complex.I)) = 0 := by
    linear_combination 16 * hz + ((-Complex.I - 1) * (3 - Complex.I) * Complex.I ^ 2) * hk +
      ((-Complex.I - 1) * (3 - Complex.I) * (Real.pi : ℂ) ^ 2) * Complex.I_mul_I
  rcases mul_eq_zero.1 h2 with h3 | h3
  · exact hpi h3
  · have := congrArg Complex.re h3
    norm_num at this

/-! ### C206: kinetic energy and absorption -/

/-- **C206.**  Without layers (thickness zero) the operator is the kinetic energy of the operator
without absorbing boundaries, for all wave functions. -/
theorem C206_kinetic {s : Space} (h : s.Ok) (o : Op s) (k : KinOp s)
    (hk : KinOp.create s o.mass = .ok k) (ht : ∀ i, (o.layer i).thick = 0) (ψ : s.Wf) :
    k.init.apply ψ = some (o.apply ψ) := by
  rw [init_apply h hk]
  congr 1
  refine Lin.ext h (lin_kin s _) (lin_apply h o) (fun q => ?_) ψ
  have hf : ∀ i x, o.fac i x = 1 := by
    intro i x
    refine factor_free o i x ?_
    unfold inLayer
    rw [ht i]
    omega
  rw [kin_E h, apply_eq h]
  simp only [term_const h o _ 1 (hf _)]
  rw [← Finset.sum_smul]
  congr 1
  unfold kinE
  rw [Complex.ofReal_sum]
  exact Finset.sum_congr rfl (fun i _ => by rw [one_mul, one_mul])

/-- The operator is linear. -/
theorem C206_linear {s : Space} (h : s.Ok) (o : Op s) (c : ℂ) (φ ψ : s.Wf) :
    o.apply (c • φ + ψ) = c • o.apply φ + o.apply ψ := lin_apply h o c φ ψ

example : ∃ (o : Op two) (k : KinOp two), KinOp.create two o.mass = .ok k ∧ ∀ i, (o.layer i).thick = 0 := by
  refine ⟨{ mass := fun _ => 1, layer := fun _ => { thick := 0, side := 3, f1 := fun _ => 1 }, conj := false },
    { mass := fun _ => 1, pfac := fun _ => -1 / 2 / 1, kspace := none, dspace := none }, ?_, fun _ => rfl⟩
  unfold KinOp.create initMass
  rw [if_neg (by show ¬ ((1 : ℕ) < 1); omega), if_neg (by rintro ⟨i, hi⟩; exact one_ne_zero hi),
    if_neg (fun hn => hn ⟨dim0, one_pos⟩)]

theorem factor_quadrant {s : Space} (o : Op s) (hc : o.conj = false) (i : Fin s.d) (ha : Apart o i)
    (hl : ∀ j, j < (o.layer i).thick → (o.layer i).f1 j ≠ 0 ∧ 0 ≤ ((o.layer i).f1 j).re ∧
      ((o.layer i).f1 j).im ≤ 0) (x : s.Pt) :
    o.fac i x ≠ 0 ∧ 0 ≤ (o.fac i x).re ∧ (o.fac i x).im ≤ 0 := by
  have hx : (x i : ℕ) < (s.axes i).n := (x i).2
  unfold Op.fac Layer.factor
  rw [hc]
  simp only [Bool.false_eq_true, if_false]
  unfold Apart at ha
  by_cases h1 : (o.layer i).side ≠ 2 ∧ (x i : ℕ) < (o.layer i).thick
  · have h2 : ¬ ((o.layer i).side ≠ 1 ∧ (s.axes i).n - 1 - (x i : ℕ) < (o.layer i).thick) := by
      rintro ⟨h3, h4⟩
      rcases ha with h | h | h
      · exact h3 h
      · exact h1.1 h
      · omega
    rw [if_pos h1, if_neg h2, mul_one]
    exact hl _ h1.2
  · rw [if_neg h1, one_mul]
    by_cases h2 : (o.layer i).side ≠ 1 ∧ (s.axes i).n - 1 - (x i : ℕ) < (o.layer i).thick
    · rw [if_pos h2]
      exact hl _ h2.2
    · rw [if_neg h2]
      simp

/-- **C206.**  The layer only absorbs: on a line with layers that do not overlap and factors in the
quadrant of absorption (C202), the energy of a wave function, taken with the weight of the stretched
coordinate (one over the factor of the layer), has a real part that is not negative and an imaginary
part that is not positive. -/
theorem C206_absorbs {s : Space} (h : s.Ok) (o : Op s) (hc : o.conj = false) (i : Fin s.d)
    (hone : ∀ j, j = i) (hm : 0 < o.mass i) (ha : Apart o i)
    (hl : ∀ j, j < (o.layer i).thick → (o.layer i).f1 j ≠ 0 ∧ 0 ≤ ((o.layer i).f1 j).re ∧
      ((o.layer i).f1 j).im ≤ 0) (ψ φ : s.Wf)
    (hφ : ∀ x, φ x * (o.layer i).factor false (s.axes i).n (x i) = o.apply ψ x) :
    0 ≤ (scal s ψ φ).re ∧ (scal s ψ φ).im ≤ 0 := by
  have hq := factor_quadrant o hc i ha hl
  have hap : o.apply ψ = o.term i ψ := by
    rw [apply_eq h]
    exact Fintype.sum_eq_single i (fun j hj => absurd (hone j) hj)
  have hφ' : φ = ((-1 / 2 / o.mass i : ℝ) : ℂ) • D s i (fun y => D s i ψ y * o.fac i y) := by
    funext x
    have h1 := hφ x
    have hfx : (o.layer i).factor false (s.axes i).n (x i) = o.fac i x := by
      unfold Op.fac
      rw [hc]
    rw [hap, hfx] at h1
    unfold Op.term at h1
    rw [Pi.smul_apply, smul_eq_mul]
    refine mul_right_cancel₀ (hq x).1 ?_
    rw [h1]
    ring
  have hip : ip s ψ φ = ((1 / 2 / o.mass i : ℝ) : ℂ) * ∑ x, ((‖D s i ψ x‖ ^ 2 : ℝ) : ℂ) * o.fac i x := by
    rw [hφ', ip_smul_right, D_anti h]
    have e : ip s (D s i ψ) (fun y => D s i ψ y * o.fac i y) =
        ∑ x, ((‖D s i ψ x‖ ^ 2 : ℝ) : ℂ) * o.fac i x := by
      unfold ip
      refine Finset.sum_congr rfl (fun x _ => ?_)
      rw [← mul_assoc, Complex.conj_mul', Complex.ofReal_pow]
    rw [e]
    push_cast
    ring
  have hv := vol_pos h
  rw [scal_eq, Complex.re_ofReal_mul, Complex.im_ofReal_mul, hip, Complex.re_ofReal_mul,
    Complex.im_ofReal_mul, Complex.re_sum, Complex.im_sum]
  have hr : 0 ≤ ∑ x, (((‖D s i ψ x‖ ^ 2 : ℝ) : ℂ) * o.fac i x).re :=
    Finset.sum_nonneg (fun x _ => by
      rw [Complex.re_ofReal_mul]
      exact mul_nonneg (sq_nonneg _) (hq x).2.1)
  have hi : ∑ x, (((‖D s i ψ x‖ ^ 2 : ℝ) : ℂ) * o.fac i x).im ≤ 0 :=
    Finset.sum_nonpos (fun x _ => by
      rw [Complex.im_ofReal_mul]
      exact mul_nonpos_of_nonneg_of_nonpos (sq_nonneg _) (hq x).2.2)
  have hm2 : 0 ≤ 1 / 2 / o.mass i := by positivity
  exact ⟨mul_nonneg hv.le (mul_nonneg hm2 hr),
    mul_nonpos_of_nonneg_of_nonpos hv.le (mul_nonpos_of_nonneg_of_nonpos hm2 hi)⟩

/-- A line with a layer that meets the conditions, and a weighted wave function. -/
example (ψ : two.Wf) : ∃ φ : two.Wf,
    (∀ x, φ x * ((twoOp 3).layer dim0).factor false (two.axes dim0).n (x dim0) = (twoOp 3).apply ψ x) ∧
      0 ≤ (scal two ψ φ).re ∧ (scal two ψ φ).im ≤ 0 := by
  have hl : ∀ j, j < ((twoOp 3).layer dim0).thick → ((twoOp 3).layer dim0).f1 j ≠ 0 ∧
      0 ≤ (((twoOp 3).layer dim0).f1 j).re ∧ (((twoOp 3).layer dim0).f1 j).im ≤ 0 := by
    intro j hj
    have hj0 : j = 0 := by
      have : j < 1 := hj
      omega
    subst hj0
    have hv : ((twoOp 3).layer dim0).f1 0 = (1 - Complex.I) / 2 := onePar_val.trans I_val
    rw [hv]
    refine ⟨?_, by norm_num, by norm_num⟩
    intro hz
    have := congrArg Complex.re hz
    norm_num at this
  have ha : Apart (twoOp 3) dim0 := Or.inr (Or.inr (le_refl 2))
  have hq := factor_quadrant (twoOp 3) rfl dim0 ha hl
  have hφ : ∀ x, (fun x => (twoOp 3).apply ψ x / (twoOp 3).fac dim0 x) x *
      ((twoOp 3).layer dim0).factor false (two.axes dim0).n (x dim0) = (twoOp 3).apply ψ x :=
    fun x => div_mul_cancel₀ _ (hq x).1
  exact ⟨_, hφ, C206_absorbs two_ok (twoOp 3) rfl dim0 dim0_eq one_pos ha hl ψ _ hφ⟩

/-! ### C207: the life of an operator -/

/-- **C207.**  An operator that is initialised for the first time with parameters that fit works on
the grid of the wave function and says so, and a copy of it does so as well, whatever the copy was
before. -/
theorem C207_life_partial {P G : Type} [DecidableEq G] (ok : P → G → Bool) (o t : Obj P G) (g : G)
    (hb : o.buf = none) (hok : ok o.params g = true) :
    ∃ o' t', o.init ok (some g) = .ok o' ∧ o'.valid g = true ∧ o'.apply g = .val g ∧
      t.copy ok o' = .ok t' ∧ t'.valid g = true ∧ t'.apply g = .val g ∧ t'.params = o.params := by
  refine ⟨{ o with grid := some g, buf := some g }, { params := o.params, grid := some g, buf := some g },
    ?_, ?_, ?_, ?_, ?_, ?_, rfl⟩
  · unfold Obj.init
    rw [hb]
    simp [hok]
  · simp [Obj.valid]
  · simp [Obj.apply]
  · simp [Obj.copy, Obj.init, hok]
  · simp [Obj.valid]
  · simp [Obj.apply]

example : ∃ o' t', ({ params := (), grid := none, buf := none } : Obj Unit ℕ).init (fun _ _ => true) (some 3) = .ok o' ∧
    o'.valid 3 = true ∧ o'.apply 3 = .val 3 ∧
    ({ params := (), grid := none, buf := none } : Obj Unit ℕ).copy (fun _ _ => true) o' = .ok t' ∧
    t'.valid 3 = true ∧ t'.apply 3 = .val 3 ∧ t'.params = () :=
  C207_life_partial (fun _ _ => true) _ _ 3 rfl rfl

/-- **C207 is violated**: copying an operator that has not seen a wave function is undefined
behaviour, and so is assigning an operator to itself. -/
theorem C207_violated_copy {P G : Type} (ok : P → G → Bool) (o src : Obj P G) (h : src.buf = none) :
    o.copy ok src = .ub ∧ src.copySelf ok = .ub ∧ o.copySelf ok = .ub := by
  refine ⟨?_, rfl, rfl⟩
  unfold Obj.copy
  rw [h]
  rfl

/-- **C207 is violated**: initialising again for a wave function on another grid changes nothing and
reports no error, and applying the operator to that wave function is undefined behaviour. -/
theorem C207_violated_again {P G : Type} [DecidableEq G] (ok : P → G → Bool) (o : Obj P G) (g g' : G)
    (hne : g ≠ g') (hb : o.buf = some g) : o.init ok (some g') = .ok o ∧ o.apply g' = .ub := by
  constructor
  · unfold Obj.init
    rw [hb]
  · unfold Obj.apply
    rw [hb]
    cases o.grid with
    | none => rfl
    | some g2 =>
      simp only
      rw [if_neg (fun h => hne h.1)]

/-- **C207 is violated**: after an initialisation that was rejected, the operator claims to be valid
for the wave function although applying it is undefined behaviour. -/
theorem C207_violated_rejected {P G : Type} [DecidableEq G] (ok : P → G → Bool) (o : Obj P G) (g : G)
    (hb : o.buf = none) (hok : ok o.params g = false) :
    ∃ o', o.init ok (some g) = .threw o' ∧ o'.valid g = true ∧ o'.apply g = .ub := by
  refine ⟨{ o with grid := some g }, ?_, ?_, ?_⟩
  · unfold Obj.init
    rw [hb]
    simp [hok]
  · simp [Obj.valid]
  · unfold Obj.apply
    simp only
    rw [hb]

/-! ### C208: the derivative of the metric -/

/-- The metric of the layer as a function of the place. -/
noncomputable def metric (c : Par) (u : ℝ) : ℂ := 1 / (1 + c.phi * ((u ^ c.p : ℝ) : ℂ))

theorem metric_deriv (c : Par) (u : ℝ) (hu : u ≠ 0) (hd : 1 + c.phi * ((u ^ c.p : ℝ) : ℂ) ≠ 0) :
    HasDerivAt (metric c) (-(c.phi * (((c.p : ℝ) * u ^ (c.p - 1) : ℝ) : ℂ)) /
      (1 + c.phi * ((u ^ c.p : ℝ) : ℂ)) ^ 2) u := by
  have h1 : HasDerivAt (fun v : ℝ => v ^ c.p) ((c.p : ℝ) * u ^ (c.p - 1)) u :=
    hasDerivAt_zpow c.p u (Or.inl hu)
  have h2 := ((h1.ofReal_comp).const_mul c.phi).const_add (1 : ℂ)
  have h3 := h2.inv hd
  refine h3.congr_of_eventuallyEq (Filter.Eventually.of_forall (fun v => ?_))
  simp [metric]

/-- **C208.**  The table that is meant to hold the derivative of the factors holds the derivative
divided by the fourth power of the factor. -/
theorem C208_derivative_partial (c : Par) (i : ℕ) (hi : i < c.thick) (f : ℂ) (hf : c.f1 i = some f) :
    metric c ((c.base i : ℤ) : ℝ) = f ∧
      ∃ d e, HasDerivAt (metric c) d ((c.base i : ℤ) : ℝ) ∧ c.df1 i = some e ∧ e * f ^ 4 = d := by
  have hb : ((c.base i : ℤ) : ℝ) ≠ 0 := by
    have : c.base i ≠ 0 := by unfold Par.base; omega
    exact_mod_cast this
  have hdf : c.df1 i = some (-1 / (f * f) * c.phi * (c.p : ℂ) *
      ((((c.base i : ℤ) : ℝ) ^ (c.p - 1) : ℝ) : ℂ)) := by
    unfold Par.df1
    rw [hf]
  have hd : c.den i ≠ 0 ∧ f = 1 / c.den i := by
    unfold Par.f1 at hf
    split at hf
    · cases hf
    · rename_i h
      cases hf
      exact ⟨h, rfl⟩
  refine ⟨hd.2.symm, _, _, metric_deriv c _ hb hd.1, hdf, ?_⟩
  rw [hd.2]
  have h0 := hd.1
  show _ = -(c.phi * (((c.p : ℝ) * ((c.base i : ℤ) : ℝ) ^ (c.p - 1) : ℝ) : ℂ)) / (c.den i) ^ 2
  rw [Complex.ofReal_mul, Complex.ofReal_intCast]
  field_simp

/-- **C208 is violated**: the table does not hold the derivative. -/
theorem C208_violated :
    ∃ (c : Par) (i : ℕ), i < c.thick ∧ c.f1 i ≠ none ∧
      ∀ d e, HasDerivAt (metric c) d ((c.base i : ℤ) : ℝ) → c.df1 i = some e → e ≠ d := by
  have hden : ({ gamma := 0, smax := 1, p := 2, thick := 1 } : Par).den 0 = 5 := by
    rw [den_eq]
    norm_num [zpow_ofNat]
  have hphi : ({ gamma := 0, smax := 1, p := 2, thick := 1 } : Par).phi = 1 := by
    norm_num [Par.phi, zpow_ofNat]
  have hf : ({ gamma := 0, smax := 1, p := 2, thick := 1 } : Par).f1 0 = some (1 / 5) := by
    unfold Par.f1
    rw [hden, if_neg (by norm_num)]
  refine ⟨{ gamma := 0, smax := 1, p := 2, thick := 1 }, 0, Nat.one_pos, by rw [hf]; exact Option.some_ne_none _, ?_⟩
  intro d e hd he hed
  obtain ⟨_, d', e', h1, h2, h3⟩ := C208_derivative_partial { gamma := 0, smax := 1, p := 2, thick := 1 } 0
    Nat.one_pos _ hf
  have hdd := hd.unique h1
  rw [he] at h2
  cases h2
  have he2 : e = 100 := by
    have : ({ gamma := 0, smax := 1, p := 2, thick := 1 } : Par).df1 0 = some 100 := by
      unfold Par.df1
      rw [hf, hphi]
      norm_num [Par.base, zpow_ofNat]
    rw [he] at this
    exact Option.some.inj this
  rw [← hdd, ← hed, he2] at h3
  norm_num at h3

end QDng.Absorb
