import Verif.Absorb.Spec
import Verif.Deriv.GLemmas
import Verif.Deriv.KinLemmas
import Mathlib.Analysis.InnerProductSpace.PiL2

namespace QDng.Absorb

open QDng.Grid QDng.Deriv

/-! ### Coefficients -/

/-- The strength the code uses at point `i` of the layer. -/
noncomputable def Par.strength (c : Par) (i : ℕ) : ℝ :=
  c.smax * (((c.thick : ℝ) + 1 - i) / c.thick) ^ c.p

theorem den_eq (c : Par) (i : ℕ) : c.den i = 1 + Complex.exp (((c.gamma * Real.pi : ℝ) : ℂ) * Complex.I) *
    ((c.smax * ((((i : ℝ) - c.thick - 1) / c.thick) ^ c.p) : ℝ) : ℂ) := by
  unfold Par.den Par.phi Par.base
  have h : (1 / (c.thick : ℝ)) ^ c.p * ((((i : ℤ) - (c.thick : ℤ) - 1 : ℤ) : ℝ)) ^ c.p =
      (((i : ℝ) - c.thick - 1) / c.thick) ^ c.p := by
    rw [← mul_zpow]
    congr 1
    push_cast
    ring
  rw [← h, mul_assoc, mul_assoc, ← Complex.ofReal_mul, ← Complex.ofReal_mul]

theorem den_even {c : Par} (hp : Even c.p) (i : ℕ) :
    c.den i = 1 + Complex.exp (((c.gamma * Real.pi : ℝ) : ℂ) * Complex.I) * (c.strength i : ℂ) := by
  rw [den_eq]
  unfold Par.strength
  have : ((i : ℝ) - c.thick - 1) / c.thick = -(((c.thick : ℝ) + 1 - i) / c.thick) := by ring
  rw [this, hp.neg_zpow]

theorem den_odd {c : Par} (hp : Odd c.p) (i : ℕ) :
    c.den i = 1 + Complex.exp (((c.gamma * Real.pi : ℝ) : ℂ) * Complex.I) * ((-c.strength i : ℝ) : ℂ) := by
  rw [den_eq]
  unfold Par.strength
  have : ((i : ℝ) - c.thick - 1) / c.thick = -(((c.thick : ℝ) + 1 - i) / c.thick) := by ring
  rw [this, hp.neg_zpow]
  ring_nf

theorem exp_parts (a t : ℝ) :
    (1 + Complex.exp ((a : ℂ) * Complex.I) * (t : ℂ)).re = 1 + Real.cos a * t ∧
      (1 + Complex.exp ((a : ℂ) * Complex.I) * (t : ℂ)).im = Real.sin a * t := by
  constructor
  · rw [Complex.add_re, Complex.re_mul_ofReal, Complex.exp_ofReal_mul_I_re, Complex.one_re]
  · rw [Complex.add_im, Complex.im_mul_ofReal, Complex.exp_ofReal_mul_I_im, Complex.one_im, zero_add]

theorem exp_normSq (a t : ℝ) :
    ‖1 + Complex.exp ((a : ℂ) * Complex.I) * (t : ℂ)‖ ^ 2 = 1 + 2 * Real.cos a * t + t ^ 2 := by
  obtain ⟨h1, h2⟩ := exp_parts a t
  rw [← Complex.normSq_eq_norm_sq, Complex.normSq_apply, h1, h2]
  have := Real.sin_sq_add_cos_sq a
  linear_combination t ^ 2 * this

theorem strength_nonneg {c : Par} (hs : 0 ≤ c.smax) {i : ℕ} (hi : i < c.thick) : 0 ≤ c.strength i := by
  have h1 : (i : ℝ) < c.thick := by exact_mod_cast hi
  have h0 : (0 : ℝ) ≤ i := Nat.cast_nonneg i
  unfold Par.strength
  refine mul_nonneg hs (zpow_nonneg (div_nonneg ?_ ?_) _) <;> linarith

theorem strength_mono {c : Par} (hs : 0 ≤ c.smax) (hp : 0 ≤ c.p) {i j : ℕ} (hij : i ≤ j)
    (hj : j < c.thick) : c.strength j ≤ c.strength i := by
  have h1 : (j : ℝ) < c.thick := by exact_mod_cast hj
  have h2 : (i : ℝ) ≤ j := by exact_mod_cast hij
  have h0 : (0 : ℝ) ≤ i := Nat.cast_nonneg i
  unfold Par.strength
  obtain ⟨p, hp'⟩ := Int.eq_ofNat_of_zero_le hp
  rw [hp']
  refine mul_le_mul_of_nonneg_left ?_ hs
  have ht : (0 : ℝ) < c.thick := by linarith
  rw [zpow_natCast, zpow_natCast]
  refine pow_le_pow_left₀ (div_nonneg (by linarith) ht.le) ?_ _
  exact div_le_div_of_nonneg_right (by linarith) ht.le

theorem cos_gamma {g : ℝ} (hg : |g| ≤ 1 / 2) : 0 ≤ Real.cos (g * Real.pi) := by
  have := abs_le.1 hg
  have hpi := Real.pi_pos
  exact Real.cos_nonneg_of_mem_Icc ⟨by nlinarith, by nlinarith⟩

theorem den_norm {c : Par} (hp : Even c.p) (i : ℕ) :
    ‖c.den i‖ ^ 2 = 1 + 2 * Real.cos (c.gamma * Real.pi) * c.strength i + c.strength i ^ 2 := by
  rw [den_even hp, exp_normSq]

theorem one_le_den {c : Par} (hs : 0 ≤ c.smax) (hp : Even c.p) (hg : |c.gamma| ≤ 1 / 2) {i : ℕ}
    (hi : i < c.thick) : 1 ≤ ‖c.den i‖ := by
  have h := den_norm hp i
  have h1 := strength_nonneg hs hi
  have h2 := cos_gamma hg
  have h3 : 1 ≤ ‖c.den i‖ ^ 2 := by
    rw [h]
    have : 0 ≤ Real.cos (c.gamma * Real.pi) * c.strength i := mul_nonneg h2 h1
    nlinarith [sq_nonneg (c.strength i)]
  exact (one_le_sq_iff₀ (norm_nonneg _)).1 h3

/-! ### The integral -/

theorem profile_integral (smax : ℝ) (p : ℕ) {len : ℝ} (hl : len ≠ 0) :
    ∫ x in (0:ℝ)..len, profile smax p (x / len) = smax * (len / (p + 1)) := by
  unfold profile
  rw [intervalIntegral.integral_const_mul]
  congr 1
  rw [intervalIntegral.integral_comp_div (fun y => y ^ p) hl, integral_pow]
  rw [zero_div, div_self hl, one_pow]
  simp only [ne_eq, Nat.add_eq_zero_iff, one_ne_zero, and_false, not_false_eq_true, zero_pow, sub_zero,
    smul_eq_mul]
  ring

/-! ### The operator -/

theorem D_anti {s : Space} (h : s.Ok) (i : Fin s.d) (φ ψ : s.Wf) :
    ip s φ (D s i ψ) = -ip s (D s i φ) ψ :=
  diag_anti h (lin_D s i) (fun q => wavenum s q i) (fun q => D_E h i q) φ ψ

/-- The factor of a dimension as a function of the grid point. -/
noncomputable def Op.fac {s : Space} (o : Op s) (i : Fin s.d) : s.Wf := fun x =>
  (o.layer i).factor o.conj (s.axes i).n (x i)

/-- The term of a dimension. -/
noncomputable def Op.term {s : Space} (o : Op s) (i : Fin s.d) (ψ : s.Wf) : s.Wf :=
  fun x => ((-1 / 2 / o.mass i : ℝ) : ℂ) * (D s i (fun y => D s i ψ y * o.fac i y) x * o.fac i x)

theorem foldl_sum {s : Space} (f : Fin s.d → s.Wf) (l : List (Fin s.d)) (a : s.Wf) :
    l.foldl (fun dest i => dest + f i) a = a + (l.map f).sum := by
  induction l generalizing a with
  | nil => simp
  | cons x l ih => rw [List.foldl_cons, ih, List.map_cons, List.sum_cons, add_assoc]

theorem apply_eq {s : Space} (h : s.Ok) (o : Op s) (ψ : s.Wf) : o.apply ψ = ∑ i, o.term i ψ := by
  have hstep : o.step ψ = fun dest i => dest + o.term i ψ := by
    funext dest i
    unfold Op.step
    simp only
    congr 1
    unfold Op.transform Op.term
    funext x
    rw [dnDxn_smul h, Pi.smul_apply, smul_eq_mul]
    exact mul_assoc _ _ _
  unfold Op.apply
  rw [hstep, foldl_sum, zero_add, ← List.ofFn_eq_map, List.sum_ofFn]

theorem lin_term {s : Space} (o : Op s) (i : Fin s.d) : Lin (o.term i) := by
  have h := ((lin_mul (o.fac i)).comp ((lin_D s i).comp ((lin_mul (o.fac i)).comp (lin_D s i)))).smul
    (((-1 / 2 / o.mass i : ℝ)) : ℂ)
  exact h

theorem lin_apply {s : Space} (h : s.Ok) (o : Op s) : Lin o.apply := by
  intro c φ ψ
  rw [apply_eq h, apply_eq h, apply_eq h, Finset.smul_sum, ← Finset.sum_add_distrib]
  exact Finset.sum_congr rfl (fun i _ => lin_term o i c φ ψ)

theorem term_const {s : Space} (h : s.Ok) (o : Op s) (i : Fin s.d) (f : ℂ) (hf : ∀ x, o.fac i x = f)
    (q : s.Pt) :
    o.term i (E s q) = (f * f * ((wavenum s q i ^ 2 / (2 * o.mass i) : ℝ) : ℂ)) • E s q := by
  have hD := D_E h i q
  have h1 : (fun y => D s i (E s q) y * o.fac i y) = (f * (Complex.I * (wavenum s q i : ℂ))) • E s q := by
    funext y
    rw [hD, hf, Pi.smul_apply, Pi.smul_apply, smul_eq_mul, smul_eq_mul]
    ring
  have hs : ∀ (a : ℂ) φ, D s i (a • φ) = a • D s i φ := by
    intro a φ
    have := (lin_D s i).map_sum (Finset.univ : Finset Unit) (fun _ => a) (fun _ => φ)
    simpa using this
  unfold Op.term
  funext x
  rw [h1, hs, hD, hf, smul_smul, Pi.smul_apply, Pi.smul_apply, smul_eq_mul, smul_eq_mul]
  have hI := Complex.I_mul_I
  push_cast
  have h2 : ((wavenum s q i : ℂ) ^ 2 / (2 * (o.mass i : ℂ))) = -(-1 / 2 / (o.mass i : ℂ)) * (wavenum s q i : ℂ) ^ 2 := by
    by_cases hm : (o.mass i : ℂ) = 0
    · rw [hm]; simp
    · field_simp
  rw [h2]
  linear_combination (-1 / 2 / (o.mass i : ℂ)) * f * f * (wavenum s q i : ℂ) ^ 2 * E s q x * hI

/-! ### Norms -/

theorem ip_self (s : Space) (ψ : s.Wf) : ip s ψ ψ = ((∑ x, ‖ψ x‖ ^ 2 : ℝ) : ℂ) := by
  unfold ip
  rw [Complex.ofReal_sum]
  exact Finset.sum_congr rfl (fun x _ => by rw [Complex.conj_mul', Complex.ofReal_pow])

theorem norm2_eq (s : Space) (ψ : s.Wf) : norm2 s ψ = ‖(WithLp.toLp 2 ψ : EuclideanSpace ℂ s.Pt)‖ := by
  rw [EuclideanSpace.norm_eq]
  rfl

theorem norm2_add (s : Space) (φ ψ : s.Wf) : norm2 s (φ + ψ) ≤ norm2 s φ + norm2 s ψ := by
  rw [norm2_eq, norm2_eq, norm2_eq, WithLp.toLp_add]
  exact norm_add_le _ _

theorem norm2_smul (s : Space) (a : ℂ) (ψ : s.Wf) : norm2 s (a • ψ) = ‖a‖ * norm2 s ψ := by
  rw [norm2_eq, norm2_eq, WithLp.toLp_smul, norm_smul]

theorem norm2_sum {s : Space} {ι : Type} (t : Finset ι) (f : ι → s.Wf) :
    norm2 s (∑ i ∈ t, f i) ≤ ∑ i ∈ t, norm2 s (f i) := by
  classical
  induction t using Finset.induction_on with
  | empty => simp [norm2]
  | insert a t ha ih =>
    rw [Finset.sum_insert ha, Finset.sum_insert ha]
    exact (norm2_add s _ _).trans (add_le_add_right ih _)

theorem norm2_mul_le {s : Space} (f ψ : s.Wf) (hf : ∀ x, ‖f x‖ ≤ 1) :
    norm2 s (fun x => ψ x * f x) ≤ norm2 s ψ := by
  unfold norm2
  refine Real.sqrt_le_sqrt (Finset.sum_le_sum (fun x _ => ?_))
  rw [norm_mul]
  exact pow_le_pow_left₀ (by positivity) (mul_le_of_le_one_right (norm_nonneg _) (hf x)) 2

theorem norm2_D {s : Space} (h : s.Ok) (i : Fin s.d) (ψ : s.Wf) :
    norm2 s (D s i ψ) ≤ Real.pi / spacing s i * norm2 s ψ := by
  have hk : 0 ≤ Real.pi / spacing s i := div_nonneg Real.pi_pos.le (spacing_pos h i).le
  have hDD : ∀ q, (fun φ => -D s i (D s i φ)) (E s q) = ((wavenum s q i ^ 2 : ℝ) : ℂ) • E s q := by
    intro q
    have hs : ∀ (a : ℂ) φ, D s i (a • φ) = a • D s i φ := by
      intro a φ
      have := (lin_D s i).map_sum (Finset.univ : Finset Unit) (fun _ => a) (fun _ => φ)
      simpa using this
    simp only [D_E h, hs, smul_smul]
    rw [← neg_smul]
    congr 1
    push_cast
    linear_combination (-(wavenum s q i : ℂ) ^ 2) * Complex.I_mul_I
  have hl : Lin (fun φ => -D s i (D s i φ)) := by
    have := ((lin_D s i).comp (lin_D s i)).smul (-1)
    simpa only [neg_smul, one_smul] using this
  have h1 : ip s (D s i ψ) (D s i ψ) = ip s ψ (-D s i (D s i ψ)) := by
    have e : -D s i (D s i ψ) = (-1 : ℂ) • D s i (D s i ψ) := by rw [neg_smul, one_smul]
    rw [e, ip_smul_right, D_anti h i ψ (D s i ψ)]
    ring
  have h2 := diag_expec h hl (fun q => wavenum s q i ^ 2) hDD ψ
  have h3 := norm_expec h ψ
  rw [ip_self] at h1 h3
  rw [h1.symm] at h2
  have h4 : ∑ x, ‖D s i ψ x‖ ^ 2 = (∑ q, wavenum s q i ^ 2 * ‖forward s ψ q‖ ^ 2) / (s.size : ℝ) := by
    exact_mod_cast h2
  have h5 : ∑ x, ‖ψ x‖ ^ 2 = (∑ q, ‖forward s ψ q‖ ^ 2) / (s.size : ℝ) := by exact_mod_cast h3
  unfold norm2
  rw [h4, h5, ← Real.sqrt_sq hk, ← Real.sqrt_mul (sq_nonneg _)]
  refine Real.sqrt_le_sqrt ?_
  rw [← mul_div_assoc, Finset.mul_sum]
  refine div_le_div_of_nonneg_right (Finset.sum_le_sum (fun q _ => ?_)) (Nat.cast_nonneg _)
  refine mul_le_mul_of_nonneg_right ?_ (sq_nonneg _)
  rw [← sq_abs (wavenum s q i)]
  exact pow_le_pow_left₀ (abs_nonneg _) (wavenum_le h q i) 2

theorem factor_norm {l : Layer} (hl : ∀ j, j < l.thick → ‖l.f1 j‖ ≤ 1) (cj : Bool) (n x : ℕ) :
    ‖l.factor cj n x‖ ≤ 1 := by
  have hf : ∀ j, j < l.thick → ‖(if cj then (starRingEnd ℂ) (l.f1 j) else l.f1 j)‖ ≤ 1 := by
    intro j hj
    cases cj
    · exact hl j hj
    · show ‖(starRingEnd ℂ) (l.f1 j)‖ ≤ 1
      rw [RCLike.norm_conj]
      exact hl j hj
  unfold Layer.factor
  simp only
  rw [norm_mul]
  refine mul_le_one₀ ?_ (norm_nonneg _) ?_
  · split
    · rename_i h
      exact hf _ h.2
    · simp
  · split
    · rename_i h
      exact hf _ h.2
    · simp

theorem factor_free {s : Space} (o : Op s) (i : Fin s.d) (x : s.Pt) (hx : ¬ inLayer o i x) :
    o.fac i x = 1 := by
  unfold inLayer at hx
  push Not at hx
  unfold Op.fac Layer.factor
  simp only
  rw [if_neg (fun h => absurd h.2 (not_lt.2 (hx.1 h.1))), if_neg (fun h => absurd h.2 (not_lt.2 (hx.2 h.1))),
    mul_one]

theorem factor_conj (l : Layer) (n x : ℕ) :
    l.factor true n x = (starRingEnd ℂ) (l.factor false n x) := by
  unfold Layer.factor
  simp only [if_true, Bool.false_eq_true, if_false, map_mul]
  congr 1 <;> (split <;> simp)

end QDng.Absorb
