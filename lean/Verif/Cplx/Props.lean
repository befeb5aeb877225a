import Mathlib.Tactic.Ring
import Mathlib.Tactic.FieldSimp
import Mathlib.Tactic.Linarith
import Mathlib.Analysis.SpecialFunctions.Pow.Complex
import Verif.Cplx.Model

/-
C57: the complex type agrees with the complex numbers.
-/

namespace QDng.Cplx

open QDng.Common

/-- Specification: the complex number a value stands for. -/
def DC.val (a : DC) : ℂ := ⟨a.re, a.im⟩

theorem val_inj (a b : DC) (h : a.val = b.val) : a = b := by
  cases a; cases b
  simp only [DC.val, Complex.mk.injEq] at h
  rw [h.1, h.2]

/-- C57: sums, differences, products, conjugates and the imaginary unit are those of the complex numbers. -/
theorem C57_ring (a b : DC) (r : ℝ) :
    (a.add b).val = a.val + b.val ∧ (a.addReal r).val = a.val + r ∧
    (a.sub b).val = a.val - b.val ∧ (a.subReal r).val = a.val - r ∧
    (a.mul b).val = a.val * b.val ∧ (a.mulReal r).val = a.val * r ∧
    a.conj.val = (starRingEnd ℂ) a.val ∧ a.conjugate.val = (starRingEnd ℂ) a.val ∧
    (DC.ofReal r).val = r ∧ DC.unit.val = Complex.I ∧
    (unitMul a).val = Complex.I * a.val ∧ (unitMulReal r).val = Complex.I * r ∧ (unitSq : ℂ) = Complex.I * Complex.I := by
  refine ⟨?_, ?_, ?_, ?_, ?_, ?_, ?_, ?_, ?_, ?_, ?_, ?_, ?_⟩
  all_goals
    first
    | (apply Complex.ext <;>
        simp [DC.val, DC.add, DC.addReal, DC.sub, DC.subReal, DC.mul, DC.mulReal, DC.conj, DC.conjugate, DC.ofReal,
          DC.unit, unitMul, unitMulReal, unitSq])

theorem norm_zero (b : DC) : b.re * b.re + b.im * b.im = 0 ↔ b.val = 0 := by
  constructor
  · intro h
    have h1 : b.re = 0 := by nlinarith [mul_self_nonneg b.re, mul_self_nonneg b.im]
    have h2 : b.im = 0 := by nlinarith [mul_self_nonneg b.re, mul_self_nonneg b.im]
    apply Complex.ext
    · exact h1
    · exact h2
  · intro h
    have h1 : b.re = 0 := congrArg Complex.re h
    have h2 : b.im = 0 := congrArg Complex.im h
    rw [h1, h2]
    ring

theorem parts_ok (a b d : ℝ) (h : d ≠ 0) : parts (fdiv a d) (fdiv b d) = some ⟨a / d, b / d⟩ := by
  unfold fdiv
  rw [if_neg h, if_neg h]
  rfl

theorem parts_none (a b d : ℝ) (h : d = 0) : parts (fdiv a d) (fdiv b d) = none := by
  unfold fdiv
  rw [if_pos h]
  rfl

/-- C57: division by a number that is not zero is division of complex numbers; division by zero gives no finite
number. -/
theorem C57_div (a b : DC) (r : ℝ) :
    (b.val ≠ 0 → (a.div b).map DC.val = some (a.val / b.val) ∧ (DC.realDiv r b).map DC.val = some (r / b.val)) ∧
    (r ≠ 0 → (a.divReal r).map DC.val = some (a.val / r)) ∧
    (b.val = 0 → a.div b = none ∧ DC.realDiv r b = none) ∧ (r = 0 → a.divReal r = none) := by
  refine ⟨?_, ?_, ?_, ?_⟩
  · intro h
    have hd : b.re * b.re + b.im * b.im ≠ 0 := fun e => h ((norm_zero b).mp e)
    have hv : ∀ x y z : ℂ, y ≠ 0 → x * y = z → x = z / y := by
      intro x y z hy e
      rw [← e]
      field_simp
    unfold DC.div DC.realDiv
    rw [parts_ok _ _ _ hd, parts_ok _ _ _ hd]
    constructor
    · show some _ = some _
      congr 1
      refine hv _ _ _ h ?_
      apply Complex.ext
      · simp only [DC.val, Complex.mul_re]
        refine Eq.trans ?_ (mul_div_cancel_right₀ a.re hd)
        ring
      · simp only [DC.val, Complex.mul_im]
        refine Eq.trans ?_ (mul_div_cancel_right₀ a.im hd)
        ring
    · show some _ = some _
      congr 1
      refine hv _ _ _ h ?_
      apply Complex.ext
      · simp only [DC.val, Complex.mul_re, Complex.ofReal_re]
        refine Eq.trans ?_ (mul_div_cancel_right₀ r hd)
        ring
      · simp only [DC.val, Complex.mul_im, Complex.ofReal_im]
        field_simp
        ring
  · intro h
    unfold DC.divReal
    rw [parts_ok _ _ _ h]
    show some _ = some _
    congr 1
    apply Complex.ext
    · simp [DC.val]
    · simp [DC.val]
  · intro h
    have hd : b.re * b.re + b.im * b.im = 0 := (norm_zero b).mpr h
    exact ⟨parts_none _ _ _ hd, parts_none _ _ _ hd⟩
  · intro h
    exact parts_none _ _ _ h

/-- C57: the exponential functions and the absolute value are those of the complex numbers. -/
theorem C57_exp (z : DC) (phi : ℝ) :
    (cexpI phi).val = Complex.exp (Complex.I * phi) ∧ (cexp z).val = Complex.exp z.val ∧ cabs z = ‖z.val‖ := by
  have h1 : ∀ phi : ℝ, (cexpI phi).val = Complex.exp (Complex.I * phi) := by
    intro phi
    rw [mul_comm, Complex.exp_mul_I]
    apply Complex.ext
    · simp [cexpI, DC.val, Complex.cos_ofReal_re]
    · simp [cexpI, DC.val, Complex.sin_ofReal_re]
  refine ⟨h1 phi, ?_, ?_⟩
  · unfold cexp
    have h2 := (C57_ring (cexpI z.im) z (Real.exp z.re)).2.2.2.2.2.1
    rw [h2, h1, mul_comm, Complex.ofReal_exp, ← Complex.exp_add]
    congr 1
    apply Complex.ext <;> simp [DC.val]
  · unfold cabs DC.val
    rw [Complex.norm_def, Complex.normSq_apply]

/-- C57: the phase of a number that is not zero is its argument between `-π` and `π`. -/
theorem C57_phase (z : DC) (h : z.val ≠ 0) : phase z = some (Complex.arg z.val) := by
  have hn : cabs z = ‖z.val‖ := (C57_exp z 0).2.2
  have hr : cabs z ≠ 0 := by rw [hn]; exact norm_ne_zero_iff.mpr h
  unfold phase
  dsimp only
  rw [if_neg hr]
  split
  · rename_i hi
    rw [Complex.arg_of_im_nonneg_of_ne_zero hi h, hn]
    rfl
  · rename_i hi
    rw [Complex.arg_of_im_neg (not_le.mp hi), hn]
    rfl

/-- C57: the square root of a number that is not zero is a square root, the one with positive real part (or on the
positive imaginary axis).  Missing: zero, see `C57_violated_sqrt`. -/
theorem C57_sqrt_partial (z : DC) (h : z.val ≠ 0) :
    ∃ w, csqrt z = some w ∧ w.val * w.val = z.val ∧ w.val = z.val ^ ((1 : ℂ) / 2) := by
  have hn : cabs z = ‖z.val‖ := (C57_exp z 0).2.2
  unfold csqrt
  rw [C57_phase z h]
  refine ⟨_, rfl, ?_, ?_⟩
  · have h2 := (C57_ring (cexpI (z.val.arg / 2)) z (Real.sqrt (cabs z))).2.2.2.2.2.1
    rw [h2, (C57_exp z _).1]
    have hs : ((Real.sqrt (cabs z) : ℝ) : ℂ) * (Real.sqrt (cabs z) : ℝ) = (‖z.val‖ : ℝ) := by
      rw [← Complex.ofReal_mul, Real.mul_self_sqrt (by rw [hn]; exact norm_nonneg _), hn]
    have : Complex.exp (Complex.I * ((z.val.arg / 2 : ℝ) : ℂ)) * Complex.exp (Complex.I * ((z.val.arg / 2 : ℝ) : ℂ)) =
        Complex.exp (z.val.arg * Complex.I) := by
      rw [← Complex.exp_add]
      congr 1
      push_cast
      ring
    calc _ = (((Real.sqrt (cabs z) : ℝ) : ℂ) * (Real.sqrt (cabs z) : ℝ)) *
          (Complex.exp (Complex.I * ((z.val.arg / 2 : ℝ) : ℂ)) * Complex.exp (Complex.I * ((z.val.arg / 2 : ℝ) : ℂ))) := by ring
      _ = _ := by rw [hs, this]; exact Complex.norm_mul_exp_arg_mul_I _
  · have h2 := (C57_ring (cexpI (z.val.arg / 2)) z (Real.sqrt (cabs z))).2.2.2.2.2.1
    rw [h2, (C57_exp z _).1, Complex.cpow_def_of_ne_zero h, Complex.log, hn]
    have hp : (0 : ℝ) < ‖z.val‖ := norm_pos_iff.mpr h
    have : ((Real.sqrt ‖z.val‖ : ℝ) : ℂ) = Complex.exp ((Real.log ‖z.val‖ / 2 : ℝ)) := by
      rw [← Complex.ofReal_exp]
      congr 1
      rw [Real.exp_half, Real.exp_log hp]
    rw [this, ← Complex.exp_add]
    congr 1
    push_cast
    ring

/-- C57 is violated: the square root of zero is not a number. -/
theorem C57_violated_sqrt : csqrt (DC.ofReal 0) = none := by
  have : phase (DC.ofReal 0) = none := by
    unfold phase cabs DC.ofReal
    simp
  unfold csqrt
  rw [this]

/-- C57: powers of the imaginary unit with exponents that are not negative.  Missing: negative exponents, see
`C57_violated_pow`. -/
theorem C57_pow_partial (n : Nat) : ∃ w, cpow n = .ok w ∧ w.val = Complex.I ^ n := by
  have hd : n = 4 * (n / 4) + n % 4 := by omega
  have ht : ((n : Int)).tmod 4 = ((n % 4 : Nat) : Int) := by
    rw [Int.tmod_eq_emod_of_nonneg (by omega)]
    omega
  have hp : Complex.I ^ n = Complex.I ^ (n % 4) := by
    conv => lhs; rw [hd]
    rw [pow_add, pow_mul, Complex.I_pow_four, one_pow, one_mul]
  rw [hp]
  unfold cpow
  rw [ht]
  have hm : n % 4 < 4 := Nat.mod_lt _ (by decide)
  generalize n % 4 = m at hm
  have hcase : m = 0 ∨ m = 1 ∨ m = 2 ∨ m = 3 := by omega
  rcases hcase with e | e | e | e <;> subst e
  · exact ⟨_, by simp; rfl, by apply Complex.ext <;> simp [DC.val, DC.ofReal]⟩
  · exact ⟨_, by simp; rfl, by apply Complex.ext <;> simp [DC.val]⟩
  · exact ⟨_, by simp; rfl, by apply Complex.ext <;> simp [DC.val, DC.ofReal]⟩
  · refine ⟨_, by simp; rfl, ?_⟩
    rw [Complex.I_pow_three]
    apply Complex.ext <;> simp [DC.val]

/-- C57 is violated: for negative exponents that are no multiple of four the function ends without a result. -/
theorem C57_violated_pow (n : Int) (h : n < 0) (h4 : n % 4 ≠ 0) : cpow n = .ub := by
  have : n.tmod 4 < 0 := by
    have e := Int.neg_tmod (-n) 4
    rw [neg_neg, Int.tmod_eq_emod_of_nonneg (a := -n) (by omega)] at e
    omega
  unfold cpow
  rw [if_neg (by omega), if_neg (by omega), if_neg (by omega), if_neg (by omega)]

/-- Numbers that meet the hypotheses of the theorems above. -/
example : (⟨3, -4⟩ : DC).val ≠ 0 ∧ cpow (-1) = .ub := by
  refine ⟨?_, rfl⟩
  intro h
  have := congrArg Complex.re h
  simp [DC.val] at this

end QDng.Cplx
