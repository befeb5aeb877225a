import Mathlib.Analysis.SpecialFunctions.Exponential
import Mathlib.Analysis.Normed.Ring.InfiniteSum
import Mathlib.Topology.Algebra.InfiniteSum.NatInt
import Mathlib.Analysis.SpecialFunctions.Trigonometric.Chebyshev.Basic
import Mathlib.Analysis.SpecialFunctions.Trigonometric.Complex
import Mathlib.Data.Nat.Factorial.BigOperators

/-
The expansion of the exponential into Chebychev polynomials with Bessel functions as coefficients
(Jacobi and Anger), with a bound for the rest.
-/

namespace QDng.Chexp

open Polynomial Nat

/-- The terms of the power series of the Bessel functions: `s = -1` for `J`, `s = 1` for `I`. -/
noncomputable def bterm (s z : ℂ) (k m : ℕ) : ℂ := s ^ m * (z / 2) ^ (2 * m + k) / (m ! * (m + k)!)

/-- The sum of the power series. -/
noncomputable def bfun (s z : ℂ) (k : ℕ) : ℂ := ∑' m, bterm s z k m

theorem bterm_norm (s z : ℂ) (k m : ℕ) :
    ‖bterm s z k m‖ ≤ (‖z‖ / 2) ^ k / k ! * ((‖s‖ * (‖z‖ / 2) ^ 2 / (k + 1)) ^ m / m !) := by
  unfold bterm
  rw [norm_div, norm_mul, norm_pow, norm_pow, norm_div, norm_mul, Complex.norm_natCast, Complex.norm_natCast,
    Complex.norm_ofNat]
  have h1 : ((k ! : ℕ) : ℝ) * ((k : ℝ) + 1) ^ m ≤ ((m + k)! : ℕ) := by
    have := Nat.factorial_mul_pow_le_factorial (m := k) (n := m)
    rw [Nat.add_comm k m] at this
    exact_mod_cast this
  have hk : (0 : ℝ) < (k ! : ℕ) := by exact_mod_cast Nat.factorial_pos k
  have hm : (0 : ℝ) < (m ! : ℕ) := by exact_mod_cast Nat.factorial_pos m
  have hk1 : (0 : ℝ) < (k : ℝ) + 1 := by positivity
  have e : (‖z‖ / 2) ^ k / k ! * ((‖s‖ * (‖z‖ / 2) ^ 2 / (k + 1)) ^ m / m !) =
      ‖s‖ ^ m * (‖z‖ / 2) ^ (2 * m + k) / (m ! * (k ! * ((k : ℝ) + 1) ^ m)) := by
    rw [div_pow (‖s‖ * (‖z‖ / 2) ^ 2), mul_pow ‖s‖, pow_add, pow_mul]
    field_simp
  rw [e]
  refine div_le_div_of_nonneg_left (by positivity) (by positivity) ?_
  exact mul_le_mul_of_nonneg_left h1 hm.le

theorem bterm_summable (s z : ℂ) (k : ℕ) : Summable (bterm s z k) := by
  refine Summable.of_norm_bounded ?_ (bterm_norm s z k)
  exact (Real.summable_pow_div_factorial _).mul_left _

theorem bfun_norm (s z : ℂ) (k : ℕ) :
    ‖bfun s z k‖ ≤ (‖z‖ / 2) ^ k / k ! * Real.exp (‖s‖ * (‖z‖ / 2) ^ 2 / (k + 1)) := by
  refine tsum_of_norm_bounded ?_ (bterm_norm s z k)
  refine HasSum.mul_left _ ?_
  have := NormedSpace.expSeries_div_hasSum_exp (𝔸 := ℝ) (‖s‖ * (‖z‖ / 2) ^ 2 / (k + 1))
  rwa [← Real.exp_eq_exp_ℝ] at this

/-- Pairs of exponents by their difference and the smaller of the two. -/
def diagEquiv : ℤ × ℕ ≃ ℕ × ℕ where
  toFun p := (p.2 + p.1.toNat, p.2 + (-p.1).toNat)
  invFun q := ((q.1 : ℤ) - q.2, min q.1 q.2)
  left_inv p := by
    obtain ⟨k, m⟩ := p
    ext
    · dsimp only
      omega
    · dsimp only
      omega
  right_inv q := by
    obtain ⟨a, b⟩ := q
    ext
    · dsimp only
      omega
    · dsimp only
      omega

theorem exp_hasSum (a : ℂ) : HasSum (fun n : ℕ => a ^ n / n !) (Complex.exp a) := by
  have := NormedSpace.expSeries_div_hasSum_exp (𝔸 := ℂ) a
  rwa [← Complex.exp_eq_exp_ℂ] at this

theorem exp_mul_hasSum (a b : ℂ) :
    HasSum (fun p : ℕ × ℕ => a ^ p.1 / p.1 ! * (b ^ p.2 / p.2 !)) (Complex.exp a * Complex.exp b) := by
  have ha := exp_hasSum a
  have hb := exp_hasSum b
  have ha' : Summable fun n : ℕ => ‖a ^ n / (n ! : ℂ)‖ := NormedSpace.norm_expSeries_div_summable a
  have hb' : Summable fun n : ℕ => ‖b ^ n / (n ! : ℂ)‖ := NormedSpace.norm_expSeries_div_summable b
  have h := (summable_mul_of_summable_norm ha' hb')
  have e := tsum_mul_tsum_of_summable_norm ha' hb'
  rw [ha.tsum_eq, hb.tsum_eq] at e
  rw [e]
  exact h.hasSum

/-- The coefficient of the power `k` of `u`. -/
noncomputable def acoef (e z u : ℂ) (k : ℤ) : ℂ := e ^ k.natAbs * bfun (e ^ 2) z k.natAbs * u ^ k

theorem fiber_pow (e z u : ℂ) (hu : u ≠ 0) (m n : ℕ) :
    (e * z / 2 * u) ^ (m + n) * (e * z / 2 * u⁻¹) ^ m =
      e ^ n * ((e ^ 2) ^ m * (z / 2) ^ (2 * m + n)) * u ^ n := by
  have h1 : u ^ m * (u⁻¹) ^ m = 1 := by rw [← mul_pow, mul_inv_cancel₀ hu, one_pow]
  have e1 : e * z / 2 = e * (z / 2) := by ring
  rw [e1, mul_pow _ u, mul_pow _ u⁻¹, pow_add u m n, mul_pow, mul_pow, ← pow_mul]
  linear_combination e ^ (m + n) * (z / 2) ^ (m + n) * u ^ n * e ^ m * (z / 2) ^ m * h1

theorem fiber (e z u : ℂ) (hu : u ≠ 0) (k : ℤ) :
    HasSum (fun m : ℕ => (e * z / 2 * u) ^ (m + k.toNat) / (m + k.toNat)! *
      ((e * z / 2 * u⁻¹) ^ (m + (-k).toNat) / (m + (-k).toNat)!)) (acoef e z u k) := by
  have h := ((bterm_summable (e ^ 2) z k.natAbs).hasSum.mul_left (e ^ k.natAbs)).mul_right (u ^ k)
  refine h.congr_fun (fun m => ?_)
  unfold bterm
  rcases Int.eq_nat_or_neg k with ⟨n, rfl | rfl⟩
  · have e1 : (n : ℤ).toNat = n := rfl
    have e2 : (-(n : ℤ)).toNat = 0 := by omega
    have h := fiber_pow e z u hu m n
    rw [e1, e2, Int.natAbs_natCast, zpow_natCast, add_zero, _root_.div_mul_div_comm, h, mul_comm ((m + n)! : ℂ)]
    ring
  · have e1 : (-(n : ℤ)).toNat = 0 := by omega
    have e2 : (-(-(n : ℤ))).toNat = n := by omega
    have h := fiber_pow e z u⁻¹ (inv_ne_zero hu) m n
    rw [inv_inv] at h
    rw [e1, e2, Int.natAbs_neg, Int.natAbs_natCast, zpow_neg, zpow_natCast, add_zero, _root_.div_mul_div_comm,
      mul_comm ((e * z / 2 * u) ^ m), h, inv_pow]
    ring

theorem laurent (e z u : ℂ) (hu : u ≠ 0) :
    HasSum (acoef e z u) (Complex.exp (e * z / 2 * u) * Complex.exp (e * z / 2 * u⁻¹)) := by
  have h := exp_mul_hasSum (e * z / 2 * u) (e * z / 2 * u⁻¹)
  have h2 := (diagEquiv.hasSum_iff).2 h
  exact h2.prod_fiberwise (fun k => fiber e z u hu k)

/-- The terms of the expansion. -/
noncomputable def aterm (e z x : ℂ) (k : ℕ) : ℂ :=
  (if k = 0 then 1 else 2) * bfun (e ^ 2) z k * e ^ k * (Chebyshev.T ℂ (k : ℤ)).eval x

/-- The expansion of the exponential, for all complex numbers. -/
theorem anger (e z x : ℂ) : HasSum (aterm e z x) (Complex.exp (e * z * x)) := by
  obtain ⟨θ, rfl⟩ := Complex.cos_surjective x
  have hu : Complex.exp (θ * Complex.I) ≠ 0 := Complex.exp_ne_zero _
  have h := (laurent e z _ hu).nat_add_neg
  have h0 : HasSum (fun n : ℕ => if n = 0 then acoef e z (Complex.exp (θ * Complex.I)) 0 else 0)
      (acoef e z (Complex.exp (θ * Complex.I)) 0) := hasSum_ite_eq 0 _
  have h1 := h.sub h0
  rw [add_sub_cancel_right] at h1
  have e1 : Complex.exp (e * z / 2 * Complex.exp (θ * Complex.I)) *
      Complex.exp (e * z / 2 * (Complex.exp (θ * Complex.I))⁻¹) = Complex.exp (e * z * Complex.cos θ) := by
    rw [← Complex.exp_add, ← Complex.exp_neg, Complex.cos]
    congr 1
    rw [neg_mul]
    ring
  rw [e1] at h1
  refine h1.congr_fun (fun n => ?_)
  unfold aterm acoef
  rw [Chebyshev.T_complex_cos]
  by_cases hn : n = 0
  · subst hn
    simp
  · rw [if_neg hn, if_neg hn, sub_zero, Int.natAbs_neg, Int.natAbs_natCast, zpow_neg, zpow_natCast,
      ← Complex.exp_nat_mul, ← Complex.exp_neg, Complex.cos]
    push_cast
    rw [show (n : ℂ) * (θ * Complex.I) = (n : ℂ) * θ * Complex.I by ring,
      show -((n : ℂ) * θ * Complex.I) = -((n : ℂ) * θ) * Complex.I by ring]
    ring

/-- The Chebychev polynomials are bounded by one between minus one and one. -/
theorem cheb_le (x : ℝ) (h1 : -1 ≤ x) (h2 : x ≤ 1) (k : ℕ) :
    ‖(Chebyshev.T ℂ (k : ℤ)).eval (x : ℂ)‖ ≤ 1 := by
  have e : (x : ℂ) = Complex.cos ((Real.arccos x : ℝ) : ℂ) := by
    rw [← Complex.ofReal_cos, Real.cos_arccos h1 h2]
  rw [e, Chebyshev.T_complex_cos]
  have : (((k : ℤ) : ℂ) * ((Real.arccos x : ℝ) : ℂ)) = (((k : ℝ) * Real.arccos x : ℝ) : ℂ) := by push_cast; rfl
  rw [this, ← Complex.ofReal_cos, Complex.norm_real]
  exact Real.abs_cos_le_one _

/-- The bound for the rest behind `n` terms. -/
noncomputable def restBound (r : ℝ) (n : ℕ) : ℝ := 2 * (r ^ n / n !) * Real.exp (r + r ^ 2 / (n + 1))

theorem aterm_norm (e z : ℂ) (he : ‖e‖ = 1) (x : ℝ) (h1 : -1 ≤ x) (h2 : x ≤ 1) (n k : ℕ) :
    ‖aterm e z x (k + n)‖ ≤ 2 * ((‖z‖ / 2) ^ n / n !) * Real.exp ((‖z‖ / 2) ^ 2 / (n + 1)) *
      ((‖z‖ / 2) ^ k / k !) := by
  unfold aterm
  rw [norm_mul, norm_mul, norm_mul, norm_pow, he, one_pow, mul_one]
  have hb := bfun_norm (e ^ 2) z (k + n)
  rw [norm_pow, he, one_pow, one_mul] at hb
  have hT := cheb_le x h1 h2 (k + n)
  have h2' : ‖(if k + n = 0 then 1 else 2 : ℂ)‖ ≤ 2 := by
    split_ifs <;> simp
  have hz : 0 ≤ ‖z‖ / 2 := by positivity
  have hfac : ((n ! : ℕ) : ℝ) * (k ! : ℕ) ≤ ((k + n)! : ℕ) := by
    have := Nat.le_of_dvd (Nat.factorial_pos _) (Nat.factorial_mul_factorial_dvd_factorial_add n k)
    rw [Nat.add_comm n k] at this
    exact_mod_cast this
  have hb2 : ‖bfun (e ^ 2) z (k + n)‖ ≤
      ((‖z‖ / 2) ^ n / n !) * Real.exp ((‖z‖ / 2) ^ 2 / (n + 1)) * ((‖z‖ / 2) ^ k / k !) := by
    refine hb.trans ?_
    have hp : (‖z‖ / 2) ^ (k + n) / ((k + n)! : ℕ) ≤ ((‖z‖ / 2) ^ n / n !) * ((‖z‖ / 2) ^ k / k !) := by
      rw [_root_.div_mul_div_comm, pow_add, mul_comm ((‖z‖ / 2) ^ k)]
      exact div_le_div_of_nonneg_left (by positivity) (by positivity) hfac
    have hx : Real.exp ((‖z‖ / 2) ^ 2 / ((k + n : ℕ) + 1)) ≤ Real.exp ((‖z‖ / 2) ^ 2 / (n + 1)) := by
      refine Real.exp_le_exp.2 (div_le_div_of_nonneg_left (by positivity) (by positivity) ?_)
      push_cast
      linarith [(Nat.cast_nonneg k : (0 : ℝ) ≤ k)]
    calc _ ≤ ((‖z‖ / 2) ^ n / n !) * ((‖z‖ / 2) ^ k / k !) * Real.exp ((‖z‖ / 2) ^ 2 / (n + 1)) :=
          mul_le_mul hp hx (Real.exp_pos _).le (by positivity)
      _ = _ := by ring
  calc _ ≤ 2 * (((‖z‖ / 2) ^ n / n !) * Real.exp ((‖z‖ / 2) ^ 2 / (n + 1)) * ((‖z‖ / 2) ^ k / k !)) * 1 := by
        refine mul_le_mul (mul_le_mul h2' hb2 (norm_nonneg _) (by norm_num)) hT (norm_nonneg _) (by positivity)
    _ = _ := by ring

/-- The error of the first `n` terms. -/
theorem anger_error (e z : ℂ) (he : ‖e‖ = 1) (x : ℝ) (h1 : -1 ≤ x) (h2 : x ≤ 1) (n : ℕ) :
    ‖∑ k ∈ Finset.range n, aterm e z x k - Complex.exp (e * z * x)‖ ≤ restBound (‖z‖ / 2) n := by
  have h := anger e z x
  have hs := h.summable.sum_add_tsum_nat_add n
  rw [h.tsum_eq] at hs
  rw [← hs, sub_add_cancel_left, norm_neg]
  refine tsum_of_norm_bounded ?_ (aterm_norm e z he x h1 h2 n)
  have := (NormedSpace.expSeries_div_hasSum_exp (𝔸 := ℝ) (‖z‖ / 2)).mul_left
    (2 * ((‖z‖ / 2) ^ n / n !) * Real.exp ((‖z‖ / 2) ^ 2 / (n + 1)))
  rw [← Real.exp_eq_exp_ℝ] at this
  have e2 : restBound (‖z‖ / 2) n = 2 * ((‖z‖ / 2) ^ n / n !) * Real.exp ((‖z‖ / 2) ^ 2 / (n + 1)) *
      Real.exp (‖z‖ / 2) := by
    unfold restBound
    rw [Real.exp_add]
    ring
  rw [e2]
  exact this

end QDng.Chexp
