import Verif.Chexp.Lemmas
import Mathlib.Analysis.SpecificLimits.Normed
import Mathlib.Analysis.Complex.ExponentialBounds
import Mathlib.Topology.Algebra.InfiniteSum.NatInt
import Mathlib.Topology.Order.IntermediateValue
import Mathlib.Analysis.Normed.Group.FunctionSeries

/-
Values of Bessel functions: recurrence, decay beyond the argument, bounds, continuity.
-/

namespace QDng.Chexp

open Filter Topology Nat

/-- The size of a term of the series. -/
noncomputable def jt (k : ℕ) (x : ℝ) (m : ℕ) : ℝ := (x / 2) ^ (2 * m + k) / (m ! * (m + k)!)

theorem j_hasSum (k : ℕ) (x : ℝ) : HasSum (fun m => (-1) ^ m * jt k x m) (besselJ k x) := by
  have h := (bterm_summable (-1) (x : ℂ) k)
  have h2 : Summable (fun m => (-1 : ℝ) ^ m * jt k x m) := by
    rw [← Complex.summable_ofReal]
    refine h.congr (fun m => ?_)
    unfold bterm jt
    push_cast
    ring
  have e : besselJ k x = ∑' m, (-1 : ℝ) ^ m * jt k x m := by
    unfold besselJ jt
    exact tsum_congr (fun m => by ring)
  rw [e]
  exact h2.hasSum

theorem jt_nonneg (k : ℕ) (x : ℝ) (hx : 0 ≤ x) (m : ℕ) : 0 ≤ jt k x m := by
  unfold jt
  positivity

theorem jt_succ (k : ℕ) (x : ℝ) (m : ℕ) :
    jt k x (m + 1) = jt k x m * ((x / 2) ^ 2 / ((m + 1) * (m + k + 1))) := by
  unfold jt
  rw [show m + 1 + k = (m + k) + 1 by ring, Nat.factorial_succ, Nat.factorial_succ,
    show 2 * (m + 1) + k = 2 * m + k + 2 by ring, pow_add]
  have h1 : ((m ! : ℕ) : ℝ) ≠ 0 := by positivity
  have h2 : (((m + k)! : ℕ) : ℝ) ≠ 0 := by positivity
  push_cast
  field_simp

theorem jt_antitone (k : ℕ) (x : ℝ) (hx : 0 ≤ x) (h : (x / 2) ^ 2 ≤ k + 1) : Antitone (jt k x) := by
  refine antitone_nat_of_succ_le (fun m => ?_)
  rw [jt_succ]
  refine mul_le_of_le_one_right (jt_nonneg k x hx m) ?_
  rw [div_le_one (by positivity)]
  have hm : (0 : ℝ) ≤ m := m.cast_nonneg
  have hk : (0 : ℝ) ≤ k := k.cast_nonneg
  nlinarith [mul_nonneg hm hk, mul_nonneg hm hm]

theorem j_le (k : ℕ) (x : ℝ) (hx : 0 ≤ x) (h : (x / 2) ^ 2 ≤ k + 1) (n : ℕ) :
    besselJ k x ≤ ∑ i ∈ Finset.range (2 * n + 1), (-1) ^ i * jt k x i :=
  Antitone.tendsto_le_alternating_series (j_hasSum k x).tendsto_sum_nat (jt_antitone k x hx h) n

theorem le_j (k : ℕ) (x : ℝ) (hx : 0 ≤ x) (h : (x / 2) ^ 2 ≤ k + 1) (n : ℕ) :
    ∑ i ∈ Finset.range (2 * n), (-1) ^ i * jt k x i ≤ besselJ k x :=
  Antitone.alternating_series_le_tendsto (j_hasSum k x).tendsto_sum_nat (jt_antitone k x hx h) n

/-- The recurrence of the Bessel functions. -/
theorem j_recurrence (k : ℕ) (x : ℝ) (hx : 0 < x) :
    besselJ k x + besselJ (k + 2) x = 2 * (k + 1) / x * besselJ (k + 1) x := by
  have h0 := j_hasSum k x
  have h1 := (j_hasSum (k + 1) x).mul_left (2 * ((k : ℝ) + 1) / x)
  have h2 := (j_hasSum (k + 2) x)
  have h3 := h1.sub h0
  have h5 := (hasSum_nat_add_iff' (f := fun m => 2 * ((k : ℝ) + 1) / x * ((-1 : ℝ) ^ m * jt (k + 1) x m) -
    (-1) ^ m * jt k x m) 1).2 h3
  have e0 : ∑ i ∈ Finset.range 1, (2 * ((k : ℝ) + 1) / x * ((-1 : ℝ) ^ i * jt (k + 1) x i) -
      (-1) ^ i * jt k x i) = 0 := by
    rw [Finset.sum_range_one]
    unfold jt
    rw [show 0 + (k + 1) = k + 1 by ring, Nat.factorial_succ, show 0 + k = k by ring, pow_succ]
    have h2 : ((k ! : ℕ) : ℝ) ≠ 0 := by positivity
    push_cast
    rw [Nat.factorial_zero]
    field_simp
    simp only [mul_zero, zero_add]
    ring
  have e1 : (fun m => (-1 : ℝ) ^ m * jt (k + 2) x m) = fun m : ℕ =>
      2 * ((k : ℝ) + 1) / x * ((-1 : ℝ) ^ (m + 1) * jt (k + 1) x (m + 1)) - (-1) ^ (m + 1) * jt k x (m + 1) := by
    funext m
    unfold jt
    rw [show m + (k + 2) = (m + k + 1) + 1 by ring, show m + 1 + (k + 1) = (m + k + 1) + 1 by ring,
      show m + 1 + k = m + k + 1 by ring, Nat.factorial_succ (m + k + 1), Nat.factorial_succ m,
      show 2 * m + (k + 2) = 2 * m + k + 2 by ring, show 2 * (m + 1) + (k + 1) = 2 * m + k + 2 + 1 by ring,
      show 2 * (m + 1) + k = 2 * m + k + 2 by ring, pow_succ (x / 2) (2 * m + k + 2), pow_succ (-1 : ℝ) m]
    have h1 : ((m ! : ℕ) : ℝ) ≠ 0 := by positivity
    have h2 : (((m + k + 1)! : ℕ) : ℝ) ≠ 0 := by positivity
    push_cast
    have h3 : (m : ℝ) + k + 1 + 1 ≠ 0 := by positivity
    field_simp
    ring
  rw [e0, sub_zero, ← e1] at h5
  have := h5.unique h2
  linarith

/-- For large order the functions are positive and decrease. -/
theorem j_large (x : ℝ) (hx : 0 < x) (k : ℕ) (hk : x / 2 + (x / 2) ^ 2 ≤ k + 1) :
    0 ≤ besselJ (k + 1) x ∧ besselJ (k + 1) x ≤ besselJ k x := by
  have hr : 0 < x / 2 := by positivity
  have hk0 : (0 : ℝ) ≤ k := k.cast_nonneg
  have a := le_j (k + 1) x hx.le (by push_cast; linarith) 0
  have b := j_le (k + 1) x hx.le (by push_cast; linarith) 0
  have c := le_j k x hx.le (by linarith) 1
  simp only [mul_zero, Finset.range_zero, Finset.sum_empty] at a
  refine ⟨a, b.trans (le_trans ?_ c)⟩
  rw [show 2 * 0 + 1 = 1 by rfl, Finset.sum_range_one, show 2 * 1 = 1 + 1 by rfl, Finset.sum_range_succ,
    Finset.sum_range_one, jt_succ k x 0]
  have e : jt (k + 1) x 0 = jt k x 0 * (x / 2 / (k + 1)) := by
    unfold jt
    rw [show 0 + (k + 1) = k + 1 by ring, Nat.factorial_succ, show 0 + k = k by ring, pow_succ]
    have h2 : ((k ! : ℕ) : ℝ) ≠ 0 := by positivity
    push_cast
    field_simp
  rw [e]
  have hp := jt_nonneg k x hx.le 0
  have h1 : x / 2 / ((k : ℝ) + 1) + (x / 2) ^ 2 / ((k : ℝ) + 1) ≤ 1 := by
    rw [← add_div, div_le_one (by positivity)]
    exact hk
  have h2 := mul_le_mul_of_nonneg_left h1 hp
  simp only [Nat.cast_zero, zero_add, one_mul, pow_zero, pow_one]
  rw [mul_add] at h2
  linarith

/-- Beyond the argument the functions are positive and decrease. -/
theorem j_beyond (x : ℝ) (hx : 0 < x) (k : ℕ) (hk : x ≤ k + 1) :
    0 ≤ besselJ (k + 1) x ∧ besselJ (k + 1) x ≤ besselJ k x := by
  obtain ⟨K, hK⟩ := exists_nat_ge (x / 2 + (x / 2) ^ 2)
  have main : ∀ d k : ℕ, K ≤ k + d → x ≤ k + 1 → 0 ≤ besselJ (k + 1) x ∧ besselJ (k + 1) x ≤ besselJ k x := by
    intro d
    induction d with
    | zero =>
      intro k h _
      refine j_large x hx k ?_
      have : (K : ℝ) ≤ k := by exact_mod_cast h
      linarith
    | succ d ih =>
      intro k h hk
      obtain ⟨p1, p2⟩ := ih (k + 1) (by omega) (by push_cast; linarith)
      have hr := j_recurrence k x hx
      have h2 : 2 ≤ 2 * ((k : ℝ) + 1) / x := by
        rw [le_div_iff₀ hx]
        linarith
      have p3 : 0 ≤ besselJ (k + 1) x := p1.trans p2
      have := mul_le_mul_of_nonneg_right h2 p3
      exact ⟨p3, by linarith⟩
  exact main K k (by omega) hk

/-- Where two successive functions far enough beyond the argument agree up to `d`, all that follow are small. -/
theorem j_tail (x : ℝ) (hx : 0 < x) (d : ℝ) (k : ℕ) (hk : 3 / 2 * x ≤ k + 1)
    (h : |besselJ (k + 1) x - besselJ k x| ≤ d) (j : ℕ) :
    0 ≤ besselJ (k + 1 + j) x ∧ besselJ (k + 1 + j) x ≤ d / 2 ^ j := by
  have hpos : ∀ i : ℕ, 0 ≤ besselJ (k + 1 + i) x ∧ besselJ (k + 1 + i) x ≤ besselJ (k + i) x := by
    intro i
    have hi : (0 : ℝ) ≤ i := i.cast_nonneg
    have := j_beyond x hx (k + i) (by push_cast; linarith)
    rwa [show k + i + 1 = k + 1 + i by ring] at this
  refine ⟨(hpos j).1, ?_⟩
  induction j with
  | zero =>
    have hr := j_recurrence k x hx
    obtain ⟨p1, p2⟩ := hpos 0
    obtain ⟨q1, q2⟩ := hpos 1
    simp only [add_zero] at p1 p2 ⊢
    rw [show k + 1 + 1 = k + 2 by ring] at q1 q2
    have h2 : 3 ≤ 2 * ((k : ℝ) + 1) / x := by
      rw [le_div_iff₀ hx]
      linarith
    have h3 := mul_le_mul_of_nonneg_right h2 p1
    have h4 := (abs_le.1 h).1
    rw [pow_zero, div_one]
    linarith
  | succ j ih =>
    have hr := j_recurrence (k + j) x hx
    obtain ⟨p1, p2⟩ := hpos (j + 1)
    obtain ⟨q1, q2⟩ := hpos j
    have hr := j_recurrence (k + 1 + j) x hx
    obtain ⟨s1, s2⟩ := hpos (j + 2)
    rw [show k + 1 + (j + 2) = k + 1 + j + 2 by ring, show k + (j + 2) = k + 1 + j + 1 by ring] at s2
    rw [show k + 1 + (j + 1) = k + 1 + j + 1 by ring] at p1 ⊢
    have hj : (0 : ℝ) ≤ j := j.cast_nonneg
    have h2 : 3 ≤ 2 * (((k + 1 + j : ℕ) : ℝ) + 1) / x := by
      rw [le_div_iff₀ hx]
      push_cast
      linarith
    have h3 := mul_le_mul_of_nonneg_right h2 p1
    rw [pow_succ, ← div_div]
    linarith

/-- The functions depend continuously on the argument. -/
theorem j_continuous (k : ℕ) : ContinuousOn (besselJ k) (Set.Icc 0 2) := by
  have : besselJ k = fun x => ∑' m : ℕ, (-1 : ℝ) ^ m * jt k x m := by
    funext x
    exact (j_hasSum k x).tsum_eq.symm
  rw [this]
  refine continuousOn_tsum (u := fun m : ℕ => (1 : ℝ) ^ m / m !) (fun m => ?_) (Real.summable_pow_div_factorial 1)
    (fun m x hx => ?_)
  · unfold jt
    fun_prop
  · rw [norm_mul, norm_pow, norm_neg, norm_one, one_pow, one_mul, Real.norm_eq_abs,
      abs_of_nonneg (jt_nonneg k x hx.1 m)]
    unfold jt
    have h1 : (x / 2) ^ (2 * m + k) ≤ 1 := pow_le_one₀ (by linarith [hx.1]) (by linarith [hx.2])
    have h2 : (1 : ℝ) ≤ ((m + k)! : ℕ) := by exact_mod_cast Nat.one_le_iff_ne_zero.2 (Nat.factorial_ne_zero _)
    have h3 : (0 : ℝ) < (m ! : ℕ) := by positivity
    refine div_le_div₀ zero_le_one h1 h3 ?_
    nlinarith

/-- Somewhere between one and two the first two functions agree. -/
theorem j_crossing : ∃ z : ℝ, 1 < z ∧ z < 2 ∧ besselJ 0 z = besselJ 1 z := by
  have e : ∀ k, ContinuousOn (besselJ k) (Set.Icc 1 2) := fun k =>
    (j_continuous k).mono (Set.Icc_subset_Icc (by norm_num) le_rfl)
  have a1 := le_j 0 1 (by norm_num) (by norm_num) 1
  have a2 := j_le 1 1 (by norm_num) (by norm_num) 0
  have b1 := j_le 0 2 (by norm_num) (by norm_num) 1
  have b2 := le_j 1 2 (by norm_num) (by norm_num) 1
  norm_num [Finset.sum_range_succ, jt, Nat.factorial] at a1 a2 b1 b2
  have hivt := intermediate_value_Ioo' (f := fun x => besselJ 0 x - besselJ 1 x) (a := 1) (b := 2) (by norm_num)
    ((e 0).sub (e 1))
  obtain ⟨z, hz, hz2⟩ := hivt (show (0 : ℝ) ∈ _ from ⟨by linarith, by linarith⟩)
  exact ⟨z, hz.1, hz.2, by dsimp only at hz2; linarith⟩

/-- Between one and two the first function is well below one. -/
theorem j_zero_small (z : ℝ) (h1 : 1 ≤ z) (h2 : z ≤ 2) : besselJ 0 z ≤ 4 / 5 := by
  have a := j_le 0 z (by linarith) (by push_cast; nlinarith) 1
  norm_num [Finset.sum_range_succ, jt, Nat.factorial] at a
  have h3 : 0 ≤ (z - 1) := by linarith
  have h4 : 0 ≤ 2 - z := by linarith
  nlinarith [mul_nonneg h3 h4, mul_nonneg (mul_nonneg h3 h4) (sq_nonneg z), sq_nonneg z, sq_nonneg (z ^ 2)]

/-- The rest of the series is small where the set-up stopped beyond the argument. -/
theorem tail_error (e : ℂ) (he : ‖e‖ = 1) (he2 : e ^ 2 = -1) (z : ℝ) (hz : 0 < z) (d : ℝ) (k : ℕ)
    (hk : 3 / 2 * z ≤ k + 1) (h : |besselJ (k + 1) z - besselJ k z| ≤ d) (x : ℝ) (h1 : -1 ≤ x) (h2 : x ≤ 1) :
    ‖∑ i ∈ Finset.range (k + 2), aterm e z x i - Complex.exp (e * z * x)‖ ≤ 2 * d := by
  have hs := (hasSum_nat_add_iff' (f := aterm e z x) (k + 2)).2 (anger e z x)
  have hg : HasSum (fun j : ℕ => d * (1 / 2) ^ j) (d * 2) := hasSum_geometric_two.mul_left d
  rw [← norm_neg, neg_sub, mul_comm 2 d]
  refine hs.norm_le_of_bounded hg (fun j => ?_)
  unfold aterm
  rw [norm_mul, norm_mul, norm_mul, norm_pow, he, one_pow, mul_one, if_neg (by omega), he2, ← besselJ_eq,
    Complex.norm_real, Real.norm_eq_abs, Complex.norm_ofNat]
  have ht := cheb_le x h1 h2 (j + (k + 2))
  obtain ⟨p1, p2⟩ := j_tail z hz d k hk h (j + 1)
  rw [show k + 1 + (j + 1) = j + (k + 2) by ring] at p1 p2
  rw [abs_of_nonneg p1]
  have p3 : 2 * besselJ (j + (k + 2)) z ≤ d * (1 / 2) ^ j := by
    rw [pow_succ] at p2
    rw [one_div, inv_pow, ← div_eq_mul_inv]
    have : d / (2 ^ j * 2) = d / 2 ^ j / 2 := by rw [div_div]
    rw [this] at p2
    linarith
  exact (mul_le_of_le_one_right (by linarith) ht).trans p3

/-! ### The bound of the error for the number of terms estimated by the program -/

theorem factorial_lower (n : ℕ) : ((n : ℝ) + 1) ^ n ≤ Real.exp (n + 1) * n ! := by
  have h := Real.pow_div_factorial_le_exp ((n : ℝ) + 1) (by positivity) n
  rw [div_le_iff₀ (by positivity)] at h
  exact h

theorem estimate_bound (z : ℝ) (hz : 0 ≤ z) (n : ℕ) (hn : 10 ≤ n) (h : 20 * z ≤ n + 1) :
    errorBound z n ≤ 1 / 10 ^ 10 := by
  have hn1 : (0 : ℝ) < n + 1 := by positivity
  have hz2 : z / 2 ≤ ((n : ℝ) + 1) / 40 := by linarith
  have h1 : (z / 2) ^ n ≤ (((n : ℝ) + 1) / 40) ^ n := pow_le_pow_left₀ (by positivity) hz2 n
  have h2 : z / 2 + (z / 2) ^ 2 / (n + 1) ≤ ((n : ℝ) + 1) * (41 / 1600) := by
    have : (z / 2) ^ 2 / ((n : ℝ) + 1) ≤ ((n : ℝ) + 1) / 1600 := by
      rw [div_le_iff₀ hn1]
      have := pow_le_pow_left₀ (by positivity) hz2 2
      nlinarith
    linarith
  have h3 := factorial_lower n
  have hf : (0 : ℝ) < n ! := by positivity
  have h4 : (z / 2) ^ n / n ! ≤ Real.exp (n + 1) / 40 ^ n := by
    rw [div_le_div_iff₀ hf (by positivity)]
    calc (z / 2) ^ n * 40 ^ n ≤ (((n : ℝ) + 1) / 40) ^ n * 40 ^ n := by gcongr
      _ = ((n : ℝ) + 1) ^ n := by rw [div_pow]; field_simp
      _ ≤ _ := h3
  have hq : Real.exp 1 * Real.exp (41 / 1600) ≤ 2.8 := by
    have q1 := Real.exp_one_lt_d9
    have q2 : Real.exp (41 / 1600) ≤ 1.027 := by
      have := Real.one_sub_le_exp_neg (41 / 1600)
      rw [Real.exp_neg] at this
      have hp := Real.exp_pos (41 / 1600)
      rw [le_inv_comm₀ (by norm_num) hp] at this
      refine this.trans (by norm_num)
    have := mul_le_mul q1.le q2 (Real.exp_pos _).le (by norm_num)
    refine this.trans (by norm_num)
  have e1 : Real.exp ((n : ℝ) + 1) * Real.exp (((n : ℝ) + 1) * (41 / 1600)) =
      (Real.exp 1 * Real.exp (41 / 1600)) ^ (n + 1) := by
    rw [mul_pow, ← Real.exp_nat_mul, ← Real.exp_nat_mul]
    push_cast
    rw [mul_one]
  calc errorBound z n ≤ 2 * (Real.exp (n + 1) / 40 ^ n) * Real.exp (((n : ℝ) + 1) * (41 / 1600)) := by
        unfold errorBound
        gcongr
    _ = 2 * (Real.exp 1 * Real.exp (41 / 1600)) ^ (n + 1) / 40 ^ n := by rw [← e1]; ring
    _ ≤ 2 * 2.8 ^ (n + 1) / 40 ^ n := by gcongr
    _ = 5.6 * (7 / 100) ^ n := by
        rw [pow_succ, show (7 / 100 : ℝ) = 2.8 / 40 by norm_num, div_pow]
        ring
    _ ≤ 5.6 * (7 / 100) ^ 10 := by
        refine mul_le_mul_of_nonneg_left ?_ (by norm_num)
        exact pow_le_pow_of_le_one (by norm_num) (by norm_num) hn
    _ ≤ 1 / 10 ^ 10 := by norm_num

end QDng.Chexp
