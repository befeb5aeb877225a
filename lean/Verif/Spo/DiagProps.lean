import Verif.Spo.Spec
import Mathlib.Tactic.LinearCombination
import Mathlib.Tactic.FieldSimp
import Mathlib.Tactic.Positivity

/-
Property C162: the diagonalisation of symmetric 2x2 matrices.
-/

namespace QDng.Spo

open QDng.Deriv QDng.Common

theorem root_gap (a m : ℝ) (hm : m ≠ 0) :
    Real.sqrt (a * a + 4 * m * m) = 2 * |m| * Real.sqrt ((-a / (2 * m)) * (-a / (2 * m)) + 1) := by
  have h1 : a * a + 4 * m * m = (2 * |m|) ^ 2 * ((-a / (2 * m)) * (-a / (2 * m)) + 1) := by
    rw [mul_pow, sq_abs]
    field_simp
    ring
  rw [h1, Real.sqrt_mul (by positivity), Real.sqrt_sq (by positivity)]

/-- The tangent: `t` solves `t^2 + 2 theta t = 1`, with `t = ± r - theta`. -/
theorem tan_pos (θ : ℝ) (h : 0 ≤ θ) :
    1 / (|θ| + Real.sqrt (θ * θ + 1)) = Real.sqrt (θ * θ + 1) - θ := by
  have hr : 0 < Real.sqrt (θ * θ + 1) := Real.sqrt_pos.2 (by nlinarith [mul_self_nonneg θ])
  have hs : Real.sqrt (θ * θ + 1) * Real.sqrt (θ * θ + 1) = θ * θ + 1 :=
    Real.mul_self_sqrt (by nlinarith [mul_self_nonneg θ])
  rw [abs_of_nonneg h, div_eq_iff (by positivity)]
  linear_combination -hs

theorem tan_neg (θ : ℝ) (h : θ < 0) :
    -1 / (|θ| + Real.sqrt (θ * θ + 1)) = -Real.sqrt (θ * θ + 1) - θ := by
  have hr : 0 < Real.sqrt (θ * θ + 1) := Real.sqrt_pos.2 (by nlinarith [mul_self_nonneg θ])
  have hs : Real.sqrt (θ * θ + 1) * Real.sqrt (θ * θ + 1) = θ * θ + 1 :=
    Real.mul_self_sqrt (by nlinarith [mul_self_nonneg θ])
  rw [abs_of_neg h, div_eq_iff (by linarith)]
  linear_combination hs

/-- The normalisation. -/
theorem cos_sq (t : ℝ) : (1 / Real.sqrt (t * t + 1)) ^ 2 * (1 + t ^ 2) = 1 := by
  have h : 0 < t * t + 1 := by nlinarith [mul_self_nonneg t]
  rw [div_pow, Real.sq_sqrt h.le]
  field_simp
  ring

/-- **C162.**  The routine gives orthonormal eigenvectors and their eigenvalues for every symmetric
matrix, except for those with equal diagonal elements and a negative off diagonal element. -/
theorem C162_eigen_partial (m1 m2 m12 : ℝ) (h : m1 ≠ m2 ∨ 0 ≤ m12) :
    IsEigen m1 m2 m12 (diag22symm m1 m2 m12) := by
  by_cases h0 : m12 = 0
  · subst h0
    simp only [diag22symm, ne_eq, not_true_eq_false, if_false, IsEigen]
    norm_num
  · obtain ⟨θ, hθ⟩ : ∃ θ, θ = (m2 - m1) / (2 * m12) := ⟨_, rfl⟩
    have hθm : θ * m12 * 2 = m2 - m1 := by rw [hθ]; field_simp
    obtain ⟨r, hr⟩ : ∃ r, r = Real.sqrt (θ * θ + 1) := ⟨_, rfl⟩
    have hr2 : r * r = θ * θ + 1 := by rw [hr]; exact Real.mul_self_sqrt (by nlinarith [mul_self_nonneg θ])
    have hgap : Real.sqrt ((m1 - m2) * (m1 - m2) + 4 * m12 * m12) = 2 * |m12| * r := by
      rw [root_gap _ _ h0, hr, hθ, neg_sub]
    obtain ⟨t, ht⟩ : ∃ t, t = (if θ ≥ 0 then (1 : ℝ) else -1) / (|θ| + r) := ⟨_, rfl⟩
    obtain ⟨c, hc⟩ : ∃ c, c = 1 / Real.sqrt (t * t + 1) := ⟨_, rfl⟩
    have hc2 : c ^ 2 * (1 + t ^ 2) = 1 := by rw [hc]; exact cos_sq t
    have ht' : t = (if 0 ≤ θ then r else -r) - θ := by
      by_cases hp : 0 ≤ θ
      · rw [ht, if_pos hp, if_pos hp, hr, tan_pos θ hp]
      · rw [ht, if_neg hp, if_neg hp, hr, tan_neg θ (not_le.1 hp)]
    have hd : diag22symm m1 m2 m12 =
        if m2 < m1 then { v0 := 0.5 * (m1 + m2 - 2 * |m12| * r), v1 := 0.5 * (m1 + m2 + 2 * |m12| * r),
                          e00 := t * c, e01 := c, e10 := c, e11 := -t * c }
        else { v0 := 0.5 * (m1 + m2 - 2 * |m12| * r), v1 := 0.5 * (m1 + m2 + 2 * |m12| * r),
               e00 := c, e01 := t * c, e10 := -t * c, e11 := c } := by
      unfold diag22symm evals
      rw [if_pos h0, hgap]
      simp only [← hθ, ← hr, ← ht, ← hc]
    have hm2 : m2 = m1 + 2 * θ * m12 := by linear_combination -hθm
    rw [hd]
    by_cases hlt : m2 < m1
    · rw [if_pos hlt]
      have hts : t = r * (if 0 ≤ θ then 1 else -1) - θ := by rw [ht']; split_ifs <;> ring
      have hab : |m12| = -m12 * (if 0 ≤ θ then 1 else -1) := by
        rcases lt_or_gt_of_ne h0 with hm | hm
        · have : 0 ≤ θ := by rw [hθ]; exact div_nonneg_of_nonpos (by linarith) (by linarith)
          rw [abs_of_neg hm, if_pos this]; ring
        · have : θ < 0 := by rw [hθ]; exact div_neg_of_neg_of_pos (by linarith) (by linarith)
          rw [abs_of_pos hm, if_neg (not_le.2 this)]; ring
      obtain ⟨σ, hσ⟩ : ∃ σ : ℝ, σ = if 0 ≤ θ then 1 else -1 := ⟨_, rfl⟩
      have hσ2 : σ * σ = 1 := by rw [hσ]; split_ifs <;> norm_num
      rw [← hσ] at hts hab
      rw [hab]
      refine ⟨⟨?_, ?_, ?_⟩, ⟨?_, ?_⟩, ⟨?_, ?_⟩⟩
      · linear_combination hc2
      · linear_combination hc2
      · ring
      · rw [hts, hm2]; linear_combination (-c * m12 * r ^ 2) * hσ2 - c * m12 * hr2
      · rw [hts, hm2]; ring
      · rw [hts, hm2]; ring
      · rw [hts, hm2]; linear_combination (-c * m12 * r ^ 2) * hσ2 - c * m12 * hr2
    · rw [if_neg hlt]
      have hts : t = r * (if 0 ≤ θ then 1 else -1) - θ := by rw [ht']; split_ifs <;> ring
      have hab : |m12| = m12 * (if 0 ≤ θ then 1 else -1) := by
        rcases lt_or_gt_of_ne h0 with hm | hm
        · have hne : m1 < m2 := by
            rcases h with h | h
            · exact lt_of_le_of_ne (not_lt.1 hlt) h
            · linarith
          have : θ < 0 := by rw [hθ]; exact div_neg_of_pos_of_neg (by linarith) (by linarith)
          rw [abs_of_neg hm, if_neg (not_le.2 this)]; ring
        · have : 0 ≤ θ := by rw [hθ]; exact div_nonneg (by linarith) (by linarith)
          rw [abs_of_pos hm, if_pos this]; ring
      obtain ⟨σ, hσ⟩ : ∃ σ : ℝ, σ = if 0 ≤ θ then 1 else -1 := ⟨_, rfl⟩
      have hσ2 : σ * σ = 1 := by rw [hσ]; split_ifs <;> norm_num
      rw [← hσ] at hts hab
      rw [hab]
      refine ⟨⟨?_, ?_, ?_⟩, ⟨?_, ?_⟩, ⟨?_, ?_⟩⟩
      · linear_combination hc2
      · linear_combination hc2
      · ring
      · rw [hts, hm2]; ring
      · rw [hts, hm2]; linear_combination (-c * m12 * r ^ 2) * hσ2 - c * m12 * hr2
      · rw [hts, hm2]; linear_combination (-c * m12 * r ^ 2) * hσ2 - c * m12 * hr2
      · rw [hts, hm2]; ring

example : (1 : ℝ) ≠ 2 ∨ (0 : ℝ) ≤ -3 := Or.inl (by norm_num)

/-- **C162.**  For equal diagonal elements and a negative off diagonal element the eigenvectors are
assigned to the wrong eigenvalues. -/
theorem C162_violated_degenerate (m m12 : ℝ) (h : m12 < 0) : ¬ IsEigen m m m12 (diag22symm m m m12) := by
  intro hE
  have hd : diag22symm m m m12 =
      { v0 := 0.5 * (m + m - 2 * |m12|), v1 := 0.5 * (m + m + 2 * |m12|),
        e00 := 1 / Real.sqrt 2, e01 := 1 / Real.sqrt 2, e10 := -(1 / Real.sqrt 2),
        e11 := 1 / Real.sqrt 2 } := by
    unfold diag22symm evals
    have h4 : (m - m) * (m - m) + 4 * m12 * m12 = (2 * |m12|) ^ 2 := by
      rw [mul_pow, sq_abs]; ring
    rw [if_pos h.ne, h4, Real.sqrt_sq (by positivity)]
    norm_num
  rw [hd] at hE
  obtain ⟨_, ⟨h1, _⟩, _⟩ := hE
  have hs : 0 < 1 / Real.sqrt 2 := by positivity
  simp only [abs_of_neg h] at h1
  nlinarith

/-- **C162.**  The sum of the eigenvalues is the trace and their product the determinant, for all
matrices; with a non-zero off diagonal element they are in ascending order. -/
theorem C162_values (m1 m2 m12 : ℝ) :
    (diag22symm m1 m2 m12).v0 + (diag22symm m1 m2 m12).v1 = m1 + m2 ∧
      (diag22symm m1 m2 m12).v0 * (diag22symm m1 m2 m12).v1 = m1 * m2 - m12 ^ 2 ∧
      (m12 ≠ 0 → (diag22symm m1 m2 m12).v0 < (diag22symm m1 m2 m12).v1) := by
  by_cases h0 : m12 = 0
  · simp [diag22symm, h0]
  · have hp : 0 < (m1 - m2) * (m1 - m2) + 4 * m12 * m12 := by
      have : 0 < m12 * m12 := mul_self_pos.2 h0
      nlinarith [mul_self_nonneg (m1 - m2)]
    have hs := Real.mul_self_sqrt hp.le
    have hq := Real.sqrt_pos.2 hp
    have hv : (diag22symm m1 m2 m12).v0 = (evals m1 m2 m12).1 ∧
        (diag22symm m1 m2 m12).v1 = (evals m1 m2 m12).2 := by
      unfold diag22symm
      rw [if_pos h0]
      dsimp only
      split_ifs <;> exact ⟨rfl, rfl⟩
    rw [hv.1, hv.2]
    unfold evals
    dsimp only
    refine ⟨by ring, ?_, fun _ => by linarith⟩
    linear_combination (-0.25) * hs

/-- **C162.**  The vectors are orthonormal for all matrices, so the transformation conserves norms. -/
theorem C162_orthonormal (m1 m2 m12 : ℝ) :
    (diag22symm m1 m2 m12).e00 ^ 2 + (diag22symm m1 m2 m12).e10 ^ 2 = 1 ∧
    (diag22symm m1 m2 m12).e01 ^ 2 + (diag22symm m1 m2 m12).e11 ^ 2 = 1 ∧
    (diag22symm m1 m2 m12).e00 * (diag22symm m1 m2 m12).e01 +
      (diag22symm m1 m2 m12).e10 * (diag22symm m1 m2 m12).e11 = 0 := by
  by_cases h0 : m12 = 0
  · simp [diag22symm, h0]
  · obtain ⟨t, ht⟩ : ∃ t, t = (if (m2 - m1) / (2 * m12) ≥ 0 then (1 : ℝ) else -1) /
        (|(m2 - m1) / (2 * m12)| +
          Real.sqrt ((m2 - m1) / (2 * m12) * ((m2 - m1) / (2 * m12)) + 1)) := ⟨_, rfl⟩
    have hc := cos_sq t
    obtain ⟨c, hc'⟩ : ∃ c, c = 1 / Real.sqrt (t * t + 1) := ⟨_, rfl⟩
    rw [← hc'] at hc
    have key : (diag22symm m1 m2 m12).e00 ^ 2 + (diag22symm m1 m2 m12).e10 ^ 2 = c ^ 2 * (1 + t ^ 2) ∧
        (diag22symm m1 m2 m12).e01 ^ 2 + (diag22symm m1 m2 m12).e11 ^ 2 = c ^ 2 * (1 + t ^ 2) ∧
        (diag22symm m1 m2 m12).e00 * (diag22symm m1 m2 m12).e01 +
          (diag22symm m1 m2 m12).e10 * (diag22symm m1 m2 m12).e11 = 0 := by
      unfold diag22symm
      rw [if_pos h0]
      simp only [← ht, ← hc']
      by_cases hlt : m2 < m1
      · rw [if_pos hlt]
        refine ⟨?_, ?_, ?_⟩ <;> dsimp only <;> ring
      · rw [if_neg hlt]
        refine ⟨?_, ?_, ?_⟩ <;> dsimp only <;> ring
    rw [key.1, key.2.1, key.2.2]
    exact ⟨hc, hc, rfl⟩

end QDng.Spo
