import Mathlib.Tactic.Linarith
import Mathlib.Tactic.NormNum
import Mathlib.Tactic.Positivity
import Mathlib.Tactic.Ring
import Verif.RamSeed.Model

/-!
Properties of the energy bounds of the Raman operator and of the seed of the quantum jump operator.
-/

namespace QDng.RamSeed

theorem le_vecMax : ∀ (l : List ℝ) (d : ℝ), d ≤ vecMax d l ∧ ∀ x ∈ l, x ≤ vecMax d l := by
  intro l
  induction l with
  | nil => intro d; exact ⟨le_refl _, fun x h => (by cases h)⟩
  | cons y l ih =>
    intro d
    unfold vecMax
    by_cases h : y > d
    · rw [if_pos h]
      refine ⟨le_trans (le_of_lt h) (ih y).1, fun x hx => ?_⟩
      rcases List.mem_cons.1 hx with hx | hx
      · rw [hx]; exact (ih y).1
      · exact (ih y).2 x hx
    · rw [if_neg h]
      refine ⟨(ih d).1, fun x hx => ?_⟩
      rcases List.mem_cons.1 hx with hx | hx
      · rw [hx]; exact le_trans (not_lt.1 h) (ih d).1
      · exact (ih d).2 x hx

theorem mem_le_vecMax (d : ℝ) (l : List ℝ) (x : ℝ) (h : x ∈ d :: l) : x ≤ vecMax d l := by
  rcases List.mem_cons.1 h with h | h
  · rw [h]; exact (le_vecMax l d).1
  · exact (le_vecMax l d).2 x h

/-- **C327 (part: the upper bound, if no value is negative).**  At every point and for all values of the fields the energy is
not above `Emax`. -/
theorem C327_partial (r : Raman) (ha : ∀ x ∈ r.a0 :: r.a, 0 ≤ x) (he : ∀ y ∈ r.e0 :: r.e, 0 ≤ y)
    (hf : ∀ z ∈ r.f0 :: r.f, 0 ≤ z) (x y z : ℝ) (hx : x ∈ r.a0 :: r.a) (hy : y ∈ r.e0 :: r.e) (hz : z ∈ r.f0 :: r.f) :
    factor x y z ≤ emax r := by
  have h1 : 0 ≤ vecMax r.a0 r.a := le_trans (ha x hx) (mem_le_vecMax _ _ _ hx)
  have h2 : 0 ≤ vecMax r.e0 r.e := le_trans (he y hy) (mem_le_vecMax _ _ _ hy)
  have h3 : 0 ≤ vecMax r.f0 r.f := le_trans (hf z hz) (mem_le_vecMax _ _ _ hz)
  have h4 : 0 ≤ emax r := by unfold emax; positivity
  have h5 : 0 ≤ x * (y * z) := mul_nonneg (ha x hx) (mul_nonneg (he y hy) (hf z hz))
  have h6 : factor x y z = -(1 / 2) * (x * (y * z)) := by unfold factor; ring
  rw [h6]
  linarith

/-- **C327 is false for the lower bound**: whenever the polarisability and both fields are positive the energy is below
`Emin`. -/
theorem C327_violated_lower (r : Raman) (x y z : ℝ) (hx : 0 < x) (hy : 0 < y) (hz : 0 < z) :
    factor x y z < emin r := by
  have h5 : 0 < x * (y * z) := by positivity
  have h6 : factor x y z = -(1 / 2) * (x * (y * z)) := by unfold factor; ring
  rw [h6]
  unfold emin
  linarith

/-- **C327 is false for the upper bound**: in the second time step the first field has the value `-m` and the second one `m`;
the largest value of the first field is only `k`, less than `m`, so that the energy exceeds `Emax`. -/
theorem C327_violated_upper (x k m : ℝ) (hx : 0 < x) (hk : 0 < k) (hm : k < m) :
    emax ⟨x, [], k, [-m], -k, [m]⟩ < factor x (-m) m := by
  have n1 : ¬ (-m > k) := by intro h; linarith
  have n2 : m > -k := by linarith
  have e2 : emax ⟨x, [], k, [-m], -k, [m]⟩ = 1 / 2 * (x * (k * m)) := by
    simp only [emax, vecMax, if_neg n1, if_pos n2]
    ring
  have p2 : k * m < m * m := mul_lt_mul_of_pos_right hm (lt_trans hk hm)
  have q2 := mul_lt_mul_of_pos_left p2 hx
  have f2 : factor x (-m) m = 1 / 2 * (x * (m * m)) := by unfold factor; ring
  rw [e2, f2]
  linarith

/-- **C328 (part).**  Different seeds below 2⁴⁸ start the random numbers differently. -/
theorem C328_partial (s t : Int) (hs : 0 ≤ s) (hs2 : s < 2 ^ 48) (ht : 0 ≤ t) (ht2 : t < 2 ^ 48)
    (h : seedWords s = seedWords t) : s = t := by
  unfold seedWords at h
  rw [if_neg (by omega), if_neg (by omega)] at h
  simp only [Option.some.injEq, Prod.mk.injEq] at h
  omega

/-- **C328, the words are the seed**: together they give back the seed, each fits into 16 bits. -/
theorem C328_words_partial (s : Int) (hs : 0 ≤ s) (hs2 : s < 2 ^ 48) :
    ∃ a b c, seedWords s = some (a, b, c) ∧ a < 2 ^ 16 ∧ b < 2 ^ 16 ∧ c < 2 ^ 16
      ∧ s = a + 2 ^ 16 * b + 2 ^ 32 * c := by
  refine ⟨_, _, _, by unfold seedWords; rw [if_neg (by omega)], ?_, ?_, ?_, ?_⟩ <;> omega

/-- **C328, refusal**: exactly the negative seeds are refused. -/
theorem C328_refused (s : Int) : seedWords s = none ↔ s < 0 := by
  unfold seedWords
  by_cases h : s < 0
  · simp [h]
  · simp [h]

/-- **C328 is false from 2⁴⁸ on**: seeds that differ by 2⁴⁸ give the same random numbers. -/
theorem C328_violated (s : Int) (hs : 0 ≤ s) : seedWords (s + 2 ^ 48) = seedWords s := by
  unfold seedWords
  rw [if_neg (by omega), if_neg (by omega)]
  simp only [Option.some.injEq, Prod.mk.injEq]
  refine ⟨?_, ?_, ?_⟩ <;> omega

/-! ### The hypotheses are met -/

example : ∃ r : Raman, (∀ x ∈ r.a0 :: r.a, 0 ≤ x) ∧ (∀ y ∈ r.e0 :: r.e, 0 ≤ y) ∧ (∀ z ∈ r.f0 :: r.f, 0 ≤ z)
    ∧ (2 : ℝ) ∈ r.a0 :: r.a ∧ (3 : ℝ) ∈ r.e0 :: r.e ∧ factor 2 3 3 < emin r := by
  refine ⟨⟨1, [2], 0, [3], 3, [1]⟩, ?_, ?_, ?_, by simp, by simp,
    C327_violated_lower _ 2 3 3 (by norm_num) (by norm_num) (by norm_num)⟩ <;> simp

example : seedWords 0x123456789ABC = some (0x9ABC, 0x5678, 0x1234) := by decide

end QDng.RamSeed
