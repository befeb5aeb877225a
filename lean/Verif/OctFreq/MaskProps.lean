import Mathlib.Analysis.SpecialFunctions.Trigonometric.Basic
import Mathlib.Tactic.FieldSimp
import Mathlib.Tactic.Linarith
import Mathlib.Tactic.Positivity
import Verif.OctFreq.Model
import Verif.OctFreq.Spec

/-
Properties of the frequency mask that is made from the parameters `freql` and `freqh`.
-/

namespace QDng.OctFreq

open QDng.GridFn (Num bwHigh bwLow mulNum)

noncomputable section

theorem cutoff_pos {N : Nat} (hN : 2 ≤ N) {dt f : ℝ} (hdt : 0 < dt) (hf : f ≠ 0) : 0 < cutoff N dt f := by
  unfold cutoff
  have h1 : (2 : ℝ) ≤ N := by exact_mod_cast hN
  have h2 : 0 < |f| := abs_pos.2 hf
  have h3 : (0 : ℝ) < (N : ℝ) - 1 := by linarith
  have := Real.pi_pos
  positivity

/-- The weight of the Butterworth functions. -/
def bw (x : ℝ) : ℝ := 1 / (1 + x ^ (2 * 100))

theorem bw_bounds (x : ℝ) : 0 ≤ bw x ∧ bw x ≤ 1 := by
  have h : 0 ≤ x ^ (2 * 100) := by rw [pow_mul]; positivity
  unfold bw
  refine ⟨by positivity, ?_⟩
  rw [div_le_one (by linarith)]
  linarith

theorem bw_half {x : ℝ} (hx : 0 ≤ x) : (bw x < 1 / 2 ↔ 1 < x) ∧ (1 / 2 ≤ bw x ↔ x ≤ 1) := by
  have h : 0 ≤ x ^ (2 * 100) := by positivity
  have h1 : 1 / 2 ≤ bw x ↔ x ≤ 1 := by
    unfold bw
    rw [div_le_div_iff₀ (by norm_num) (by linarith)]
    constructor
    · intro hh
      by_contra hc
      have : 1 < x ^ (2 * 100) := one_lt_pow₀ (not_le.1 hc) (by norm_num)
      linarith
    · intro hh
      have : x ^ (2 * 100) ≤ 1 := pow_le_one₀ hx hh
      linarith
  refine ⟨?_, h1⟩
  rw [← not_le, h1, not_le]

/-- The value of the mask at component `i` if both bounds are given or one of them, none of them zero. -/
def weight (N : Nat) (dt : ℝ) (freql freqh : Option ℝ) (i : Nat) : ℝ :=
  (match freql with
    | none => 1
    | some f => if i = 0 then 0 else bw (cutoff N dt f / i)) *
  (match freqh with
    | none => 1
    | some f => bw (i / cutoff N dt f))

theorem mask_value {N : Nat} (hN : 2 ≤ N) {dt : ℝ} (hdt : 0 < dt) {freql freqh : Option ℝ} (hl : freql ≠ some 0)
    (hh : freqh ≠ some 0) {m : Nat → Num} (h : buildMask N dt freql freqh = some m) (i : Nat) :
    m i = some (weight N dt freql freqh i) := by
  unfold buildMask at h
  split at h
  · cases h
  split at h
  · cases h
  split at h
  · cases h
  rw [Option.some.injEq] at h
  subst h
  have hhi : ∀ f, f ≠ 0 → bwHigh (cutoff N dt f) 100 i = some (if i = 0 then 0 else bw (cutoff N dt f / i)) := by
    intro f hf
    unfold bwHigh bw
    by_cases hi : i = 0
    · rw [if_pos hi, if_pos hi, if_neg (cutoff_pos hN hdt hf).ne']
    · rw [if_neg hi, if_neg hi]
  have hlo : ∀ f, f ≠ 0 → bwLow (cutoff N dt f) 100 i = some (bw (i / cutoff N dt f)) := by
    intro f hf
    unfold bwLow bw
    rw [if_neg (cutoff_pos hN hdt hf).ne']
  unfold weight maskOf
  cases freql with
  | none =>
    cases freqh with
    | none => simp
    | some g =>
      have hg : g ≠ 0 := fun e => hh (by rw [e])
      simp [hlo g hg, mulNum]
  | some f =>
    have hf : f ≠ 0 := fun e => hl (by rw [e])
    cases freqh with
    | none => simp [hhi f hf, mulNum]
    | some g =>
      have hg : g ≠ 0 := fun e => hh (by rw [e])
      simp [hhi f hf, hlo g hg, mulNum]

/-! ### C244 -/

/-- If no bound is zero, the mask is a number between zero and one everywhere. -/
theorem C244_bounds_partial {N : Nat} (hN : 2 ≤ N) {dt : ℝ} (hdt : 0 < dt) {freql freqh : Option ℝ} (hl : freql ≠ some 0)
    (hh : freqh ≠ some 0) {m : Nat → Num} (h : buildMask N dt freql freqh = some m) (i : Nat) :
    ∃ v, m i = some v ∧ 0 ≤ v ∧ v ≤ 1 := by
  refine ⟨_, mask_value hN hdt hl hh h i, ?_⟩
  unfold weight
  have h1 : ∀ a b : ℝ, 0 ≤ a ∧ a ≤ 1 → 0 ≤ b ∧ b ≤ 1 → 0 ≤ a * b ∧ a * b ≤ 1 := fun a b ha hb =>
    ⟨mul_nonneg ha.1 hb.1, mul_le_one₀ ha.2 hb.1 hb.2⟩
  refine h1 _ _ ?_ ?_
  · cases freql with
    | none => exact ⟨zero_le_one, le_rfl⟩
    | some f =>
      dsimp only
      split
      · exact ⟨le_rfl, zero_le_one⟩
      · exact bw_bounds _
  · cases freqh with
    | none => exact ⟨zero_le_one, le_rfl⟩
    | some f => exact bw_bounds _

/-- The bounds and the frequencies of the components: the position of a bound belongs to the frequency
`f (N - 1) / N`. -/
theorem cutoff_le {N : Nat} (hN : 2 ≤ N) {dt f : ℝ} (hdt : 0 < dt) (i : Nat) :
    cutoff N dt f ≤ i ↔ |f| * (((N : ℝ) - 1) / N) ≤ Spec.frequency N dt i := by
  unfold cutoff Spec.frequency
  have h1 : (0 : ℝ) < N := by exact_mod_cast (by omega : 0 < N)
  have hp := Real.pi_pos
  rw [div_le_iff₀ (by positivity), ← mul_div_assoc, div_le_div_iff₀ h1 (by positivity)]
  constructor
  · intro h
    have := mul_le_mul_of_nonneg_right h h1.le
    nlinarith
  · intro h
    have h2 : |f| * ((N : ℝ) - 1) * dt * N ≤ i * (2 * Real.pi) * N := by nlinarith
    exact le_of_mul_le_mul_right h2 h1

theorem le_cutoff {N : Nat} (hN : 2 ≤ N) {dt f : ℝ} (hdt : 0 < dt) (i : Nat) :
    (i : ℝ) ≤ cutoff N dt f ↔ Spec.frequency N dt i ≤ |f| * (((N : ℝ) - 1) / N) := by
  unfold cutoff Spec.frequency
  have h1 : (0 : ℝ) < N := by exact_mod_cast (by omega : 0 < N)
  have hp := Real.pi_pos
  rw [le_div_iff₀ (by positivity), ← mul_div_assoc, div_le_div_iff₀ (by positivity) h1]
  constructor
  · intro h
    have := mul_le_mul_of_nonneg_right h h1.le
    nlinarith
  · intro h
    have h2 : i * (2 * Real.pi) * N ≤ |f| * ((N : ℝ) - 1) * dt * N := by nlinarith
    exact le_of_mul_le_mul_right h2 h1

/-- A lower bound alone: exactly the components with a frequency of at least `freql (N - 1) / N` pass with at least
half of their value. -/
theorem C244_lower {N : Nat} (hN : 2 ≤ N) {dt f : ℝ} (hdt : 0 < dt) (hf : f ≠ 0) {m : Nat → Num}
    (h : buildMask N dt (some f) none = some m) (i : Nat) :
    ∃ v, m i = some v ∧ (1 / 2 ≤ v ↔ |f| * (((N : ℝ) - 1) / N) ≤ Spec.frequency N dt i) := by
  refine ⟨_, mask_value hN hdt (by simpa using hf) (by simp) h i, ?_⟩
  have hc := cutoff_pos hN hdt hf
  rw [← cutoff_le hN hdt i]
  unfold weight
  dsimp only
  rw [mul_one]
  by_cases hi : i = 0
  · subst hi
    rw [if_pos rfl]
    constructor
    · intro h; norm_num at h
    · intro h
      rw [Nat.cast_zero] at h
      linarith
  · have hi' : (0 : ℝ) < i := by exact_mod_cast Nat.pos_of_ne_zero hi
    rw [if_neg hi, (bw_half (by positivity)).2, div_le_one hi']

/-- An upper bound alone: exactly the components with a frequency of at most `freqh (N - 1) / N` pass with at least
half of their value. -/
theorem C244_upper {N : Nat} (hN : 2 ≤ N) {dt f : ℝ} (hdt : 0 < dt) (hf : f ≠ 0) {m : Nat → Num}
    (h : buildMask N dt none (some f) = some m) (i : Nat) :
    ∃ v, m i = some v ∧ (1 / 2 ≤ v ↔ Spec.frequency N dt i ≤ |f| * (((N : ℝ) - 1) / N)) := by
  refine ⟨_, mask_value hN hdt (by simp) (by simpa using hf) h i, ?_⟩
  have hc := cutoff_pos hN hdt hf
  rw [← le_cutoff hN hdt i]
  unfold weight
  dsimp only
  rw [one_mul, (bw_half (by positivity)).2, div_le_one hc]

/-- So a component with exactly the upper frequency does not pass, for every number of steps, time step and component:
its value is less than half. -/
theorem C244_violated_edge {N : Nat} (hN : 2 ≤ N) {dt : ℝ} (hdt : 0 < dt) (i : Nat) (hi : 0 < i) {m : Nat → Num}
    (h : buildMask N dt none (some (Spec.frequency N dt i)) = some m) : ∃ v, m i = some v ∧ v < 1 / 2 := by
  have h1 : (0 : ℝ) < N := by exact_mod_cast (by omega : 0 < N)
  have h2 : (0 : ℝ) < i := by exact_mod_cast hi
  have hp := Real.pi_pos
  have hpos : 0 < Spec.frequency N dt i := by unfold Spec.frequency; positivity
  obtain ⟨v, hv, hiff⟩ := C244_upper hN hdt hpos.ne' h i
  refine ⟨v, hv, not_le.1 fun hc => ?_⟩
  have h3 := hiff.1 hc
  rw [abs_of_pos hpos] at h3
  have h4 : ((N : ℝ) - 1) / N < 1 := by rw [div_lt_one h1]; linarith
  nlinarith

/-- A bound of zero is not the same as no bound: the constant component of the mask is not a number. -/
theorem C244_violated_zero (N : Nat) (dt : ℝ) : ∃ m, buildMask N dt (some 0) none = some m ∧ m 0 = none := by
  have hc : cutoff N dt 0 = 0 := by unfold cutoff; simp
  refine ⟨maskOf N dt (some 0) none, ?_, ?_⟩
  · unfold buildMask
    rw [if_neg (by simp), if_neg, if_neg (by simp)]
    rintro ⟨f, hf, hgt⟩
    rw [Option.some.injEq] at hf
    subst hf
    rw [hc] at hgt
    exact absurd hgt (not_lt.2 (Nat.cast_nonneg _))
  · unfold maskOf
    dsimp only
    rw [hc]
    unfold bwHigh mulNum
    simp

/-- A lower bound the mask is made for: 8 steps, component 2. -/
example : ∃ m, buildMask 8 1 (some (Spec.frequency 8 1 2)) none = some m := by
  have hp := Real.pi_pos
  have h2 : 0 ≤ Spec.frequency 8 1 2 := by unfold Spec.frequency; positivity
  refine ⟨maskOf 8 1 (some (Spec.frequency 8 1 2)) none, ?_⟩
  · unfold buildMask
    rw [if_neg (by simp), if_neg, if_neg (by simp)]
    rintro ⟨f, hf, hgt⟩
    rw [Option.some.injEq] at hf
    subst hf
    unfold cutoff at hgt
    rw [abs_of_nonneg h2] at hgt
    unfold Spec.frequency at hgt
    have h : 2 * Real.pi * ((2 : Nat) : ℝ) / (((8 : Nat) : ℝ) * 1) * (((8 : Nat) : ℝ) - 1) * 1 / (2 * Real.pi) = 7 / 4 := by
      push_cast
      field_simp
      norm_num
    rw [h] at hgt
    norm_num at hgt

/-- An upper bound the mask is made for, at component `i` up to the highest one: so the theorem about the edge speaks
about all components. -/
theorem C244_edge_accepted {N : Nat} (hN : 2 ≤ N) {dt : ℝ} (hdt : 0 < dt) (i : Nat) (hi : i ≤ N / 2) :
    ∃ m, buildMask N dt none (some (Spec.frequency N dt i)) = some m := by
  have hp := Real.pi_pos
  have h1 : (0 : ℝ) < N := by exact_mod_cast (by omega : 0 < N)
  have h2 : 0 ≤ Spec.frequency N dt i := by unfold Spec.frequency; positivity
  refine ⟨maskOf N dt none (some (Spec.frequency N dt i)), ?_⟩
  · unfold buildMask
    rw [if_neg (by simp), if_neg (by simp), if_neg]
    rintro ⟨f, hf, hgt⟩
    rw [Option.some.injEq] at hf
    subst hf
    unfold cutoff at hgt
    rw [abs_of_nonneg h2] at hgt
    unfold Spec.frequency at hgt
    have h : 2 * Real.pi * (i : ℝ) / ((N : ℝ) * dt) * ((N : ℝ) - 1) * dt / (2 * Real.pi) = i * (((N : ℝ) - 1) / N) := by
      field_simp
    rw [h] at hgt
    have h4 : ((N : ℝ) - 1) / N ≤ 1 := by rw [div_le_one h1]; linarith
    have h5 : (i : ℝ) ≤ ((N / 2 + 1 : Nat) : ℝ) := by exact_mod_cast (by omega : i ≤ N / 2 + 1)
    have h6 : (0 : ℝ) ≤ i := Nat.cast_nonneg _
    nlinarith

end

end QDng.OctFreq
