import Verif.Peak.Lemmas

/-
C96: the peaks of a spectrum.  C97: local maxima, local minima and peaks in a window.
-/

namespace QDng.Peak

open Spec

variable {K : Type} [Field K] [LinearOrder K] [IsStrictOrderedRing K]

/-- The peaks for a threshold that is not negative. -/
theorem findData_spec (thr : K) (h0 : 0 ≤ thr) (data : List K) :
    (findData thr data).Pairwise (· < ·) ∧ ∀ k : Int, k ∈ findData thr data ↔ ∃ i : Nat, k = i ∧ IsPeak thr data i := by
  have hinv := inv_loop (item data) thr h0 data 0 _ (fun i hi => by rw [Nat.zero_add]; exact item_get data i hi)
    (inv_start (item data) thr)
  rw [Nat.zero_add] at hinv
  unfold findData
  generalize findLoop thr 0 data { start := false, dmax := 0, indmax := -1, peaks := [] } = st at hinv
  obtain ⟨hmem, hsort, hop, hcl⟩ := hinv
  have hsplit : ∀ i, IsPeak thr data i ↔ Closed (item data) thr data.length i ∨
      (Opened (item data) thr data.length i ∧ item data (data.length - 1) < item data i) := by
    intro i
    constructor
    · rintro ⟨a, b, hb, h1, h2, h3, h4 | h4⟩
      · exact Or.inl ⟨a, b, h4.1, h4.2, h1, h2, h3⟩
      · obtain ⟨rfl, h4⟩ := h4
        exact Or.inr ⟨⟨a, h1, h2, h3⟩, h4⟩
    · rintro (⟨a, b, hb, h1, h2, h3, h4⟩ | ⟨⟨a, h1, h2, h3⟩, h4⟩)
      · exact ⟨a, b, hb.le, h2, h3, h4, Or.inl ⟨hb, h1⟩⟩
      · exact ⟨a, _, le_refl _, h1, h2, h3, Or.inr ⟨rfl, h4⟩⟩
  unfold St.finish
  split
  · next h =>
    obtain ⟨i, hi, hd, ho⟩ := hop h.1
    refine ⟨?_, fun k => ?_⟩
    · rw [List.pairwise_append]
      refine ⟨hsort, List.pairwise_singleton _ _, ?_⟩
      intro k hk l hl
      rw [List.mem_singleton] at hl
      subst hl
      obtain ⟨j, rfl, hj⟩ := (hmem k).1 hk
      have := closed_before_opened _ thr _ j i hj ho
      rw [hi]
      omega
    · rw [List.mem_append, List.mem_singleton, hmem]
      simp only [hsplit]
      constructor
      · rintro (⟨j, h1, h2⟩ | h1)
        · exact ⟨j, h1, Or.inl h2⟩
        · exact ⟨i, h1.trans hi, Or.inr ⟨ho, hd ▸ h.2.2⟩⟩
      · rintro ⟨j, h1, h2 | h2⟩
        · exact Or.inl ⟨j, h1, h2⟩
        · rw [opened_unique _ thr _ j i h2.1 ho] at h1
          exact Or.inr (h1.trans hi.symm)
  · next h =>
    refine ⟨hsort, fun k => ?_⟩
    rw [hmem]
    simp only [hsplit]
    constructor
    · rintro ⟨j, h1, h2⟩; exact ⟨j, h1, Or.inl h2⟩
    · rintro ⟨j, h1, h2 | h2⟩
      · exact ⟨j, h1, h2⟩
      · exfalso
        cases hs : st.start with
        | false => exact hcl hs j h2.1
        | true =>
          obtain ⟨i, hi, hd, ho⟩ := hop hs
          apply h
          refine ⟨hs, ?_, ?_⟩
          · rw [hi]; omega
          · rw [hd, ← opened_unique _ thr _ j i h2.1 ho]; exact h2.2

/-- **C96** (partial).  For data that are nowhere negative (a power spectrum) and a tolerance that is not negative, the peak finder
delivers, in increasing order and once each, exactly the peaks: the first largest value of every maximal run of values that are not
below the threshold `mean + tol * sigma`, if that value is above it; in a run that reaches the end of the data only if the data decrease
again at the end. -/
theorem C96_peaks_partial (sqrt : K → K) (hs : ∀ x, 0 ≤ sqrt x) (tol : K) (ht : 0 ≤ tol) (data : List K) (hd : ∀ x ∈ data, 0 ≤ x) :
    (find sqrt tol data).Pairwise (· < ·) ∧
    ∀ k : Int, k ∈ find sqrt tol data ↔ ∃ i : Nat, k = i ∧ IsPeak (average data + tol * sqrt (variance data)) data i := by
  unfold find
  rw [threshold_eq sqrt tol data 0 _ (le_refl _), part_whole]
  exact findData_spec _ (add_nonneg (average_nonneg data hd) (mul_nonneg ht (hs _))) data

/-- Every reported index of such data is inside of the data and its value is above the threshold. -/
theorem C96_inside_partial (sqrt : K → K) (hs : ∀ x, 0 ≤ sqrt x) (tol : K) (ht : 0 ≤ tol) (data : List K) (hd : ∀ x ∈ data, 0 ≤ x)
    (k : Int) (hk : k ∈ find sqrt tol data) :
    ∃ i : Nat, k = i ∧ i < data.length ∧ average data + tol * sqrt (variance data) < data.getD i 0 := by
  obtain ⟨i, h1, a, b, hb, _, h2, h3, _⟩ := ((C96_peaks_partial sqrt hs tol ht data hd).2 k).1 hk
  exact ⟨i, h1, lt_of_lt_of_le h2.2.1 hb, h3⟩

/-- **C96** (violated in general).  For negative data the peak finder reports the index `-1`: the search for the largest value of a run
starts at `0`. -/
theorem C96_violated_negative : find (K := ℚ) (fun _ => 0) 0 [-3, -1, -3, -3] = [-1] := by
  decide +kernel

/-- Non-vacuity of C96: data with two peaks, one at the end that is not reported because the data do not decrease. -/
example : find (K := ℚ) (fun _ => 1) 0 [0, 5, 7, 5, 0, 0, 6, 3, 0, 4] = [2, 6] := by
  decide +kernel

/-- **C97** (local maxima).  `Maximas` delivers, in increasing order, exactly the strict local maxima. -/
theorem C97_maxima (data : List K) : (maximas data).Pairwise (· < ·) ∧ ∀ i, i ∈ maximas data ↔ LocalMax data i := by
  cases data with
  | nil => exact ⟨List.Pairwise.nil, fun i => ⟨fun h => absurd h List.not_mem_nil, fun h => by have := h.2.1; simp at this⟩⟩
  | cons x xs =>
    refine ⟨(maximasLoop_sorted xs 1 x 0 (by omega)).1, fun i => ?_⟩
    show i ∈ maximasLoop 1 x 0 xs ↔ _
    rw [maximasLoop_mem (item (x :: xs)) xs 1 x 0 (by omega) rfl ?_ ?_ i]
    · unfold LocalMax
      rw [List.length_cons]
      constructor
      · rintro ⟨h1, h2, h3, h4, h5⟩; exact ⟨h1, by omega, h4, h5⟩
      · rintro ⟨h1, h3, h4, h5⟩; exact ⟨h1, by omega, by omega, h4, h5⟩
    · intro j hj
      have := item_get (x :: xs) (j + 1) (by simpa using hj)
      rw [List.getElem_cons_succ] at this
      rw [this, Nat.add_comm]
    · constructor
      · intro h; exact absurd h (lt_irrefl _)
      · rintro ⟨h, _⟩; omega

/-- **C97** (peaks in a window, partial).  With a window of `w > 0` the peak finder delivers, in increasing order, exactly the strict
local maxima `i` that are above `mean + tol * sigma` of the data `i - w ≤ j < min (i + w) (n - 1)`.  The window is not symmetric:
`C97_violated_window`. -/
theorem C97_window_partial (sqrt : K → K) (tol : K) (w : Nat) (_hw : 0 < w) (data : List K) :
    (findWindow sqrt tol w data).Pairwise (· < ·) ∧
    ∀ i, i ∈ findWindow sqrt tol w data ↔ LocalMax data i ∧
      (let l := part data (i - w) (min (i + w) (data.length - 1)); average l + tol * sqrt (variance l) < data.getD i 0) := by
  refine ⟨(C97_maxima data).1.filter _, fun i => ?_⟩
  unfold findWindow
  rw [List.mem_filter, (C97_maxima data).2]
  refine and_congr_right (fun hi => ?_)
  have hw1 : window data.length w i = (i - w, min (i + w) (data.length - 1)) := by
    unfold window
    congr 1
    · split
      · omega
      · rfl
    · split <;> omega
  simp only [hw1]
  rw [threshold_eq sqrt tol data _ _ (by omega), decide_eq_true_iff]
  rfl

/-- The window of `C97_window_partial` is never empty: the mean value is that of at least one number. -/
theorem C97_window_nonempty (w : Nat) (hw : 0 < w) (data : List K) (i : Nat) (hi : LocalMax data i) :
    0 < (part data (i - w) (min (i + w) (data.length - 1))).length := by
  rw [part_length _ _ _ (by omega)]
  have := hi.2.1
  omega

/-- **C97** (violated, plateau).  A maximum that is reached by two equal neighbours is not found. -/
theorem C97_violated_plateau : maximas ([0, 5, 5, 0] : List ℚ) = [] := by
  decide +kernel

/-- **C97** (violated, window).  The window leaves out its upper end: here the maximum `4` at `2` with a window of one compares with
`(1 + 4) / 2` instead of the mean value `(1 + 4 + 13/4) / 3 = 11/4`; with `sqrt` of the variance replaced by one and a tolerance of
`13/10` it is reported although it does not exceed the threshold `11/4 + 13/10`. -/
theorem C97_violated_window :
    findWindow (K := ℚ) (fun _ => 1) (13/10) 1 [0, 1, 4, 13/4, 0] = [2] ∧
    ¬ average (part ([0, 1, 4, 13/4, 0] : List ℚ) 1 4) + 13/10 * 1 < 4 := by
  constructor <;> decide +kernel

/-- **C97** (violated, minima).  `Minimas` reports every index whose successor is larger (compared with zero at the first one): in an
increasing sequence it reports every index although there is no local minimum. -/
theorem C97_violated_minima : minimas ([1, 2, 3, 4] : List ℚ) = [0, 1, 2] ∧ ∀ i, ¬ LocalMin ([1, 2, 3, 4] : List ℚ) i := by
  refine ⟨by decide +kernel, ?_⟩
  rintro i ⟨h1, h2, h3, _⟩
  have : i = 1 ∨ i = 2 := by simp at h2; omega
  rcases this with rfl | rfl
  · exact absurd h3 (by decide +kernel)
  · exact absurd h3 (by decide +kernel)

/-- Non-vacuity of C97: two maxima, one of them significant. -/
example : maximas ([0, 5, 0, 1, 0, 0] : List ℚ) = [1, 3] ∧ findWindow (K := ℚ) (fun _ => 1) 1 2 [0, 5, 0, 1, 0, 0] = [1] := by
  constructor <;> decide +kernel

end QDng.Peak
