import Verif.Peak.Spec
import Mathlib.Tactic.Ring
import Mathlib.Tactic.Linarith
import Mathlib.Algebra.Order.BigOperators.Group.List

namespace QDng.Peak

open Spec

variable {K : Type} [Field K] [LinearOrder K] [IsStrictOrderedRing K]

/-! ### Statistics -/

theorem sumLoop_acc (f : Nat → K) : ∀ (n b : Nat) (acc : K), sumLoop f b n acc = acc + ((List.range n).map fun i => f (b + i)).sum := by
  intro n
  induction n with
  | zero => intro b acc; simp [sumLoop]
  | succ n ih =>
    intro b acc
    rw [sumLoop, ih, List.range_succ_eq_map, List.map_cons, List.sum_cons, List.map_map, add_assoc]
    congr 2
    apply congrArg
    apply List.map_congr_left
    intro i _
    simp only [Function.comp_apply]
    congr 1
    omega

theorem part_length (data : List K) (b e : Nat) (h : e ≤ data.length) : (part data b e).length = e - b := by
  unfold part
  rw [List.length_take, List.length_drop]
  omega

theorem part_map (data : List K) (g : K → K) (b e : Nat) (h : e ≤ data.length) :
    (List.range (e - b)).map (fun i => g (item data (b + i))) = (part data b e).map g := by
  apply List.ext_getElem
  · rw [List.length_map, List.length_range, List.length_map, part_length data b e h]
  · intro i h1 h2
    rw [List.length_map, List.length_range] at h1
    simp only [List.getElem_map, List.getElem_range, part, List.getElem_take, List.getElem_drop, item]
    congr 1
    rw [List.getD_eq_getElem?_getD, List.getElem?_eq_getElem (by omega)]
    rfl

theorem mean_eq (data : List K) (b e : Nat) (h : e ≤ data.length) : mean data b e = average (part data b e) := by
  unfold mean average
  rw [sumLoop_acc, zero_add, part_length data b e h]
  congr 1
  have := part_map data id b e h
  simp only [id_eq, List.map_id_fun, id] at this
  rw [this]

theorem sigma_eq (sqrt : K → K) (data : List K) (b e : Nat) (h : e ≤ data.length) :
    sigma sqrt data b e (mean data b e) = sqrt (variance (part data b e)) := by
  unfold sigma variance
  rw [sumLoop_acc, zero_add, part_length data b e h, mean_eq data b e h]
  congr 1
  rw [part_map data (fun x => (x - average (part data b e)) * (x - average (part data b e))) b e h]
  have : (fun x => (x - average (part data b e)) * (x - average (part data b e))) =
      fun x => (x - average (part data b e)) ^ 2 := by
    funext x; ring
  rw [this, one_div, inv_mul_eq_div]

theorem threshold_eq (sqrt : K → K) (tol : K) (data : List K) (b e : Nat) (h : e ≤ data.length) :
    threshold sqrt tol data b e = average (part data b e) + tol * sqrt (variance (part data b e)) := by
  unfold threshold
  rw [sigma_eq sqrt data b e h, mean_eq data b e h]

theorem part_whole (data : List K) : part data 0 data.length = data := by
  unfold part; simp

theorem average_nonneg (l : List K) (h : ∀ x ∈ l, 0 ≤ x) : 0 ≤ average l :=
  div_nonneg (List.sum_nonneg h) (Nat.cast_nonneg _)

/-! ### The loop -/

/-- A peak of a run that ended before `m`. -/
def Closed (D : Nat → K) (thr : K) (m i : Nat) : Prop :=
  ∃ a b, b < m ∧ D b < thr ∧ Run D thr a b ∧ FirstMax D a b i ∧ thr < D i

/-- The peak of the run that goes up to `m`. -/
def Opened (D : Nat → K) (thr : K) (m i : Nat) : Prop := ∃ a, Run D thr a m ∧ FirstMax D a m i ∧ thr < D i

theorem exists_run (D : Nat → K) (thr : K) : ∀ m, ∃ a, a ≤ m ∧ Run D thr a m := by
  intro m
  induction m with
  | zero => exact ⟨0, le_refl _, fun j _ h => by omega, Or.inl rfl⟩
  | succ m ih =>
    by_cases h : D m < thr
    · exact ⟨m + 1, le_refl _, fun j _ _ => by omega, Or.inr (by simpa using h)⟩
    · obtain ⟨a, ha, h1, h2⟩ := ih
      refine ⟨a, by omega, fun j hj hj2 => ?_, h2⟩
      by_cases hjm : j = m
      · subst hjm; exact not_lt.1 h
      · exact h1 j hj (by omega)

theorem exists_firstMax (D : Nat → K) (a : Nat) : ∀ b, a < b → ∃ i, FirstMax D a b i := by
  intro b
  induction b with
  | zero => intro h; omega
  | succ b ih =>
    intro h
    by_cases hab : a = b
    · subst hab
      exact ⟨a, le_refl _, by omega, fun j h1 h2 => by omega, fun j h1 h2 => by rw [show j = a by omega]⟩
    · obtain ⟨i, h1, h2, h3, h4⟩ := ih (by omega)
      by_cases hx : D i < D b
      · refine ⟨b, by omega, by omega, fun j hj hjb => ?_, fun j hj hjb => by rw [show j = b by omega]⟩
        by_cases hji : j < i
        · exact (h3 j hj hji).trans hx
        · exact lt_of_le_of_lt (h4 j (by omega) hjb) hx
      · refine ⟨i, h1, by omega, h3, fun j hj hjb => ?_⟩
        by_cases hjb2 : j = b
        · subst hjb2; exact not_lt.1 hx
        · exact h4 j hj (by omega)

theorem run_unique (D : Nat → K) (thr : K) (a a' m : Nat) (ha : a < m) (ha' : a' < m) (h : Run D thr a m) (h' : Run D thr a' m) :
    a = a' := by
  by_contra hne
  rcases Nat.lt_or_ge a a' with hl | hl
  · rcases h'.2 with h0 | h0
    · omega
    · exact absurd (h.1 (a' - 1) (by omega) (by omega)) (not_le.2 h0)
  · rcases h.2 with h0 | h0
    · omega
    · exact absurd (h'.1 (a - 1) (by omega) (by omega)) (not_le.2 h0)

theorem firstMax_unique (D : Nat → K) (a b i i' : Nat) (h : FirstMax D a b i) (h' : FirstMax D a b i') : i = i' := by
  by_contra hne
  rcases Nat.lt_or_ge i i' with hl | hl
  · exact absurd (h'.2.2.1 i h.1 hl) (not_lt.2 (h.2.2.2 i' (by omega) h'.2.1))
  · exact absurd (h.2.2.1 i' h'.1 (by omega)) (not_lt.2 (h'.2.2.2 i (by omega) h.2.1))

theorem opened_unique (D : Nat → K) (thr : K) (m i i' : Nat) (h : Opened D thr m i) (h' : Opened D thr m i') : i = i' := by
  obtain ⟨a, h1, h2, _⟩ := h
  obtain ⟨a', h1', h2', _⟩ := h'
  have := run_unique D thr a a' m (by have := h2.1; have := h2.2.1; omega) (by have := h2'.1; have := h2'.2.1; omega) h1 h1'
  subst this
  exact firstMax_unique D a m i i' h2 h2'

theorem closed_before_opened (D : Nat → K) (thr : K) (m i i' : Nat) (h : Closed D thr m i) (h' : Opened D thr m i') : i < i' := by
  obtain ⟨a, b, hb, hlt, _, h2, _⟩ := h
  obtain ⟨a', h1', h2', _⟩ := h'
  have : b < a' := by
    by_contra hc
    exact absurd (h1'.1 b (by omega) hb) (not_le.2 hlt)
  have := h2.2.1
  have := h2'.1
  omega

theorem closed_lt (D : Nat → K) (thr : K) (m i : Nat) (h : Closed D thr m i) : i < m := by
  obtain ⟨a, b, hb, _, _, h2, _⟩ := h
  have := h2.2.1
  omega

theorem closed_succ (D : Nat → K) (thr : K) (m i : Nat) :
    Closed D thr (m + 1) i ↔ Closed D thr m i ∨ (D m < thr ∧ Opened D thr m i) := by
  constructor
  · rintro ⟨a, b, hb, hlt, h1, h2, h3⟩
    by_cases hbm : b = m
    · subst hbm
      exact Or.inr ⟨hlt, a, h1, h2, h3⟩
    · exact Or.inl ⟨a, b, by omega, hlt, h1, h2, h3⟩
  · rintro (⟨a, b, hb, hlt, h1, h2, h3⟩ | ⟨hlt, a, h1, h2, h3⟩)
    · exact ⟨a, b, by omega, hlt, h1, h2, h3⟩
    · exact ⟨a, m, by omega, hlt, h1, h2, h3⟩

/-- What holds behind `m` rounds. -/
structure Inv (D : Nat → K) (thr : K) (m : Nat) (st : St K) : Prop where
  mem : ∀ k : Int, k ∈ st.peaks ↔ ∃ i : Nat, k = i ∧ Closed D thr m i
  sorted : st.peaks.Pairwise (· < ·)
  opened : st.start = true → ∃ i : Nat, st.indmax = i ∧ st.dmax = D i ∧ Opened D thr m i
  closed : st.start = false → ∀ i, ¬ Opened D thr m i

theorem opened_lt (D : Nat → K) (thr : K) (m i : Nat) (h : D m < thr) : ¬ Opened D thr (m + 1) i := by
  rintro ⟨a, h1, h2, _⟩
  exact absurd (h1.1 m (by have := h2.1; have := h2.2.1; omega) (by omega)) (not_le.2 h)

theorem inv_step (D : Nat → K) (thr : K) (h0 : 0 ≤ thr) (m : Nat) (st : St K) (h : Inv D thr m st) :
    Inv D thr (m + 1) (st.step thr m (D m)) := by
  obtain ⟨hmem, hsort, hop, hcl⟩ := h
  obtain ⟨start, dmax, indmax, peaks⟩ := st
  simp only at hmem hsort hop hcl
  rcases lt_trichotomy (D m) thr with hlt | heq | hgt
  · -- below the threshold
    cases start with
    | false =>
      have e : St.step thr m (D m) ⟨false, dmax, indmax, peaks⟩ = ⟨false, dmax, indmax, peaks⟩ := by
        simp [St.step, St.open', St.close, St.look, not_lt.2 hlt.le]
      rw [e]
      refine ⟨fun k => ?_, hsort, fun h => by simp at h, fun _ i => opened_lt D thr m i hlt⟩
      rw [hmem]
      simp only [closed_succ]
      constructor
      · rintro ⟨i, h1, h2⟩; exact ⟨i, h1, Or.inl h2⟩
      · rintro ⟨i, h1, h2 | h2⟩
        · exact ⟨i, h1, h2⟩
        · exact absurd h2.2 (hcl rfl i)
    | true =>
      have e : St.step thr m (D m) ⟨true, dmax, indmax, peaks⟩ = ⟨false, dmax, indmax, peaks ++ [indmax]⟩ := by
        simp [St.step, St.open', St.close, St.look, hlt]
      rw [e]
      obtain ⟨i, hi, _, ho⟩ := hop rfl
      subst hi
      refine ⟨fun k => ?_, ?_, fun h => by simp at h, fun _ i => opened_lt D thr m i hlt⟩
      · simp only [List.mem_append, List.mem_singleton, hmem, closed_succ]
        constructor
        · rintro (⟨j, h1, h2⟩ | h1)
          · exact ⟨j, h1, Or.inl h2⟩
          · exact ⟨i, h1, Or.inr ⟨hlt, ho⟩⟩
        · rintro ⟨j, h1, h2 | h2⟩
          · exact Or.inl ⟨j, h1, h2⟩
          · rw [opened_unique D thr m j i h2.2 ho] at h1
            exact Or.inr h1
      · rw [List.pairwise_append]
        refine ⟨hsort, List.pairwise_singleton _ _, ?_⟩
        intro k hk l hl
        rw [List.mem_singleton] at hl
        subst hl
        obtain ⟨j, rfl, hj⟩ := (hmem k).1 hk
        have := closed_before_opened D thr m j i hj ho
        show (j : Int) < (i : Int)
        omega
  · -- at the threshold
    have hclosed : ∀ i, Closed D thr (m + 1) i ↔ Closed D thr m i := by
      intro i
      rw [closed_succ]
      constructor
      · rintro (h | ⟨h, _⟩)
        · exact h
        · exact absurd h (by rw [heq]; exact lt_irrefl _)
      · exact Or.inl
    cases start with
    | false =>
      have e : St.step thr m (D m) ⟨false, dmax, indmax, peaks⟩ = ⟨false, dmax, indmax, peaks⟩ := by
        simp [St.step, St.open', St.close, St.look, heq]
      rw [e]
      refine ⟨fun k => ?_, hsort, fun h => by simp at h, fun _ i => ?_⟩
      · simp only [hmem, hclosed]
      · rintro ⟨a, h1, h2, h3⟩
        by_cases him : i = m
        · subst him; rw [heq] at h3; exact lt_irrefl _ h3
        · refine hcl rfl i ⟨a, ⟨fun j hj hj2 => h1.1 j hj (by omega), h1.2⟩, ⟨h2.1, ?_, h2.2.2.1, ?_⟩, h3⟩
          · have := h2.2.1; omega
          · intro j hj hj2; exact h2.2.2.2 j hj (by omega)
    | true =>
      obtain ⟨i, hi, hd, ho⟩ := hop rfl
      subst hi hd
      obtain ⟨a, h1, h2, h3⟩ := ho
      have hnot : ¬ D i < D m := by rw [heq]; exact not_lt.2 h3.le
      have e : St.step thr m (D m) ⟨true, D i, i, peaks⟩ = ⟨true, D i, i, peaks⟩ := by
        simp [St.step, St.open', St.close, St.look, heq, not_lt.2 h3.le]
      rw [e]
      refine ⟨fun k => ?_, hsort, fun _ => ⟨i, rfl, rfl, a, ⟨?_, h1.2⟩, ⟨h2.1, ?_, h2.2.2.1, ?_⟩, h3⟩, fun h => by simp at h⟩
      · simp only [hmem, hclosed]
      · intro j hj hj2
        by_cases hjm : j = m
        · subst hjm; exact heq.ge
        · exact h1.1 j hj (by omega)
      · have := h2.2.1; omega
      · intro j hj hj2
        by_cases hjm : j = m
        · subst hjm; exact not_lt.1 hnot
        · exact h2.2.2.2 j hj (by omega)
  · -- above the threshold
    have hclosed : ∀ i, Closed D thr (m + 1) i ↔ Closed D thr m i := by
      intro i
      rw [closed_succ]
      constructor
      · rintro (h | ⟨h, _⟩)
        · exact h
        · exact absurd h (not_lt.2 hgt.le)
      · exact Or.inl
    cases start with
    | false =>
      have e : St.step thr m (D m) ⟨false, dmax, indmax, peaks⟩ = ⟨true, D m, m, peaks⟩ := by
        have : 0 < D m := lt_of_le_of_lt h0 hgt
        simp [St.step, St.open', St.close, St.look, hgt, not_lt.2 hgt.le, this]
      rw [e]
      obtain ⟨a, ha, hr1, hr2⟩ := exists_run D thr m
      refine ⟨fun k => ?_, hsort, fun _ => ⟨m, rfl, rfl, a, ⟨?_, hr2⟩, ⟨ha, by omega, ?_, ?_⟩, hgt⟩, fun h => by simp at h⟩
      · simp only [hmem, hclosed]
      · intro j hj hj2
        by_cases hjm : j = m
        · subst hjm; exact hgt.le
        · exact hr1 j hj (by omega)
      · intro j hj hjm
        by_contra hc
        obtain ⟨i, hi⟩ := exists_firstMax D a m (by omega)
        refine hcl rfl i ⟨a, ⟨hr1, hr2⟩, hi, ?_⟩
        have hj3 : D j ≤ D i := by
          by_cases hji : j < i
          · exact (hi.2.2.1 j hj hji).le
          · exact hi.2.2.2 j (by omega) hjm
        exact lt_of_lt_of_le (lt_of_lt_of_le hgt (not_lt.1 hc)) hj3
      · intro j hj hj2
        rw [show j = m by omega]
    | true =>
      obtain ⟨i, hi, hd, ho⟩ := hop rfl
      subst hi hd
      obtain ⟨a, h1, h2, h3⟩ := ho
      have hrun : Run D thr a (m + 1) := by
        refine ⟨fun j hj hj2 => ?_, h1.2⟩
        by_cases hjm : j = m
        · subst hjm; exact hgt.le
        · exact h1.1 j hj (by omega)
      by_cases hx : D i < D m
      · have e : St.step thr m (D m) ⟨true, D i, i, peaks⟩ = ⟨true, D m, m, peaks⟩ := by
          simp [St.step, St.open', St.close, St.look, not_lt.2 hgt.le, hx]
        rw [e]
        refine ⟨fun k => ?_, hsort, fun _ => ⟨m, rfl, rfl, a, hrun, ⟨?_, by omega, ?_, ?_⟩, hgt⟩, fun h => by simp at h⟩
        · simp only [hmem, hclosed]
        · have := h2.1; have := h2.2.1; omega
        · intro j hj hjm
          by_cases hji : j < i
          · exact (h2.2.2.1 j hj hji).trans hx
          · exact lt_of_le_of_lt (h2.2.2.2 j (by omega) hjm) hx
        · intro j hj hj2
          rw [show j = m by omega]
      · have e : St.step thr m (D m) ⟨true, D i, i, peaks⟩ = ⟨true, D i, i, peaks⟩ := by
          simp [St.step, St.open', St.close, St.look, not_lt.2 hgt.le, not_lt.1 hx]
        rw [e]
        refine ⟨fun k => ?_, hsort, fun _ => ⟨i, rfl, rfl, a, hrun, ⟨h2.1, ?_, h2.2.2.1, ?_⟩, h3⟩, fun h => by simp at h⟩
        · simp only [hmem, hclosed]
        · have := h2.2.1; omega
        · intro j hj hj2
          by_cases hjm : j = m
          · subst hjm; exact not_lt.1 hx
          · exact h2.2.2.2 j hj (by omega)

theorem inv_loop (D : Nat → K) (thr : K) (h0 : 0 ≤ thr) : ∀ (l : List K) (m : Nat) (st : St K),
    (∀ i (hi : i < l.length), l[i] = D (m + i)) → Inv D thr m st → Inv D thr (m + l.length) (findLoop thr m l st) := by
  intro l
  induction l with
  | nil => intro m st _ h; exact h
  | cons x xs ih =>
    intro m st hD h
    have hx : x = D m := hD 0 (by simp)
    rw [findLoop, hx, List.length_cons, show m + (xs.length + 1) = m + 1 + xs.length by omega]
    refine ih (m + 1) _ (fun i hi => ?_) (inv_step D thr h0 m st h)
    have := hD (i + 1) (by simpa using hi)
    simp only [List.getElem_cons_succ] at this
    rw [this]
    congr 1
    omega

theorem inv_start (D : Nat → K) (thr : K) : Inv D thr 0 { start := false, dmax := 0, indmax := -1, peaks := [] } := by
  refine ⟨fun k => ?_, List.Pairwise.nil, fun h => by simp at h, fun _ i => ?_⟩
  · simp only [List.not_mem_nil, false_iff]
    rintro ⟨i, _, h⟩
    have := closed_lt D thr 0 i h
    omega
  · rintro ⟨a, _, h2, _⟩
    have := h2.2.1
    omega

/-! ### Local maxima -/

theorem maximasLoop_mem (D : Nat → K) : ∀ (xs : List K) (m : Nat) (last delta : K), 0 < m → last = D (m - 1) →
    (∀ i (hi : i < xs.length), xs[i] = D (m + i)) → (delta > 0 ↔ 2 ≤ m ∧ D (m - 2) < D (m - 1)) →
    ∀ k, k ∈ maximasLoop m last delta xs ↔ 0 < k ∧ m ≤ k + 1 ∧ k + 1 < m + xs.length ∧ D (k - 1) < D k ∧ D (k + 1) < D k := by
  intro xs
  induction xs with
  | nil =>
    intro m last delta h0 _ _ _ k
    simp only [maximasLoop, List.not_mem_nil, List.length_nil, false_iff]
    rintro ⟨_, h1, h2, _⟩
    omega
  | cons x xs ih =>
    intro m last delta h0 hl hD hd k
    have hx : x = D m := hD 0 (by simp)
    have hD' : ∀ i (hi : i < xs.length), xs[i] = D (m + 1 + i) := by
      intro i hi
      have := hD (i + 1) (by simpa using hi)
      simp only [List.getElem_cons_succ] at this
      rw [this]
      congr 1
      omega
    have hd' : x - last > 0 ↔ 2 ≤ m + 1 ∧ D (m + 1 - 2) < D (m + 1 - 1) := by
      rw [hx, hl, gt_iff_lt, sub_pos]
      simp only [show m + 1 - 2 = m - 1 by omega, show m + 1 - 1 = m by omega]
      constructor
      · intro h; exact ⟨by omega, h⟩
      · rintro ⟨_, h⟩; exact h
    have hih := ih (m + 1) x (x - last) (by omega) (by rw [hx]; rfl) hD' hd' k
    have hP : (x < last ∧ delta > 0) ↔ (2 ≤ m ∧ D (m - 2) < D (m - 1) ∧ D m < D (m - 1)) := by
      rw [hd, hx, hl]
      constructor
      · rintro ⟨h1, h2, h3⟩; exact ⟨h2, h3, h1⟩
      · rintro ⟨h1, h2, h3⟩; exact ⟨h3, h1, h2⟩
    rw [maximasLoop, List.length_cons]
    split
    · next h =>
      rw [hP] at h
      rw [List.mem_cons, hih]
      constructor
      · rintro (h1 | ⟨h1, h2, h3, h4⟩)
        · subst h1
          refine ⟨by omega, by omega, by omega, ?_, ?_⟩
          · rw [show m - 1 - 1 = m - 2 by omega]; exact h.2.1
          · rw [show m - 1 + 1 = m by omega]; exact h.2.2
        · exact ⟨h1, by omega, by omega, h4⟩
      · rintro ⟨h1, h2, h3, h4⟩
        by_cases hk : k + 1 = m
        · exact Or.inl (by omega)
        · exact Or.inr ⟨h1, by omega, by omega, h4⟩
    · next h =>
      rw [hP] at h
      rw [hih]
      constructor
      · rintro ⟨h1, h2, h3, h4⟩; exact ⟨h1, by omega, by omega, h4⟩
      · rintro ⟨h1, h2, h3, h4, h5⟩
        by_cases hk : k + 1 = m
        · exfalso
          subst hk
          exact h ⟨by omega, h4, h5⟩
        · exact ⟨h1, by omega, by omega, h4, h5⟩

theorem maximasLoop_sorted (xs : List K) : ∀ (m : Nat) (last delta : K), 0 < m →
    (maximasLoop m last delta xs).Pairwise (· < ·) ∧ ∀ k ∈ maximasLoop m last delta xs, m ≤ k + 1 := by
  induction xs with
  | nil => intro m last delta _; exact ⟨List.Pairwise.nil, fun k h => absurd h List.not_mem_nil⟩
  | cons x xs ih =>
    intro m last delta h0
    obtain ⟨h1, h2⟩ := ih (m + 1) x (x - last) (by omega)
    rw [maximasLoop]
    split
    · refine ⟨List.Pairwise.cons (fun k hk => ?_) h1, fun k hk => ?_⟩
      · have := h2 k hk; omega
      · rcases List.mem_cons.1 hk with rfl | hk
        · omega
        · have := h2 k hk; omega
    · exact ⟨h1, fun k hk => by have := h2 k hk; omega⟩

theorem item_get (data : List K) (i : Nat) (h : i < data.length) : data[i] = item data i := by
  unfold item
  rw [List.getD_eq_getElem?_getD, List.getElem?_eq_getElem h]
  rfl

end QDng.Peak
