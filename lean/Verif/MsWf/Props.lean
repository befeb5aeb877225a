import Verif.MsWf.Model
import Mathlib.Algebra.BigOperators.Group.Finset.Basic
import Mathlib.Algebra.BigOperators.Intervals
import Mathlib.Data.Complex.BigOperators
import Mathlib.Algebra.Order.BigOperators.Group.Finset
import Mathlib.Tactic.Ring
import Mathlib.Tactic.Positivity

/-!
Properties of the scalar product and the assignment of multistate wave functions.
-/

namespace QDng.MsWf

open QDng.Common

/-! ### Specification -/

/-- The value number `j` of the state number `i`. -/
def val (m : Ms) (i j : Nat) : ℂ := ((m.states i).getD []).getD j 0

/-- The number of values of the state number `i`. -/
def len (m : Ms) (i : Nat) : Nat := ((m.states i).getD []).length

/-- All states exist. -/
def Full (m : Ms) : Prop := ∀ i, i < m.n → (m.states i).isSome = true

/-- The first `n` states of both have the same sizes. -/
def SameSizes (n : Nat) (a b : Ms) : Prop := ∀ i, i < n → len a i = len b i

/-- The scalar product of the first `n` states. -/
noncomputable def inner (n : Nat) (a b : Ms) : ℂ :=
  ∑ i ∈ Finset.range n, ∑ j ∈ Finset.range (len a i), (starRingEnd ℂ) (val a i j) * val b i j

/-! ### Lemmas -/

theorem dotLoop_eq : ∀ (x y : List ℂ) (c : ℂ), x.length = y.length →
    dotLoop x y c = c + ∑ j ∈ Finset.range x.length, (starRingEnd ℂ) (x.getD j 0) * y.getD j 0 := by
  intro x
  induction x with
  | nil =>
    intro y c h
    cases y with
    | nil => simp [dotLoop]
    | cons _ _ => cases h
  | cons a x ih =>
    intro y c h
    cases y with
    | nil => cases h
    | cons b y =>
      rw [dotLoop, ih y _ (by simpa using h), List.length_cons, Finset.sum_range_succ']
      simp only [List.getD_cons_succ, List.getD_cons_zero]
      ring

theorem mulLoop_eq (a b : Ms) : ∀ k i c, (∀ j, i ≤ j → j < i + k → (a.states j).isSome = true) →
    (∀ j, i ≤ j → j < i + k → (b.states j).isSome = true) → (∀ j, i ≤ j → j < i + k → len a j = len b j) →
    mulLoop a b k i c = .val (c + ∑ t ∈ Finset.range k,
      ∑ j ∈ Finset.range (len a (i + t)), (starRingEnd ℂ) (val a (i + t) j) * val b (i + t) j) := by
  intro k
  induction k with
  | zero => intro i c _ _ _; simp [mulLoop]
  | succ k ih =>
    intro i c ha hb hl
    obtain ⟨x, hx⟩ := Option.isSome_iff_exists.1 (ha i (by omega) (by omega))
    obtain ⟨y, hy⟩ := Option.isSome_iff_exists.1 (hb i (by omega) (by omega))
    have hxy : x.length = y.length := by
      have h := hl i (by omega) (by omega)
      simpa [len, hx, hy] using h
    have hd : dot x y = some (dotLoop x y 0) := by
      rw [dot, if_neg (by simpa using hxy)]
    simp only [mulLoop, hx, hy, hd]
    rw [ih (i + 1) _ (fun j h1 h2 => ha j (by omega) (by omega)) (fun j h1 h2 => hb j (by omega) (by omega))
      (fun j h1 h2 => hl j (by omega) (by omega)), Finset.sum_range_succ', dotLoop_eq x y 0 hxy]
    congr 1
    have e : ∀ t, i + 1 + t = i + (t + 1) := fun t => by omega
    simp only [e, Nat.add_zero]
    have h0 : (∑ j ∈ Finset.range (len a i), (starRingEnd ℂ) (val a i j) * val b i j)
        = ∑ j ∈ Finset.range x.length, (starRingEnd ℂ) (x.getD j 0) * y.getD j 0 := by
      simp only [len, val, hx, hy, Option.getD_some]
    rw [h0]
    ring

theorem mul_eq (a b : Ms) (n : Nat) (hn : a.n = n) (ha : Full a) (hb : ∀ i, i < n → (b.states i).isSome = true)
    (hl : SameSizes n a b) : mul a (.multi b) = .val (inner n a b) := by
  subst hn
  rw [mul, mulLoop_eq a b a.n 0 0 (fun j _ h => ha j (by omega)) (fun j _ h => hb j (by omega))
    (fun j _ h => hl j (by omega))]
  simp only [zero_add, inner]

/-! ### C316 -/

/-- **C316 (part: same number of states).**  The scalar product is the sum of the products of all values of all states; the
other way round it is the complex conjugate. -/
theorem C316_partial (a b : Ms) (hn : a.n = b.n) (ha : Full a) (hb : Full b) (hl : SameSizes a.n a b) :
    mul a (.multi b) = .val (∑ i ∈ Finset.range a.n, ∑ j ∈ Finset.range (len a i),
        (starRingEnd ℂ) (val a i j) * val b i j)
      ∧ ∀ z, mul a (.multi b) = .val z → mul b (.multi a) = .val ((starRingEnd ℂ) z) := by
  have h1 := mul_eq a b a.n rfl ha (fun i hi => hb i (by omega)) hl
  refine ⟨h1, fun z hz => ?_⟩
  rw [h1] at hz
  cases hz
  rw [mul_eq b a a.n hn.symm hb ha (fun i hi => (hl i hi).symm)]
  congr 1
  simp only [inner, map_sum, map_mul, Complex.conj_conj]
  refine Finset.sum_congr rfl fun i hi => ?_
  rw [hl i (Finset.mem_range.1 hi)]
  exact Finset.sum_congr rfl fun j _ => mul_comm _ _

/-- **C316 (part: the product with itself)** is real, not negative, and zero only if all values are zero. -/
theorem C316_self_partial (a : Ms) (ha : Full a) :
    ∃ z : ℂ, mul a (.multi a) = .val z ∧ z.im = 0 ∧ 0 ≤ z.re
      ∧ (z = 0 ↔ ∀ i j, i < a.n → j < len a i → val a i j = 0) := by
  have hz : ∀ i j, (starRingEnd ℂ) (val a i j) * val a i j = ((Complex.normSq (val a i j) : ℝ) : ℂ) := fun i j => by
    rw [mul_comm, Complex.mul_conj]
  have hsum : inner a.n a a
      = ((∑ i ∈ Finset.range a.n, ∑ j ∈ Finset.range (len a i), Complex.normSq (val a i j) : ℝ) : ℂ) := by
    simp only [inner, hz, Complex.ofReal_sum]
  have hin : ∀ i, 0 ≤ ∑ j ∈ Finset.range (len a i), Complex.normSq (val a i j) := fun i =>
    Finset.sum_nonneg fun j _ => Complex.normSq_nonneg _
  refine ⟨_, mul_eq a a a.n rfl ha ha (fun _ _ => rfl), ?_, ?_, ?_⟩
  · rw [hsum]; exact Complex.ofReal_im _
  · rw [hsum, Complex.ofReal_re]
    exact Finset.sum_nonneg fun i _ => hin i
  · rw [hsum, Complex.ofReal_eq_zero, Finset.sum_eq_zero_iff_of_nonneg (fun i _ => hin i)]
    constructor
    · intro h i j hi hj
      have h2 := h i (Finset.mem_range.2 hi)
      rw [Finset.sum_eq_zero_iff_of_nonneg (fun j _ => Complex.normSq_nonneg _)] at h2
      exact Complex.normSq_eq_zero.1 (h2 j (Finset.mem_range.2 hj))
    · intro h i hi
      refine Finset.sum_eq_zero fun j hj => ?_
      rw [h i j (Finset.mem_range.1 hi) (Finset.mem_range.1 hj)]
      exact Complex.normSq_zero

theorem mulLoop_threw (a b : Ms) {m : Nat} (hm : len a m ≠ len b m) : ∀ k i c, i ≤ m → m < i + k →
    (∀ j, i ≤ j → j < i + k → (a.states j).isSome = true ∧ (b.states j).isSome = true) →
    mulLoop a b k i c = .threw := by
  intro k
  induction k with
  | zero => intro i c h1 h2 _; omega
  | succ k ih =>
    intro i c h1 h2 h
    obtain ⟨g1, g2⟩ := h i (by omega) (by omega)
    obtain ⟨x, hx⟩ := Option.isSome_iff_exists.1 g1
    obtain ⟨y, hy⟩ := Option.isSome_iff_exists.1 g2
    by_cases hxy : x.length = y.length
    · have hd : dot x y = some (dotLoop x y 0) := by
        rw [dot, if_neg (by simpa using hxy)]
      have him : i ≠ m := by
        intro e
        subst e
        apply hm
        simp only [len, hx, hy, Option.getD_some, hxy]
      simp only [mulLoop, hx, hy, hd]
      exact ih (i + 1) _ (by omega) (by omega) (fun j g1 g2 => h j (by omega) (by omega))
    · have hd : dot x y = none := by rw [dot, if_pos hxy]
      simp only [mulLoop, hx, hy, hd]

/-- **C316 (part: states of different sizes)** are refused. -/
theorem C316_sizes_partial (a b : Ms) (hn : a.n = b.n) (ha : Full a) (hb : Full b) (hl : ¬ SameSizes a.n a b) :
    mul a (.multi b) = .threw := by
  have h : ∃ m, m < a.n ∧ len a m ≠ len b m := by
    by_contra hc
    exact hl fun i hi => by
      by_contra h2
      exact hc ⟨i, hi, h2⟩
  obtain ⟨m, h1, h2⟩ := h
  exact mulLoop_threw a b h2 a.n 0 0 (by omega) (by omega) fun j _ hj => ⟨ha j (by omega), hb j (by omega)⟩

/-- **C316 is false for different numbers of states, the right one has more**: the product is not refused, the states the
left one does not have are ignored. -/
theorem C316_violated_more (a b : Ms) (hn : a.n < b.n) (ha : Full a) (hb : Full b) (hl : SameSizes a.n a b) :
    ∃ z, mul a (.multi b) = .val z
      ∧ z = ∑ i ∈ Finset.range a.n, ∑ j ∈ Finset.range (len a i), (starRingEnd ℂ) (val a i j) * val b i j :=
  ⟨_, mul_eq a b a.n rfl ha (fun i hi => hb i (by omega)) hl, rfl⟩

theorem mulLoop_ub (a b : Ms) {m : Nat} (hm : b.states m = none) : ∀ k i c, i ≤ m → m < i + k →
    (∀ j, i ≤ j → j < m → (a.states j).isSome = true ∧ (b.states j).isSome = true ∧ len a j = len b j) →
    mulLoop a b k i c = .ub := by
  intro k
  induction k with
  | zero => intro i c h1 h2 _; omega
  | succ k ih =>
    intro i c h1 h2 h
    by_cases him : i = m
    · subst him
      cases hx : a.states i <;> simp only [mulLoop, hx, hm]
    · obtain ⟨g1, g2, g3⟩ := h i (by omega) (by omega)
      obtain ⟨x, hx⟩ := Option.isSome_iff_exists.1 g1
      obtain ⟨y, hy⟩ := Option.isSome_iff_exists.1 g2
      have hxy : x.length = y.length := by simpa [len, hx, hy] using g3
      have hd : dot x y = some (dotLoop x y 0) := by
        rw [dot, if_neg (by simpa using hxy)]
      simp only [mulLoop, hx, hy, hd]
      exact ih (i + 1) _ (by omega) (by omega) (fun j g1 g2 => h j (by omega) g2)

/-- **C316 is false for different numbers of states, the left one has more**: a null pointer is used. -/
theorem C316_violated_fewer (a b : Ms) (hn : b.n < a.n) (ha : Full a) (hb : Full b) (hl : SameSizes b.n a b)
    (hnull : b.states b.n = none) : mul a (.multi b) = .ub :=
  mulLoop_ub a b hnull a.n 0 0 (by omega) (by omega) fun j _ h => ⟨ha j (by omega), hb j h, hl j h⟩

/-- **C316 for arguments that are no multistate wave functions**: another wave function is refused; with a null pointer the
refusal itself is undefined behaviour. -/
theorem C316_violated_null (a : Ms) : mul a .other = .threw ∧ mul a .null = .ub := ⟨rfl, rfl⟩

/-! ### C317 -/

theorem setLoop_eq (src : Ms) : ∀ k i (d : Ms), (∀ j, i ≤ j → j < i + k → (d.states j).isSome = true) →
    (∀ j, i ≤ j → j < i + k → (src.states j).isSome = true) →
    setLoop src k i d = .ok { d with states := fun j => if i ≤ j ∧ j < i + k then src.states j else d.states j } := by
  intro k
  induction k with
  | zero =>
    intro i d _ _
    obtain ⟨a, b, c⟩ := d
    simp only [setLoop]
    congr 2
    funext j
    rw [if_neg (by omega)]
  | succ k ih =>
    intro i d hd hs
    obtain ⟨x, hx⟩ := Option.isSome_iff_exists.1 (hd i (by omega) (by omega))
    obtain ⟨y, hy⟩ := Option.isSome_iff_exists.1 (hs i (by omega) (by omega))
    simp only [setLoop, hx, hy]
    rw [ih (i + 1) { d with states := fun j => if j = i then some y else d.states j } (fun j h1 h2 => by
        show (if j = i then some y else d.states j).isSome = true
        rw [if_neg (by omega)]
        exact hd j (by omega) (by omega)) (fun j h1 h2 => hs j (by omega) (by omega))]
    congr 2
    funext j
    by_cases hj : j = i
    · subst hj
      rw [if_neg (by omega), if_pos (by omega), hy]
      simp
    · by_cases hj2 : i ≤ j ∧ j < i + (k + 1)
      · rw [if_pos (by omega), if_pos hj2]
      · rw [if_neg (by omega), if_neg hj2]
        simp [hj]

/-- **C317 (part: wave functions that exist, with all states).**  With the same number of states the assignment gives the
values and the parameters of the right side and keeps the number of states; the product with the right side is then the
product of the right side with itself; a wave function with another number of states or of another kind is refused and
nothing is changed. -/
theorem C317_partial (d s : Ms) (hd : Full d) (hs : Full s) :
    (d.n = s.n → ∃ d', assign d (.multi s) = .ok d' ∧ d'.n = s.n ∧ d'.params = s.params
        ∧ (∀ i, i < s.n → d'.states i = s.states i) ∧ mul d' (.multi s) = mul s (.multi s))
      ∧ (d.n ≠ s.n → assign d (.multi s) = .threw d) ∧ assign d .other = .threw d := by
  refine ⟨fun hn => ?_, fun hn => ?_, rfl⟩
  · have h := setLoop_eq s s.n 0 d (fun j _ h => hd j (by omega)) (fun j _ h => hs j (by omega))
    have hst : ∀ i, i < s.n → (if 0 ≤ i ∧ i < 0 + s.n then s.states i else d.states i) = s.states i := fun i hi =>
      if_pos (by omega)
    refine ⟨Ms.mk d.n (fun j => if 0 ≤ j ∧ j < 0 + s.n then s.states j else d.states j) s.params, ?_, hn, rfl, hst, ?_⟩
    · rw [assign, if_neg (by omega), h]
      rfl
    · have hfull : Full (Ms.mk d.n (fun j => if 0 ≤ j ∧ j < 0 + s.n then s.states j else d.states j) s.params) := by
        intro i hi
        have hi' : i < s.n := by rw [← hn]; exact hi
        show (if 0 ≤ i ∧ i < 0 + s.n then s.states i else d.states i).isSome = true
        rw [hst i hi']
        exact hs i hi'
      rw [mul_eq (Ms.mk d.n (fun j => if 0 ≤ j ∧ j < 0 + s.n then s.states j else d.states j) s.params) s s.n
          hn hfull hs (fun i hi => by simp only [len, hst i hi]),
        mul_eq s s s.n rfl hs hs (fun _ _ => rfl)]
      congr 1
      refine Finset.sum_congr rfl fun i hi => ?_
      simp only [len, val, hst i (Finset.mem_range.1 hi)]
  · rw [assign, if_pos hn]

/-- **C317 is false for a null pointer and for missing states**: both are used unchecked. -/
theorem C317_violated (d s : Ms) (hn : d.n = s.n) (h0 : 0 < s.n) (hm : d.states 0 = none ∨ s.states 0 = none) :
    assign d .null = .ub ∧ assign d (.multi s) = .ub := by
  refine ⟨rfl, ?_⟩
  obtain ⟨k, hk⟩ : ∃ k, s.n = k + 1 := ⟨s.n - 1, by omega⟩
  have h : setLoop s (k + 1) 0 d = .ub := by
    rcases hm with hm | hm
    · simp only [setLoop, hm]
    · cases hd : d.states 0 <;> simp only [setLoop, hm, hd]
  rw [assign, if_neg (by omega), hk, h]
  rfl

/-! ### The hypotheses are met -/

example : ∃ a b : Ms, a.n = b.n ∧ Full a ∧ Full b ∧ ¬ SameSizes a.n a b :=
  ⟨⟨1, fun _ => some [1], 1⟩, ⟨1, fun _ => some [1, 2], 1⟩, rfl, fun _ _ => rfl, fun _ _ => rfl, fun h =>
    absurd (h 0 (by decide)) (by decide)⟩

/-- Two states with two values each (used in the examples, `/repo/src/qdlib/WFMultistate.h:20-27`). -/
def exMs (n : Nat) : Ms := { n := n, states := fun i => if i < n then some [1, Complex.I] else none, params := 1 }

theorem ex_full (n : Nat) : Full (exMs n) := by
  intro i hi
  have hi' : i < n := hi
  simp [exMs, hi']

example : Full (exMs 2) ∧ Full (exMs 3) ∧ SameSizes 2 (exMs 2) (exMs 2) ∧ SameSizes 2 (exMs 2) (exMs 3)
    ∧ SameSizes 2 (exMs 3) (exMs 2) ∧ (exMs 2).states 2 = none ∧ (exMs 2).n < (exMs 3).n := by
  refine ⟨ex_full 2, ex_full 3, fun _ _ => rfl, ?_, ?_, rfl, by decide⟩
  · intro i hi
    simp only [len, exMs, if_pos hi, if_pos (show i < 3 by omega)]
  · intro i hi
    simp only [len, exMs, if_pos hi, if_pos (show i < 3 by omega)]

example : ({ exMs 2 with states := fun _ => none } : Ms).states 0 = none ∧ 0 < (exMs 2).n
    ∧ ({ exMs 2 with states := fun _ => none } : Ms).n = (exMs 2).n := ⟨rfl, by decide, rfl⟩

end QDng.MsWf
