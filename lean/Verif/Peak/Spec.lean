import Verif.Peak.Model

/-
What the peak finder should deliver, in terms of runs of data at or above the threshold.
-/

namespace QDng.Peak.Spec

open QDng.Peak

variable {K : Type} [Field K] [LinearOrder K]

/-- Mean value of a part of the data. -/
def average (l : List K) : K := l.sum / (l.length : K)

/-- Mean square deviation of a part of the data. -/
def variance (l : List K) : K := (l.map fun x => (x - average l) ^ 2).sum / (l.length : K)

/-- The part `b ≤ i < e` of the data. -/
def part (data : List K) (b e : Nat) : List K := (data.drop b).take (e - b)

/-- `i` is the first place of the largest value in `a ≤ j < b`. -/
def FirstMax (D : Nat → K) (a b i : Nat) : Prop :=
  a ≤ i ∧ i < b ∧ (∀ j, a ≤ j → j < i → D j < D i) ∧ ∀ j, i ≤ j → j < b → D j ≤ D i

/-- All values in `a ≤ j < b` are at or above the threshold, and the run does not go on to the left. -/
def Run (D : Nat → K) (thr : K) (a b : Nat) : Prop := (∀ j, a ≤ j → j < b → thr ≤ D j) ∧ (a = 0 ∨ D (a - 1) < thr)

/-- A peak: the first largest value of a maximal run, above the threshold; in a run that reaches the end of the data it counts only if
the data decrease again. -/
def IsPeak (thr : K) (data : List K) (i : Nat) : Prop :=
  ∃ a b, b ≤ data.length ∧ Run (item data) thr a b ∧ FirstMax (item data) a b i ∧ thr < item data i ∧
    ((b < data.length ∧ item data b < thr) ∨ (b = data.length ∧ item data (b - 1) < item data i))

/-- A strict local maximum. -/
def LocalMax (data : List K) (i : Nat) : Prop :=
  0 < i ∧ i + 1 < data.length ∧ item data (i - 1) < item data i ∧ item data (i + 1) < item data i

/-- A strict local minimum. -/
def LocalMin (data : List K) (i : Nat) : Prop :=
  0 < i ∧ i + 1 < data.length ∧ item data i < item data (i - 1) ∧ item data i < item data (i + 1)

end QDng.Peak.Spec
