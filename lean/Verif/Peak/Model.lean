import Mathlib.Algebra.Order.Field.Basic
import Mathlib.Algebra.BigOperators.Group.List.Basic

/-
Model of the peak finder: src/tools/PeakFinder.cpp.

The numbers are an ordered field and `sqrt` is a parameter (floating point numbers are not modelled).
-/

namespace QDng.Peak

variable {K : Type} [Field K] [LinearOrder K]

/-- `data[i]` (src/tools/PeakFinder.cpp:26, 39, 58); the model only reads inside of the data. -/
def item (data : List K) (i : Nat) : K := data.getD i 0

/-- The loops of `_Mean` and `_Sigma` (src/tools/PeakFinder.cpp:24-27, 37-40): a sum over `begin ≤ i < end`. -/
def sumLoop (f : Nat → K) (b : Nat) : Nat → K → K
  | 0, acc => acc
  | n + 1, acc => sumLoop f (b + 1) n (acc + f b)

/-- `_Mean` (src/tools/PeakFinder.cpp:20-31). -/
def mean (data : List K) (b e : Nat) : K := sumLoop (item data) b (e - b) 0 / ((e - b : Nat) : K)

/-- `_Sigma` (src/tools/PeakFinder.cpp:33-44). -/
def sigma (sqrt : K → K) (data : List K) (b e : Nat) (m : K) : K :=
  sqrt (1 / ((e - b : Nat) : K) * sumLoop (fun i => (item data i - m) * (item data i - m)) b (e - b) 0)

/-- The local variables of `_FindData` (src/tools/PeakFinder.cpp:53-55) and the peaks found. -/
structure St (K : Type) where
  start : Bool
  dmax : K
  indmax : Int
  peaks : List Int

/-- `start = true; dmax = 0; indmax = -1;` (src/tools/PeakFinder.cpp:58-63). -/
def St.open' (thr x : K) (st : St K) : St K :=
  if !st.start ∧ x > thr then { st with start := true, dmax := 0, indmax := -1 } else st

/-- The end of a region (src/tools/PeakFinder.cpp:64-68). -/
def St.close (thr x : K) (st : St K) : St K :=
  if st.start ∧ x < thr then { st with start := false, peaks := st.peaks ++ [st.indmax] } else st

/-- The maximum in a region (src/tools/PeakFinder.cpp:69-76). -/
def St.look (i : Nat) (x : K) (st : St K) : St K :=
  if st.start ∧ x > st.dmax then { st with dmax := x, indmax := i } else st

/-- One round (src/tools/PeakFinder.cpp:56-77). -/
def St.step (thr : K) (i : Nat) (x : K) (st : St K) : St K := ((st.open' thr x).close thr x).look i x

/-- The loop (src/tools/PeakFinder.cpp:56-77). -/
def findLoop (thr : K) : Nat → List K → St K → St K
  | _, [], st => st
  | i, x :: xs, st => findLoop thr (i + 1) xs (st.step thr i x)

/-- Behind the loop (src/tools/PeakFinder.cpp:78-83). -/
def St.finish (data : List K) (st : St K) : List Int :=
  if st.start ∧ st.indmax ≠ -1 ∧ item data (data.length - 1) < st.dmax then st.peaks ++ [st.indmax] else st.peaks

/-- The threshold (src/tools/PeakFinder.cpp:48-49, 58). -/
def threshold (sqrt : K → K) (tol : K) (data : List K) (b e : Nat) : K :=
  mean data b e + tol * sigma sqrt data b e (mean data b e)

/-- `_FindData(data, 0, data.size())` for a threshold (src/tools/PeakFinder.cpp:46-84). -/
def findData (thr : K) (data : List K) : List Int :=
  (findLoop thr 0 data { start := false, dmax := 0, indmax := -1, peaks := [] }).finish data

/-- `Find(data)` (src/tools/PeakFinder.cpp:92-102): the peaks; the object forgets those found before. -/
def find (sqrt : K → K) (tol : K) (data : List K) : List Int := findData (threshold sqrt tol data 0 data.length) data

/-- The loop of `Maximas` (src/tools/PeakFinder.cpp:182-187): the indices in the order of the loop (the set holds them in that order). -/
def maximasLoop : Nat → K → K → List K → List Nat
  | _, _, _, [] => []
  | i, last, delta, x :: xs =>
    if x < last ∧ delta > 0 then (i - 1) :: maximasLoop (i + 1) x (x - last) xs else maximasLoop (i + 1) x (x - last) xs

/-- `Maximas` (src/tools/PeakFinder.cpp:177-190). -/
def maximas : List K → List Nat
  | [] => []
  | x :: xs => maximasLoop 1 x 0 xs

/-- The loop of `Minimas` (src/tools/PeakFinder.cpp:197-200). -/
def minimasLoop : Nat → K → List K → List Nat
  | _, _, [] => []
  | i, last, x :: xs => if x > last then (i - 1) :: minimasLoop (i + 1) x xs else minimasLoop (i + 1) x xs

/-- `Minimas` (src/tools/PeakFinder.cpp:192-204). -/
def minimas : List K → List Nat
  | [] => []
  | _ :: xs => minimasLoop 1 0 xs

/-- The window around a maximum (src/tools/PeakFinder.cpp:119-128). -/
def window (n w i : Nat) : Nat × Nat := (if i < w then 0 else i - w, if i + w > n - 1 then n - 1 else i + w)

/-- `Find(data, winsize)` (src/tools/PeakFinder.cpp:107-143). -/
def findWindow (sqrt : K → K) (tol : K) (w : Nat) (data : List K) : List Nat :=
  (maximas data).filter fun i =>
    let r := window data.length w i
    item data i > threshold sqrt tol data r.1 r.2

end QDng.Peak
