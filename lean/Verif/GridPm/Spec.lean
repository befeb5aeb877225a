import Verif.GridPm.Model

/-
What the grid properties talk about, stated without the functions that read, write or compare the
parameters.
-/

namespace QDng.GridPm.Spec

open QDng QDng.Params

/-- The integer that stands under a name: the readable text there, or zero if the name is absent. -/
def IntAt (lib : Lib) (c : Container) (name : Str) (v : Int) : Prop :=
  (∃ t, OMap.find name c.params = some t ∧ lib.scanInt t = some v) ∨
    (OMap.find name c.params = none ∧ v = 0)

/-- The number that stands under a name: the readable text there, or zero if the name is absent. -/
def DblAt (lib : Lib) (c : Container) (name : Str) (v : ℚ) : Prop :=
  (∃ t, OMap.find name c.params = some t ∧ lib.scanDbl t = some v) ∨
    (OMap.find name c.params = none ∧ v = 0)

/-- The parameters describe these dimensions: `dims` is their number, and `N<i>`, `xmin<i>`,
`xmax<i>` are the numbers of dimension `i`. -/
structure Describes (lib : Lib) (c : Container) (ds : List Dim) : Prop where
  dims : IntAt lib c "dims".toList ds.length
  entry : ∀ (i : Nat) (d : Dim), ds[i]? = some d →
    IntAt lib c ("N".toList ++ lib.showInt i) d.size ∧
    DblAt lib c ("xmin".toList ++ lib.showInt i) d.xmin ∧
    DblAt lib c ("xmax".toList ++ lib.showInt i) d.xmax

/-- A grid that can be used: one to four dimensions, each with points and of positive length. -/
def Usable (ds : List Dim) : Prop :=
  1 ≤ ds.length ∧ ds.length ≤ 4 ∧ ∀ d ∈ ds, 0 < d.size ∧ d.xmin < d.xmax

/-- A number with at most six significant decimal digits. -/
def SixDigits (x : ℚ) : Prop := ∃ (m k : Int), |m| < 10 ^ 6 ∧ x = m * (10 : ℚ) ^ k

/-- The dimension with both ends as they are after printing six digits. -/
def rounded (d : Dim) : Dim := { size := d.size, xmin := six d.xmin, xmax := six d.xmax }

/-- Two dimensions that agree up to `1e-10`. -/
def Close (x y : Dim) : Prop :=
  x.size = y.size ∧ |x.xmin - y.xmin| ≤ 1 / 10 ^ 10 ∧ |x.xmax - y.xmax| ≤ 1 / 10 ^ 10

/-- A header as the member functions leave it: as many descriptions as dimensions. -/
def WellFormed (h : Header) : Prop := h.dims = h.dim.length

end QDng.GridPm.Spec
