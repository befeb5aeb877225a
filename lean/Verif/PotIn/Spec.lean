import Verif.PotIn.Model
import Verif.GridPm.Spec

/-!
# What is expected of the input of a potential

The parameters that describe a grid are those of `Verif/GridPm/Spec.lean` (`Describes`, `Usable`).
-/

namespace QDng.PotIn

open QDng QDng.Params QDng.GridPm QDng.GridPm.Spec

/-- The number of points of a grid. -/
def count : List Dim → Int
  | [] => 1
  | d :: l => d.size * count l

/-- The parameter `file` is the name. -/
def FileIs (c : Container) (name : Str) : Prop := OMap.find "file".toList c.params = some name ∧ name ≠ []

/-- No file is given. -/
def NoFile (c : Container) : Prop := OMap.find "file".toList c.params = none

/-- The potential has this grid. -/
def OnGrid (p : Pot) (ds : List Dim) : Prop := p.grid = { dims := ds.length, dim := ds }

/-- The parameters give the number of points of the first dimension. -/
def FirstGiven (lib : Lib) (c : Container) : Prop := (OMap.find ("N".toList ++ lib.showInt 0) c.params).isSome = true

/-- The files of this name hold a potential on this grid. -/
def Holds (lib : Lib) (disk : Disk) (name : Str) (ds : List Dim) (values : List ℚ) : Prop :=
  ∃ m, disk name = some (m, some values) ∧ Describes lib m ds ∧ FirstGiven lib m ∧ Usable ds ∧
    (values.length : Int) = count ds

end QDng.PotIn
