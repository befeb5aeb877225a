import Verif.GridPm.Model
import Verif.Common.Outcome

/-!
# Model of the input of a potential

Source: `/repo/src/qdlib/OGridPotential.cpp:15-16, 26-109` (`OGridPotential::OGridPotential`, `OGridPotential::Init`), with
the number conversions, the header of a grid and `GridSystem::Dim` of `Verif/GridPm/Model.lean`.

Simplifications: numbers are rational and integers unbounded (as in `Verif/GridPm`); the file is in the raw format (an
uncompressed data file with a meta file, `/repo/src/tools/FileSingle.h:1217-1300`); the modifiers `setzero`, `offset` and
`scale` (C157) are left out, so the values are those of the file; the copy of the parameters kept in the operator is left
out.
-/

namespace QDng.PotIn

open QDng QDng.Common QDng.Params QDng.GridPm

/-- `OGridPotential` (`/repo/src/qdlib/OGridPotential.h`): the flag `_init`, the grid and the vector; `none` is an element
that was never written. -/
structure Pot where
  busy : Bool
  grid : Header
  vals : List (Option ℚ)
  deriving DecidableEq

/-- Constructor (`/repo/src/qdlib/OGridPotential.cpp:15-16`, `/repo/src/qdlib/GridSystem.cpp:72-78`). -/
def Pot.new : Pot := { busy := false, grid := { dims := 0, dim := [] }, vals := [] }

/-- The files of a name: `none` if the meta file cannot be read, otherwise its parameters and the numbers in the data file
(`none` if it cannot be read) (`/repo/src/tools/FileSingle.h:1217-1300`). -/
abbrev Disk := Str → Option (Container × Option (List ℚ))

/-- `GetValue(name, double&)` (`/repo/src/tools/ParamContainer.cpp:223-234`) for a variable that may not be initialised. -/
def getDblO (lib : Lib) (c : Container) (name : Str) (cur : Option ℚ) : Option ℚ :=
  match OMap.find name c.params with
  | some t =>
    match lib.scanDbl t with
    | some v => some v
    | none => cur
  | none => some 0

/-- `GetValue(name, string&)` (`/repo/src/tools/ParamContainer.cpp:130-140`). -/
def getText (c : Container) (name : Str) : Str := (OMap.find name c.params).getD []

/-- `GridSystem::Size` (`/repo/src/qdlib/GridSystem.cpp:149-158`) for a header with all its dimensions. -/
def points (h : Header) : Int := if h.dims = 0 then 0 else (h.dim.map (fun d => d.size)).foldl (fun a b => a * b) 1

/-- `newsize` (`/repo/src/math/Vector.h:523-531`): the elements stay if the size stays. -/
def resize (l : List (Option ℚ)) (n : Nat) : List (Option ℚ) := if l.length = n then l else List.replicate n none

/-- The loop over the dimensions (`/repo/src/qdlib/OGridPotential.cpp:91-106`).  The first argument is `Dim() - i`; the
presence is always tested for `N0`; `n` and `d` keep the last value, `d` is not initialised at first. -/
def gridLoop (lib : Lib) (c : Container) : Nat → Nat → Int → Option ℚ → List Dim → Out (List Dim)
  | 0, _, _, _, ds => .ok ds
  | k + 1, i, n, d, ds =>
    if c.isPresent (keyN lib 0) then
      match getInt lib c (keyN lib i) (some n) with
      | none => .ub
      | some n' =>
        if n' < 1 then .threw ds
        else
          match getDblO lib c (keyMin lib i) d with
          | none => .ub
          | some lo =>
            match getDblO lib c (keyMax lib i) (some lo) with
            | none => .ub
            | some hi =>
              let ds' := ds.set i { size := n', xmin := lo, xmax := hi }
              if hi - lo ≤ 0 then .threw ds'
              else gridLoop lib c k (i + 1) n' (some hi) ds'
    else .ok ds

/-- The second part of `Init` (`/repo/src/qdlib/OGridPotential.cpp:84-108`) with the number of dimensions. -/
def gridInit (lib : Lib) (p : Pot) (c : Container) (n : Int) : Out Pot :=
  match setDims n with
  | .err => .threw p
  | .ub => .ub
  | .ok h =>
    match gridLoop lib c n.toNat 0 n none h.dim with
    | .threw ds => .threw { p with grid := { h with dim := ds } }
    | .ub => .ub
    | .ok ds => .ok { p with grid := { h with dim := ds }, vals := resize p.vals (points { h with dim := ds }).toNat }

/-- `Init` called while a file is read (`/repo/src/qdlib/OGridPotential.cpp:26-38, 84-108`,
`/repo/src/tools/FileSingle.h:1101-1105`): `_init` is set, so the parameters `file` of the meta file is not followed. -/
def initMeta (lib : Lib) (p : Pot) (c : Container) : Out Pot :=
  match getInt lib c keyDims none with
  | none => .ub
  | some n => gridInit lib p c n

/-- Reading the file (`/repo/src/qdlib/OGridPotential.cpp:54`, `/repo/src/tools/FileSingle.h:1238-1300`). -/
def readFile (lib : Lib) (disk : Disk) (p : Pot) (name : Str) : Out Pot :=
  match disk name with
  | none => .threw p
  | some (m, data) =>
    match initMeta lib p m with
    | .threw p' => .threw p'
    | .ub => .ub
    | .ok p' =>
      if p'.vals.length = 0 then .threw p'
      else match data with
        | none => .threw p'
        | some l =>
          if l.length < p'.vals.length then
            .threw { p' with vals := l.map some ++ p'.vals.drop l.length }
          else .ok { p' with vals := (l.take p'.vals.length).map some }

/-- `OGridPotential::Init` (`/repo/src/qdlib/OGridPotential.cpp:26-109`). -/
def init (lib : Lib) (disk : Disk) (p : Pot) (c : Container) : Out Pot :=
  match getInt lib c keyDims none with
  | none => .ub
  | some n =>
    let s := getText c ['f', 'i', 'l', 'e']
    if n ≤ 0 ∧ s.length ≠ 0 ∧ p.busy = false then
      match readFile lib disk { p with busy := true } s with
      | .ok p' => .ok { p' with busy := false }
      | .threw p' => .threw p'
      | .ub => .ub
    else gridInit lib p c n

end QDng.PotIn
