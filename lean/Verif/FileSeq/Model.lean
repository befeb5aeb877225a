import Verif.Common.OMap

/-!
# Model of numbered files

Source: `/repo/src/tools/FileSingle.h`.  The file system is a map from names to contents.  Counters are
integers without bound (an overflow of `int` is not modelled).
-/

namespace QDng.FileSeq

open QDng

/-- Decimal digit. -/
def digit (n : Nat) : Char := Char.ofNat (48 + n % 10)

/-- Decimal rendering of a non negative number by `ostream << int` (`/repo/src/tools/FileSingle.h:1404`). -/
def showNat (n : Nat) : Str := if n < 10 then [digit n] else showNat (n / 10) ++ [digit n]
termination_by n
decreasing_by omega

/-- Decimal rendering of an `int` (`/repo/src/tools/FileSingle.h:1404`). -/
def showInt (i : Int) : Str := if i < 0 then '-' :: showNat i.natAbs else showNat i.natAbs

/-- The members of `FileSingle` that determine the file (`/repo/src/tools/FileSingle.h:207-214`). -/
structure Seq where
  name : Str
  suffix : Str
  sequence : Bool
  counter : Int
  increment : Int
  deriving DecidableEq, Repr

/-- `BuildDataFileName` (`/repo/src/tools/FileSingle.h:1399-1410`). -/
def Seq.fileName (s : Seq) : Str :=
  if s.sequence then s.name ++ '_' :: (showInt s.counter ++ s.suffix) else s.name ++ s.suffix

/-- `if (_sequence) _counter += _increment` (`/repo/src/tools/FileSingle.h:1020,1209,1299,1378,1461,1519`). -/
def Seq.advance (s : Seq) : Seq := if s.sequence then { s with counter := s.counter + s.increment } else s

/-- The file system: contents by name. -/
abbrev FS (α : Type) := Str → Option α

/-- `WriteFile` (`/repo/src/tools/FileSingle.h:1529-1549`): the file is replaced. -/
def write {α : Type} (x : α) (p : Seq × FS α) : Seq × FS α :=
  (p.1.advance, fun n => if n = p.1.fileName then some x else p.2 n)

/-- `ReadFile` (`/repo/src/tools/FileSingle.h:1559-1579`); `none` is the exception for a missing file. -/
def read {α : Type} (s : Seq) (fs : FS α) : Option (α × Seq) := (fs s.fileName).map (fun x => (x, s.advance))

/-- Writing a list of objects. -/
def writeAll {α : Type} : List α → Seq × FS α → Seq × FS α
  | [], p => p
  | x :: r, p => writeAll r (write x p)

/-- Reading `n` objects. -/
def readAll {α : Type} : Nat → Seq → FS α → Option (List α × Seq)
  | 0, s, _ => some ([], s)
  | n + 1, s, fs =>
    match read s fs with
    | none => none
    | some (x, s) =>
      match readAll n s fs with
      | none => none
      | some (r, s) => some (x :: r, s)

/-- `ActivateSequence` (`/repo/src/tools/FileSingle.h:542-548`). -/
def Seq.activate (s : Seq) (inc : Int) : Seq := { s with sequence := true, increment := inc }

/-- `Counter(int)` (`/repo/src/tools/FileSingle.h:582-588`). -/
def Seq.setCounter (s : Seq) (c : Int) : Seq := { s with counter := c }

/-- `ReverseSequence` (`/repo/src/tools/FileSingle.h:362`). -/
def Seq.reverse (s : Seq) : Seq := { s with increment := -1 }

/-- `ForwardSequence` (`/repo/src/tools/FileSingle.h:363`). -/
def Seq.forward (s : Seq) : Seq := { s with increment := 1 }

end QDng.FileSeq
