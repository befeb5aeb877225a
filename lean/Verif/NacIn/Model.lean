import Verif.Common.Outcome

/-!
# Model of the set-up of the non adiabatic coupling `GridNAC`

Source: `/repo/src/qdlib/OGridNAC.cpp:11-103, 131-133` and `/repo/src/qdlib/GridSystem.cpp:97-110`.

Simplifications: a file is given by the grid of the coupling function in it, a file that cannot be read by `none` (the
reading throws); a parameter that is present can be read; the derivative of a dimension accepts every wave function on a
grid with enough dimensions (`/repo/src/qdlib/OGridNabla.cpp:54-68`); numbers are only passed on, so their type is
arbitrary; grids are compared exactly (the code allows small differences, see C103).  An exception ends the set-up, the state after it is not described.
-/

namespace QDng.NacIn

open QDng.Common

/-- The parameters (`/repo/src/qdlib/OGridNAC.cpp:33-78`). -/
structure Pars (R : Type) where
  /-- `dims` -/
  dims : Option Int
  /-- `file` -/
  file : Option String
  /-- `sign` -/
  sign : Option R
  /-- `mass` -/
  mass : Option R

/-- The operator (`/repo/src/qdlib/OGridNAC.h:28-34`). -/
structure Nac (R G : Type) where
  /-- `Dim()` -/
  dim : Nat
  /-- `_NACME`: name of the file that was read and its grid -/
  pot : Nat → Option (String × G)
  /-- the dimension of `_Nabla[i]` -/
  nabla : Nat → Option Nat
  /-- `_sign` -/
  sign : R
  /-- `_mass` -/
  mass : R
  /-- `_buf` and the grid of it -/
  buf : Option G

/-- Wave functions (`/repo/src/qdlib/OGridNAC.cpp:85-87`): on a grid, or others. -/
inductive Wf (G : Type)
  | grid (g : G)
  | other

variable {R G : Type}

/-- The constructor (`/repo/src/qdlib/OGridNAC.cpp:13-19`). -/
def fresh (one : R) : Nac R G := ⟨0, fun _ => none, fun _ => none, one, one, none⟩

/-- `Dim(dims)` for a number of dimensions that was checked to be positive (`/repo/src/qdlib/GridSystem.cpp:97-110`;
`MAX_DIMS` is 4, `/repo/src/math/typedefs.h:28`). -/
def setDim (s : Nac R G) (d : Int) : Out (Nac R G) :=
  if d > 4 then .threw s else .ok { s with dim := d.toNat }

/-- The name of the file of dimension `i` (`/repo/src/qdlib/OGridNAC.cpp:55, 59-62`). -/
def fileOf (p : Pars R) (dim : Nat) (f : String) (i : Nat) : String :=
  if p.mass.isSome ∧ dim = 1 then f else f ++ toString i

/-- The loop over the dimensions, `k` remain (`/repo/src/qdlib/OGridNAC.cpp:50-69`). -/
def load (rd : String → Option G) (p : Pars R) (f : String) : Nat → Nat → Nac R G → Out (Nac R G)
  | 0, _, s => .ok s
  | k + 1, i, s =>
    match rd (fileOf p s.dim f i) with
    | none => .threw s
    | some g =>
      load rd p f k (i + 1)
        { s with
          pot := (fun j => if j = i then some (fileOf p s.dim f i, g) else s.pot j)
          nabla := (fun j => if j = i then some i else s.nabla j) }

/-- The end: sign and mass (`/repo/src/qdlib/OGridNAC.cpp:71-77`). -/
def numbers (p : Pars R) (s : Nac R G) : Nac R G :=
  { s with
    sign := p.sign.getD s.sign
    mass := if s.dim = 1 then p.mass.getD s.mass else s.mass }

/-- The part after the number of dimensions (`/repo/src/qdlib/OGridNAC.cpp:43-77`). -/
def initRest (rd : String → Option G) (p : Pars R) (s : Nac R G) : Out (Nac R G) :=
  match p.file with
  | none => .threw s
  | some f =>
    match load rd p f s.dim 0 s with
    | .ok s' => .ok (numbers p s')
    | .threw s' => .threw s'
    | .ub => .ub

/-- `Init(params)` (`/repo/src/qdlib/OGridNAC.cpp:27-78`). -/
def initPars (rd : String → Option G) (p : Pars R) (s : Nac R G) : Out (Nac R G) :=
  match (match p.dims with
    | some d => if d < 1 then Out.threw s else setDim s d
    | none => setDim s 1) with
  | .ok s' => initRest rd p s'
  | .threw s' => .threw s'
  | .ub => .ub

/-- The loop of `Init(Psi)`, `k` dimensions remain (`/repo/src/qdlib/OGridNAC.cpp:96-99`); the coupling function refuses
another grid (`/repo/src/qdlib/OGridPotential.cpp:111-120`). A potential that was never read has no
dimensions and is refused as well. -/
def prepLoop [DecidableEq G] (g : G) (s : Nac R G) : Nat → Nat → Bool
  | 0, _ => true
  | k + 1, i =>
    match s.pot i with
    | none => false
    | some q => if q.2 = g then prepLoop g s k (i + 1) else false

/-- `Init(Psi)` (`/repo/src/qdlib/OGridNAC.cpp:81-103`); `dimOf` is the number of dimensions of a grid. -/
def initPsi [DecidableEq G] (dimOf : G → Nat) (w : Wf G) (s : Nac R G) : Out (Nac R G) :=
  match w with
  | .other => .threw s
  | .grid g =>
    if s.dim ≠ dimOf g then .threw s
    else if s.buf.isSome then .ok s
    else if prepLoop g s s.dim 0 then .ok { s with buf := some g }
    else .threw s

/-- The first line of `Apply` (`/repo/src/qdlib/OGridNAC.cpp:131-133`): the buffer is used.  The result is the grid on which
the operator works. -/
def applyGrid (s : Nac R G) : Ans G :=
  match s.buf with
  | none => .ub
  | some g => .val g

end QDng.NacIn
