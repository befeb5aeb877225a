import Verif.Params.Model
import Mathlib.Data.Int.Log
import Mathlib.Algebra.Order.Round
import Mathlib.Data.Rat.Floor

/-
Model of the grid parameters (src/qdlib/GridSystem.cpp, GridSystem.h, GridSystem.proto), of the
initialisation of a grid wave function from parameters (src/qdlib/WFGridCartesian.cpp,
WFGridSystem.cpp) and of numeric parameters (src/tools/ParamContainer.cpp).

Simplifications:
* floating point numbers are rational numbers (no infinities, no NaN) and their arithmetic is exact;
* integers are unbounded, and the number of points of a dimension is an integer (`uint32` in the
  code, which stores only positive numbers here);
* the number of points `GridSystem::Size` of the whole grid is only followed as far as the
  dimensions it looks at are concerned; the allocation of the data is not modelled;
* what an exception leaves behind in the object is not modelled.
-/

namespace QDng.GridPm

open QDng QDng.Params

/-- The value of the text which `ss << value` produces for a `double`
(src/tools/ParamContainer.cpp:584-592, 614-624): the stream has the default precision, that is six
significant digits.  Simplification: a tie is rounded upwards. -/
def six (x : ℚ) : ℚ :=
  if x = 0 then 0
  else (round (x * 10 ^ (5 - Int.log 10 |x|)) : ℚ) / 10 ^ (5 - Int.log 10 |x|)

/-- The text conversions of the C and C++ library that the code uses: `sscanf` with `%d` and `%lf`
(src/tools/ParamContainer.cpp:152, 226; `none`: nothing is converted), `sprintf` with `%d` and
`ss << value` (src/qdlib/GridSystem.cpp:30, src/tools/ParamContainer.cpp:524-532, 584-592).
Assumed: an integer is read back as it was written, a floating point number with six digits. -/
structure Lib where
  scanInt : Str → Option Int
  scanDbl : Str → Option ℚ
  showInt : Int → Str
  showDbl : ℚ → Str
  scanInt_show : ∀ n, scanInt (showInt n) = some n
  scanDbl_show : ∀ x, scanDbl (showDbl x) = some (six x)

/-- Models `ParamContainer::GetValue(name, int&)` (src/tools/ParamContainer.cpp:149-159): the new
content of the variable, whose content before the call is `cur` (`none`: uninitialised). -/
def getInt (lib : Lib) (c : Container) (name : Str) (cur : Option Int) : Option Int :=
  match OMap.find name c.params with
  | some t =>
    match lib.scanInt t with
    | some v => some v
    | none => cur
  | none => some 0

/-- Models `ParamContainer::GetValue(name, double&)` (src/tools/ParamContainer.cpp:223-234) for an
initialised variable. -/
def getDbl (lib : Lib) (c : Container) (name : Str) (cur : ℚ) : ℚ :=
  match OMap.find name c.params with
  | some t =>
    match lib.scanDbl t with
    | some v => v
    | none => cur
  | none => 0

/-- Models `ParamContainer::SetValue(name, int)` (src/tools/ParamContainer.cpp:524-532). -/
def setInt (lib : Lib) (c : Container) (name : Str) (v : Int) : Container :=
  c.setValue name (lib.showInt v) .int

/-- Models `ParamContainer::SetValue(name, double)` (src/tools/ParamContainer.cpp:584-592). -/
def setDbl (lib : Lib) (c : Container) (name : Str) (v : ℚ) : Container :=
  c.setValue name (lib.showDbl v) .double

/-- Models `GridSystemHeader::dim_description_t` (src/qdlib/GridSystem.proto:10-14). -/
structure Dim where
  size : Int
  xmin : ℚ
  xmax : ℚ
  deriving DecidableEq

/-- Models `GridSystemHeader` (src/qdlib/GridSystem.proto:6-17): the number of dimensions and the
descriptions of the dimensions are separate fields. -/
structure Header where
  dims : Int
  dim : List Dim
  deriving DecidableEq

/-- Outcome of a call: it returns, it throws `EParamProblem`, or its behaviour is undefined. -/
inductive Res (A : Type)
  | ok (a : A)
  | err
  | ub
  deriving DecidableEq

/-- The names `N<i>` (src/qdlib/GridSystem.cpp:30-31, 36, 68). -/
def keyN (lib : Lib) (i : Nat) : Str := 'N' :: lib.showInt i

/-- The names `xmin<i>` (src/qdlib/GridSystem.cpp:43, 66). -/
def keyMin (lib : Lib) (i : Nat) : Str := 'x' :: 'm' :: 'i' :: 'n' :: lib.showInt i

/-- The names `xmax<i>` (src/qdlib/GridSystem.cpp:46, 67). -/
def keyMax (lib : Lib) (i : Nat) : Str := 'x' :: 'm' :: 'a' :: 'x' :: lib.showInt i

/-- The name `dims` (src/qdlib/GridSystem.cpp:21, 60). -/
def keyDims : Str := ['d', 'i', 'm', 's']

/-- Models the loop of `GridSystemHeaderPm::InitFromParamContainer`
(src/qdlib/GridSystem.cpp:33-54).  The first argument is `dims - i`.  As in the code the test for the
presence is always for `N0`, and `n` and `d` keep the last value that was read. -/
def initLoop (lib : Lib) (c : Container) : Nat → Nat → Int → ℚ → List Dim → Res (List Dim)
  | 0, _, _, _, acc => .ok acc
  | k + 1, i, n, d, acc =>
    if c.isPresent (keyN lib 0) then
      match getInt lib c (keyN lib i) (some n) with
      | none => .ub
      | some n' =>
        if n' ≤ 0 then .err
        else
          let lo := getDbl lib c (keyMin lib i) d
          let hi := getDbl lib c (keyMax lib i) lo
          if hi - lo ≤ 0 then .err
          else initLoop lib c k (i + 1) n' hi (acc ++ [{ size := n', xmin := lo, xmax := hi }])
    else .ok acc

/-- Models `GridSystemHeaderPm::InitFromParamContainer` (src/qdlib/GridSystem.cpp:15-55): `dims` is
not initialised before it is read. -/
def initHeader (lib : Lib) (c : Container) : Res Header :=
  match getInt lib c keyDims none with
  | none => .ub
  | some dims =>
    if dims ≤ 0 then .err
    else
      match initLoop lib c dims.toNat 0 0 0 [] with
      | .ok l => .ok { dims := dims, dim := l }
      | .err => .err
      | .ub => .ub

/-- `MAX_DIMS` (src/math/typedefs.h:28). -/
def maxDims : Int := 4

/-- Models the accesses of `GridSystem::Size` (src/qdlib/GridSystem.cpp:149-158): the description of
each of the `dims` dimensions; one which does not exist is undefined behaviour. -/
def sizeDefined (h : Header) : Bool :=
  (List.range h.dims.toNat).all (fun i => (h.dim[i]?).isSome)

/-- Models `WFGridCartesian::Init` (src/qdlib/WFGridCartesian.cpp:38-47) with `WFGridSystem::Init`
(src/qdlib/WFGridSystem.cpp:57-61). -/
def wfInit (lib : Lib) (c : Container) : Res Header :=
  match initHeader lib c with
  | .err => .err
  | .ub => .ub
  | .ok h =>
    if sizeDefined h then
      if h.dims = 0 ∨ h.dims > maxDims then .err else .ok h
    else .ub

/-- Models the loop of `GridSystemHeaderPm::DumpParams` (src/qdlib/GridSystem.cpp:62-69); the first
argument is the number of remaining iterations. -/
def dumpLoop (lib : Lib) (h : Header) : Nat → Nat → Container → Option Container
  | 0, _, c => some c
  | k + 1, i, c =>
    match h.dim[i]? with
    | none => none
    | some d =>
      let c1 := setDbl lib c (keyMin lib i) d.xmin
      let c2 := setDbl lib c1 (keyMax lib i) d.xmax
      let c3 := setInt lib c2 (keyN lib i) d.size
      dumpLoop lib h k (i + 1) c3

/-- Models `GridSystemHeaderPm::DumpParams` (src/qdlib/GridSystem.cpp:57-70); the description of a
dimension that does not exist is undefined behaviour (`none`). -/
def dump (lib : Lib) (h : Header) (c : Container) : Option Container :=
  dumpLoop lib h h.dims.toNat 0 (setInt lib c keyDims h.dims)

/-- `GRID_EPS` (src/qdlib/GridSystem.cpp:9). -/
def gridEps : ℚ := 1 / 10 ^ 10

/-- Models the loop of `GridSystem::operator==` (src/qdlib/GridSystem.cpp:254-259): the first
argument is the number of remaining iterations.  The description of a dimension that does not exist
is undefined behaviour. -/
def eqLoop (a b : Header) : Nat → Nat → Bool → Option Bool
  | 0, _, e => some e
  | k + 1, i, e =>
    match a.dim[i]?, b.dim[i]? with
    | some x, some y =>
      let e1 := if x.size ≠ y.size then false else e
      let e2 := if |x.xmin - y.xmin| > gridEps then false else e1
      let e3 := if |x.xmax - y.xmax| > gridEps then false else e2
      eqLoop a b k (i + 1) e3
    | _, _ => none

/-- Models `GridSystem::operator==` (src/qdlib/GridSystem.cpp:248-261). -/
def gridEq (a b : Header) : Option Bool :=
  if a.dims ≠ b.dims then some false else eqLoop a b a.dims.toNat 0 true

/-- Models `GridSystem::operator!=` (src/qdlib/GridSystem.cpp:266-270). -/
def gridNe (a b : Header) : Option Bool :=
  match gridEq a b with
  | none => none
  | some true => some false
  | some false => some true

/-- Models `GridSystem::Dim(int)` (src/qdlib/GridSystem.cpp:101-114): new descriptions have the
default values of src/qdlib/GridSystem.proto:11-13. -/
def setDims (dims : Int) : Res Header :=
  if dims > maxDims then .err
  else if dims < 0 then .err
  else .ok { dims := dims, dim := List.replicate dims.toNat { size := 0, xmin := 0, xmax := 0 } }

/-- Models the loop of `GridSystem::SetFromArrays` (src/qdlib/GridSystem.cpp:223-227) with the
setters of lines 141-144, 175-179 and 196-200 (their update of `_dx`, which nothing reads, is left
out).  The conversion of a negative number of points to `uint32` is not modelled. -/
def setLoop (N : List Int) (lo hi : List ℚ) : Nat → Nat → List Dim → Option (List Dim)
  | 0, _, ds => some ds
  | k + 1, i, ds =>
    match ds[i]?, N[i]?, lo[i]?, hi[i]? with
    | some d, some n, some l, some u =>
      let d1 := { d with size := n }
      let d2 := { d1 with xmin := l }
      let d3 := { d2 with xmax := u }
      setLoop N lo hi k (i + 1) (ds.set i d3)
    | _, _, _, _ => none

/-- Models `GridSystem::SetFromArrays` (src/qdlib/GridSystem.cpp:216-228). -/
def setFromArrays (N : List Int) (lo hi : List ℚ) : Res Header :=
  if N.length ≠ lo.length ∨ lo.length ≠ hi.length then .err
  else
    match setDims N.length with
    | .err => .err
    | .ub => .ub
    | .ok h =>
      match setLoop N lo hi N.length 0 h.dim with
      | none => .ub
      | some ds => .ok { h with dim := ds }

/-- Models `GridSystem::Dx` (src/qdlib/GridSystem.cpp:207-211) for a dimension with at least two
points (a single point is a division by zero). -/
def dx (d : Dim) : ℚ := (d.xmax - d.xmin) / (d.size - 1)

end QDng.GridPm
