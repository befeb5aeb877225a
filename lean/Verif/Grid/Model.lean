import Verif.Common.Loop
import Mathlib.Algebra.Field.Defs

/-
Model of the grid addressing (src/qdlib/GridSystem.h, GridSystem.cpp), of one dimensional views of
grid data (src/math/VectorView.h), of momentum grids (src/qdlib/Kspace.h, Kspace.cpp) and of the
momentum grids of the difference operator (src/qdlib/Diff.cpp).

Simplifications:
* sizes and indices are natural numbers; products that exceed the range of `int` are not modelled;
* floating point numbers are elements of a field, or of an arbitrary type where no arithmetic law
  is needed; rounding is not modelled;
* the iterations of OpenMP parallel loops are run one after the other.
-/

namespace QDng.Grid

open QDng.Common

/-! ### GridSystem -/

/-- Models `class GridSystem` (src/qdlib/GridSystem.h:24-47): the sizes of the dimensions, the
stripe tables `_lothers`, `_nothers` (`none` before the first call of `_BuildInfo`), and the active
dimension with its number of points (`none` before the first call of `ActiveDim`). -/
structure GridSys where
  sizes : List Nat
  lothers : Option (List Nat) := none
  nothers : Option (List Nat) := none
  active : Option (Nat × Nat) := none

/-- Models `GridSystem::Size` (src/qdlib/GridSystem.cpp:149-158). -/
def size (g : GridSys) : Nat :=
  if g.sizes.length = 0 then 0
  else (List.range g.sizes.length).foldl (fun s i => s * g.sizes.getD i 0) 1

/-- Models the loop for `_lothers[dim]` in `GridSystem::_BuildInfo`
(src/qdlib/GridSystem.cpp:278-286), and the same loop in `VectorView::ActiveDim`
(src/math/VectorView.h:99-106). -/
def lowOthersOf (sizes : List Nat) (dim : Nat) : Nat :=
  (List.range dim).foldl (fun s i => s * sizes.getD i 0) 1

/-- Models the loop for `_nothers[dim]` in `GridSystem::_BuildInfo`
(src/qdlib/GridSystem.cpp:279,289-292), and the same loop in `VectorView::ActiveDim`
(src/math/VectorView.h:98,109-112). -/
def numOthersOf (sizes : List Nat) (dim : Nat) : Nat :=
  (List.range sizes.length).foldl (fun s i => if i ≠ dim then s * sizes.getD i 0 else s) 1

/-- Models `GridSystem::_BuildInfo` (src/qdlib/GridSystem.cpp:275-294). -/
def buildInfo (g : GridSys) : GridSys :=
  { g with lothers := some ((List.range g.sizes.length).map (lowOthersOf g.sizes))
           nothers := some ((List.range g.sizes.length).map (numOthersOf g.sizes)) }

/-- Models `GridSystem::operator=` (src/qdlib/GridSystem.cpp:233-243): the header is copied and the
stripe tables are rebuilt; the active dimension of the target is left as it was. -/
def assign (g h : GridSys) : GridSys := buildInfo { g with sizes := h.sizes }

/-- Models `GridSystem::ActiveDim` (src/qdlib/GridSystem.h:81); a dimension that does not exist is
undefined behaviour. -/
def activeDim (g : GridSys) (dim : Nat) : Option GridSys :=
  match g.sizes[dim]? with
  | none => none
  | some n => some { g with active := some (dim, n) }

/-- Models `GridSystem::NumOthers()` (src/qdlib/GridSystem.h:87). -/
def numOthers (g : GridSys) : Option Nat :=
  match g.active, g.nothers with
  | some (d, _), some t => t[d]?
  | _, _ => none

/-- Models `GridSystem::LowOthers()` (src/qdlib/GridSystem.h:91). -/
def lowOthers (g : GridSys) : Option Nat :=
  match g.active, g.lothers with
  | some (d, _), some t => t[d]?
  | _, _ => none

/-- Models `GridSystem::IndexBase` (src/qdlib/GridSystem.h:113-116); the division by a stripe of
zero points is undefined behaviour. -/
def indexBase (g : GridSys) (replica : Nat) : Option Nat :=
  match g.active, lowOthers g with
  | some (_, na), some lo =>
    if lo = 0 then none else some (replica / lo * na * lo + replica % lo)
  | _, _ => none

/-- Models `GridSystem::Index` (src/qdlib/GridSystem.h:103-106). -/
def index (g : GridSys) (i replica : Nat) : Option Nat :=
  match g.active, lowOthers g with
  | some (_, na), some lo =>
    if lo = 0 then none else some (replica / lo * na * lo + replica % lo + i * lo)
  | _, _ => none

/-- Models `GridSystem::NumOthers(dim1, dim2)` (src/qdlib/GridSystem.cpp:300-308). -/
def numOthers2 (g : GridSys) (d1 d2 : Nat) : Nat :=
  (List.range g.sizes.length).foldl
    (fun s i => if i ≠ d1 ∧ i ≠ d2 then s * g.sizes.getD i 0 else s) 1

/-- Models `GridSystem::LowOthers(dim1, dim2)` (src/qdlib/GridSystem.cpp:310-324), with the test
`i != dim1 || i != dim2` as it is written there. -/
def lowOthers2 (g : GridSys) (d1 d2 : Nat) : Nat :=
  (List.range g.sizes.length).foldl
    (fun lo i =>
      let ltmp := if i ≠ d1 ∨ i ≠ d2 then lowOthersOf g.sizes i else 1
      if ltmp < lo then ltmp else lo)
    (size g)

/-! ### VectorView -/

/-- Models `class VectorView` (src/math/VectorView.h:19-40) on an unstrided vector.  `table` is
`_view`: for each dimension either `NULL` or the array of the addresses (offsets into the data)
`_view[dim][i][j]`.  `nothers` is uninitialised (`none`) before the first activation.
The vector the view refers to is held in `data`. -/
structure View (A : Type) where
  data : List A
  dims : List Nat
  table : List (Option (List (List Nat)))
  adim : Nat := 0
  nothers : Option Nat := none

/-- Models the constructor (src/math/VectorView.h:50-69) for an unstrided vector. -/
def View.new {A : Type} (data : List A) (dims : List Nat) : View A :=
  { data := data, dims := dims, table := List.replicate dims.length none }

/-- Models the construction of the pointer array in `VectorView::ActiveDim`
(src/math/VectorView.h:115-131). -/
def addresses (dims : List Nat) (dim : Nat) : List (List Nat) :=
  let me := dims.getD dim 0
  let lothers := lowOthersOf dims dim
  (List.range me).map (fun i =>
    (List.range (numOthersOf dims dim)).map (fun j =>
      j / lothers * me * lothers + j % lothers + i * lothers))

/-- Models `VectorView::ActiveDim` (src/math/VectorView.h:92-133).  As in the code, the number of
other points `_nothers` is computed only when the dimension is activated for the first time.  A
dimension that does not exist is undefined behaviour. -/
def View.activeDim {A : Type} (v : View A) (dim : Nat) : Option (View A) :=
  match v.table[dim]? with
  | none => none
  | some (some _) => some { v with adim := dim }
  | some none =>
    some { v with adim := dim
                  nothers := some (numOthersOf v.dims dim)
                  table := v.table.set dim (some (addresses v.dims dim)) }

/-- Models the loops of `operator=`, `operator*=` and `operator+=` of `VectorView`
(src/math/VectorView.h:160-209), which differ in the statement executed for each address:
`op old x` is the new value.  Reading an uninitialised or missing entry, an element of `vec` that
does not exist, or an address outside of the data is undefined behaviour. -/
def View.zip {A B : Type} (v : View A) (op : A → B → A) (vec : List B) : Option (View A) :=
  match v.dims[v.adim]? with
  | none => none
  | some me =>
    (loop me (fun i data =>
      match v.nothers with
      | none => none
      | some n =>
        loop n (fun j data =>
          match v.table[v.adim]? with
          | some (some t) =>
            match (t[i]?).bind (fun r => r[j]?), vec[i]? with
            | some a, some x => upd a (fun old => op old x) data
            | _, _ => none
          | _ => none) data) v.data).map (fun d => { v with data := d })

/-- A statement of a program that uses a view: activate a dimension, then combine a vector with it
(the way of use in src/qdlib/Diff.cpp:85-86,105-111,134-135, OGobbler.cpp:58-69). -/
structure Step (A B : Type) where
  dim : Nat
  op : A → B → A
  vec : List B

/-- Runs a sequence of such statements on a view. -/
def View.run {A B : Type} (v : View A) : List (Step A B) → Option (View A)
  | [] => some v
  | s :: r => ((v.activeDim s.dim).bind (fun w => w.zip s.op s.vec)).bind (fun w => w.run r)

/-! ### Momentum grids -/

/-- The data of one dimension of a grid used by the momentum grids: number of points and range
(src/qdlib/GridSystem.h: DimSize, Xmin, Xmax). -/
structure Axis (K : Type) where
  n : Nat
  xmin : K
  xmax : K

/-- Models `GridSystem::Dx` (src/qdlib/GridSystem.cpp:207-211). -/
def Axis.dx {K : Type} [Field K] (a : Axis K) : K := (a.xmax - a.xmin) / (((a.n : K)) - 1)

/-- Models `Kspace::Dk` (src/qdlib/Kspace.h:20-23); `pi` stands for `M_PI`. -/
def dk {K : Type} [Field K] (pi : K) (a : Axis K) : K := 2 * pi / (a.xmax - a.xmin + a.dx)

/-- Models `Kspace::Init1Dddx` (src/qdlib/Kspace.cpp:64-88).  The new vector is uninitialised
(`none`) until it is assigned. -/
def init1Dddx {K : Type} [Field K] (pi : K) (a : Axis K) (factor : K) : Option (List (Option K)) :=
  let dp := dk pi a * factor
  let k0 : List (Option K) := List.replicate a.n none
  if a.n % 2 = 0 then
    loop (a.n / 2) (fun i k =>
      (upd i (fun _ => some ((i : K) * dp)) k).bind
        (upd (a.n - i - 1) (fun _ => some (-1 * ((i + 1 : Nat) : K) * dp)))) k0
  else
    (upd 0 (fun _ => some 0) k0).bind (fun k =>
      loop ((a.n + 1) / 2 - 1) (fun j k =>
        (upd (j + 1) (fun _ => some (((j + 1 : Nat) : K) * dp)) k).bind
          (upd (a.n - (j + 1)) (fun _ => some (-1 * ((j + 1 : Nat) : K) * dp)))) k)

/-- Models `Kspace::Init1Dd2dx2` (src/qdlib/Kspace.cpp:22-50). -/
def init1Dd2dx2 {K : Type} [Field K] (pi : K) (a : Axis K) (factor : K) :
    Option (List (Option K)) :=
  let dp0 := dk pi a
  let dp := dp0 * dp0 * (- factor)
  let k0 : List (Option K) := List.replicate a.n none
  if a.n % 2 = 0 then
    loop (a.n / 2) (fun i k =>
      (upd i (fun _ => some ((i : K) * (i : K) * dp)) k).bind
        (upd (a.n - i - 1) (fun _ => some (((i + 1 : Nat) : K) * ((i + 1 : Nat) : K) * dp)))) k0
  else
    (upd 0 (fun _ => some 0) k0).bind (fun k =>
      loop ((a.n + 1) / 2 - 1) (fun j k =>
        (upd (j + 1) (fun _ => some (((j + 1 : Nat) : K) * ((j + 1 : Nat) : K) * dp)) k).bind
          (upd (a.n - (j + 1))
            (fun _ => some (((j + 1 : Nat) : K) * ((j + 1 : Nat) : K) * dp)))) k)

/-- Models `Kspace::Init1Dd2dx2(mass, Grid, dim)` (src/qdlib/Kspace.cpp:17-20), the kinetic energy
in momentum space. -/
def init1Dkin {K : Type} [Field K] (pi : K) (mass : K) (a : Axis K) : Option (List (Option K)) :=
  init1Dd2dx2 pi a (-1 / (2 * mass))

/-! ### Momentum grids of the difference operator -/

/-- The parameters of `class Diff` (src/qdlib/Diff.h:37-46) that `_InitKspace` uses: the grid, the
derivative and the prefactor of each dimension. -/
structure DiffPar (K : Type) where
  axes : List (Axis K)
  deriv : Nat
  pfac : List K

/-- `_grid.DimSizes()` of the difference operator (src/qdlib/GridSystem.cpp:116-122). -/
def DiffPar.sizes {K : Type} (p : DiffPar K) : List Nat := p.axes.map Axis.n

/-- The element `x` of a statement `*view = *kspace1` is copied, garbage included
(src/math/VectorView.h:169). -/
def setOp {K : Type} (_ : Option K) (x : Option K) : Option K := x

/-- The statement of `view += *kspace1` (src/math/VectorView.h:206); garbage stays garbage. -/
def addOp {K : Type} [Add K] (old x : Option K) : Option K :=
  match old, x with
  | some a, some b => some (a + b)
  | _, _ => none

/-- Models the one dimensional momentum grid chosen in src/qdlib/Diff.cpp:78-81. -/
def kspace1For {K : Type} [Field K] (pi : K) (p : DiffPar K) (i : Nat) :
    Option (List (Option K)) :=
  match p.axes[i]?, p.pfac[i]? with
  | some a, some f => if p.deriv = 1 then init1Dddx pi a f else init1Dd2dx2 pi a f
  | _, _ => none

/-- Models the body of the loop for the single dimension derivatives
(src/qdlib/Diff.cpp:70-89): the momentum grid `_kspace1[i]`. -/
def diffSingle {K : Type} [Field K] (pi : K) (p : DiffPar K) (i : Nat) :
    Option (List (Option K)) :=
  let data : List (Option K) := List.replicate (size { sizes := p.sizes }) (some 1)
  (kspace1For pi p i).bind (fun k =>
    (((View.new data p.sizes).activeDim i).bind (fun v => v.zip setOp k)).map View.data)

/-- Models the body of the loop for the mixed derivatives (src/qdlib/Diff.cpp:98-114): the momentum
grid `_kspaceMix[i][j]`.  Both one dimensional grids use the prefactor of dimension `i` and both are
assigned to the view. -/
def diffMixed {K : Type} [Field K] (pi : K) (p : DiffPar K) (i j : Nat) :
    Option (List (Option K)) :=
  let data : List (Option K) := List.replicate (size { sizes := p.sizes }) none
  match p.axes[i]?, p.axes[j]?, p.pfac[i]? with
  | some ai, some aj, some f =>
    (init1Dddx pi ai f).bind (fun k1 =>
      (((View.new data p.sizes).activeDim i).bind (fun v => v.zip setOp k1)).bind (fun v =>
        (init1Dddx pi aj f).bind (fun k2 =>
          ((v.activeDim j).bind (fun v => v.zip setOp k2)).map View.data)))
  | _, _, _ => none

/-- Models the set up of the sum over all dimensions (src/qdlib/Diff.cpp:120-139): the momentum
grid `_kspace`. -/
def diffColl {K : Type} [Field K] (pi : K) (p : DiffPar K) : Option (List (Option K)) :=
  let data : List (Option K) := List.replicate (size { sizes := p.sizes }) (some 0)
  (loop p.axes.length (fun i (v : View (Option K)) =>
    match p.axes[i]?, p.pfac[i]? with
    | some a, some f =>
      (init1Dd2dx2 pi a f).bind (fun k => (v.activeDim i).bind (fun v => v.zip addOp k))
    | _, _ => none) (View.new data p.sizes)).map View.data

end QDng.Grid
