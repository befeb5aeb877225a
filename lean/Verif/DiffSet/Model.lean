import Verif.Common.Outcome
import Verif.Stencil.Model

/-
Model of the difference operator with choosable method (src/qdlib/Diff.cpp, Diff.h): its set-up and the derivatives along one
dimension by finite differences.  The derivatives by Fourier transforms are in Verif.Deriv, the momentum grids in Verif.Grid.

Simplifications: as in Verif.Stencil; the momentum grid of a dimension is represented by the grid (with prefactors) it was computed
from; `order` is read without error (its text is a number).
-/

namespace QDng.DiffSet

open QDng.Common QDng.Grid QDng.Stencil

/-- The methods (src/qdlib/Diff.h:35). -/
inductive Method
  | fft
  | hofd
deriving DecidableEq

/-- The members of `Diff` (src/qdlib/Diff.h:37-50) that the set-up touches: `grid` and `dims` are the grid (with prefactors) and its
number of dimensions, `table i` the grid the momentum grid of dimension `i` was computed from (`none`: empty), `hofd` derivative,
order, boundaries and grid of the finite difference object. -/
structure Obj (G : Type) where
  deriv : Int
  dim : Int
  method : Method
  grid : G
  dims : Nat
  table : Nat → Option G
  hofd : Option (Int × Int × Bool × G)

/-- Models the constructor (src/qdlib/Diff.cpp:26-30) followed by `SetGrid` (src/qdlib/Diff.h:68). -/
def Obj.new {G : Type} (deriv : Int) (grid : G) (dims : Nat) : Obj G := ⟨deriv, -1, .fft, grid, dims, fun _ => none, none⟩

/-- Models `SetGrid` (src/qdlib/Diff.h:68). -/
def Obj.setGrid {G : Type} (o : Obj G) (grid : G) (dims : Nat) : Obj G := { o with grid := grid, dims := dims }

/-- Models `_InitKspace` for the derivatives along single dimensions (src/qdlib/Diff.cpp:52-91), with the default flags of the
constructor.  The loop runs from `begin` to `end`. -/
def Obj.initKspace {G : Type} (o : Obj G) : Obj G :=
  let b : Int := if o.dim > -1 then o.dim else 0
  let e : Int := if o.dim > -1 then o.dim else o.dims
  { o with table := fun i => if b ≤ i ∧ i < e then some o.grid else o.table i }

/-- The parameters read by `InitParams` (src/qdlib/Diff.cpp:153-193). -/
structure Pm where
  method : Option String
  order : Option Int
  pbc : Bool
  dim : Option Int

/-- Models the choice of the method (src/qdlib/Diff.cpp:153-163); `none`: refused. -/
def choose (old : Method) : Option String → Option Method
  | none => some old
  | some m => if m = "FFT" then some .fft else if m = "HOFD" then some .hofd else none

/-- Models the tests at the end of `InitParams` (src/qdlib/Diff.cpp:185-193). -/
def Obj.checkDim {G : Type} (o : Obj G) (dim : Option Int) : Out (Obj G) :=
  if o.dims = 0 then .threw o
  else match dim with
    | none => .ok o
    | some d => if d > o.dims - 1 ∨ d < -1 then .threw { o with dim := d } else .ok { o with dim := d }

/-- Models `InitParams` (src/qdlib/Diff.cpp:149-195). -/
def Obj.initParams {G : Type} (o : Obj G) (pm : Pm) : Out (Obj G) :=
  match choose o.method pm.method with
  | none => .threw o
  | some m =>
    let o := { o with method := m }
    match m with
    | .hofd =>
      let order := pm.order.getD 8
      if checkSetup o.deriv order then ({ o with hofd := some (o.deriv, order, pm.pbc, o.grid) } : Obj G).checkDim pm.dim
      else .threw o
    | .fft => o.initKspace.checkDim pm.dim

/-- Models `DnDxn(out, in, dim, d)` with finite differences (src/qdlib/Diff.cpp:237-240); `pfac` are the prefactors of `Diff`, `h`
the finite difference object, which was given the same prefactors (src/qdlib/Diff.cpp:175-178). -/
def dndxn {K : Type} [Field K] (pfac : List K) (h : Hofd K) (inp out : List K) (dim : Nat) (d : K) : Option (List K) :=
  match pfac[dim]? with
  | none => none
  | some f => diffDim { h with pfac1 := d * f, pfac := pfac } inp out dim false

/-- Models `DnDxnAdd(out, in, dim, d)` with finite differences (src/qdlib/Diff.cpp:263-266). -/
def dndxnAdd {K : Type} [Field K] (pfac : List K) (h : Hofd K) (inp out : List K) (dim : Nat) (d : K) : Option (List K) :=
  diffDim { h with pfac1 := d, pfac := pfac } inp out dim true

end QDng.DiffSet
