import Verif.Grid.Model

/-
Model of the finite difference operator (src/qdlib/HOFD.h) and of the perfectly matched layer
(src/qdlib/PML.cpp).

Simplifications: indices are integers without overflow, an index outside of the array is undefined
behaviour (`none`); floating point numbers are elements of a field without rounding; the input and
the output array are different arrays, as everywhere in the program; the iterations of OpenMP
parallel loops are run one after the other.
-/

namespace QDng.Stencil

open QDng.Common QDng.Grid

/-- Reads an array through a pointer: element `i` relative to the start of the array. -/
def rd {K : Type} (a : List K) (i : Int) : Option K := if i < 0 then none else a[i.toNat]?

/-- Writes an array through a pointer. -/
def wr {K : Type} (i : Int) (f : K → K) (a : List K) : Option (List K) :=
  if i < 0 then none else upd i.toNat f a

/-- `out = v` or `out += v` (src/qdlib/HOFD.h:407-413,427-430). -/
def put {K : Type} [Add K] (acc : Bool) (v : K) (old : K) : K := if acc then old + v else v

/-- The arguments of `HOFD::_DiffSingleDim` (src/qdlib/HOFD.h:372) besides the arrays; `base` is the
offset of the pointers `res` and `in` into their arrays. -/
structure Line (K : Type) where
  base : Int
  cf : List K
  nx : Nat
  lo : Nat
  order2 : Nat
  h : K
  df : K
  acc : Bool
  pbc : Bool

/-- Coefficient `cf[j]`. -/
def Line.c {K : Type} (p : Line K) (j : Int) : Option K := rd p.cf j

/-- Models the first inner loop at the edges (src/qdlib/HOFD.h:384-388), round `t`, i.e.
`j = order2 - 1 - t` and `step = (t + 1) * lo`. -/
def edgeA {K : Type} [CommRing K] (p : Line K) (inp : List K) (i t : Nat) (s : K × K) :
    Option (K × K) :=
  let bb : Int := p.base + i * p.lo
  let be : Int := p.base + ((p.nx : Int) - i - 1) * p.lo
  let step : Int := ((t : Int) + 1) * p.lo
  match p.c ((p.order2 : Int) - 1 - t), rd inp (bb - step), rd inp (bb + step), rd inp (be - step),
      rd inp (be + step) with
  | some c, some b1, some b2, some e1, some e2 =>
    some (s.1 + c * (b1 + p.df * b2), s.2 + c * (e1 + p.df * e2))
  | _, _, _, _, _ => none

/-- Models the second inner loop at the edges (src/qdlib/HOFD.h:391-395), round `t`, i.e.
`j = order2 - 1 - i - t` and `step = (i + 1 + t) * lo`. -/
def edgeB {K : Type} [CommRing K] (p : Line K) (inp : List K) (i t : Nat) (s : K × K) :
    Option (K × K) :=
  let bb : Int := p.base + i * p.lo
  let be : Int := p.base + ((p.nx : Int) - i - 1) * p.lo
  let step : Int := ((i : Int) + 1 + t) * p.lo
  match p.c ((p.order2 : Int) - 1 - i - t), rd inp (bb + step), rd inp (be - step) with
  | some c, some b, some e => some (s.1 + p.df * c * b, s.2 + c * e)
  | _, _, _ => none

/-- Models the loop for periodic boundary conditions (src/qdlib/HOFD.h:400-404), round `t`, i.e.
`j = order2 - i - 1 - t` and `step = (t + 1) * lo`. -/
def edgeC {K : Type} [CommRing K] (p : Line K) (inp : List K) (i t : Nat) (s : K × K) :
    Option (K × K) :=
  let step : Int := ((t : Int) + 1) * p.lo
  match p.c ((p.order2 : Int) - i - 1 - t), rd inp (p.base + (p.nx : Int) * p.lo - step),
      rd inp (p.base + step - p.lo) with
  | some c, some b, some e => some (s.1 + c * b, s.2 + p.df * c * e)
  | _, _, _ => none

/-- Models one round of the loop over the edges (src/qdlib/HOFD.h:375-414). -/
def edge {K : Type} [CommRing K] (p : Line K) (inp : List K) (i : Nat) (out : List K) :
    Option (List K) :=
  let bb : Int := p.base + i * p.lo
  let be : Int := p.base + ((p.nx : Int) - i - 1) * p.lo
  match p.c p.order2, rd inp bb, rd inp be with
  | some c, some b, some e =>
    (loop i (edgeA p inp i) (c * b, c * e)).bind (fun s =>
      (loop (p.order2 - i) (edgeB p inp i) s).bind (fun s =>
        (if p.pbc then loop (p.order2 - i) (edgeC p inp i) s else some s).bind (fun s =>
          (wr bb (put p.acc (p.h * s.1)) out).bind (wr be (put p.acc (p.h * s.2))))))
  | _, _, _ => none

/-- Models the inner loop in the center of the grid (src/qdlib/HOFD.h:421-425), round `t`. -/
def centerStep {K : Type} [CommRing K] (p : Line K) (inp : List K) (i t : Nat) (d : K) : Option K :=
  let b : Int := p.base + i * p.lo
  let step : Int := ((t : Int) + 1) * p.lo
  match p.c ((p.order2 : Int) - 1 - t), rd inp (b + step), rd inp (b - step) with
  | some c, some x, some y => some (d + p.df * c * x + c * y)
  | _, _, _ => none

/-- Models one round of the loop over the center (src/qdlib/HOFD.h:417-431), for the grid point
`i`. -/
def center {K : Type} [CommRing K] (p : Line K) (inp : List K) (i : Nat) (out : List K) :
    Option (List K) :=
  let b : Int := p.base + i * p.lo
  match p.c p.order2, rd inp b with
  | some c, some x =>
    (loop p.order2 (centerStep p inp i) (c * x)).bind (fun d =>
      wr b (put p.acc (d * p.h)) out)
  | _, _ => none

/-- Models `HOFD::_DiffSingleDim` (src/qdlib/HOFD.h:371-433). -/
def diffSingleDim {K : Type} [CommRing K] (p : Line K) (inp out : List K) : Option (List K) :=
  (loop p.order2 (edge p inp) out).bind (fun out =>
    loop (p.nx - p.order2 - p.order2) (fun t => center p inp (p.order2 + t)) out)

/-- The members of `class HOFD` (src/qdlib/HOFD.h:30-42). -/
structure Hofd (K : Type) where
  deriv : Nat
  order : Nat
  pbc : Bool
  cfc : List (List K)
  pfac1 : K
  pfac : List K
  axes : List (Axis K)

/-- Models `HOFD::_CheckSetup` (src/qdlib/HOFD.h:85-93), called by the constructor, `SetDeriv` and
`SetOrder`: `true` if no exception is thrown. -/
def checkSetup (deriv order : Int) : Bool :=
  !(decide (order > 50) || decide (order.tmod 2 ≠ 0) || decide (order < 2)) &&
    !(decide (deriv > 2) || decide (deriv < 1))

/-- The row of the table of coefficients used for a derivative and an order
(src/qdlib/HOFD.h:132,202), `HOFD_MAXORDER` is 50. -/
def Hofd.row {K : Type} (o : Hofd K) : Option (List K) :=
  o.cfc[(o.deriv - 1) * 50 / 2 + o.order / 2 - 1]?

/-- The prefactor `h` of a dimension (src/qdlib/HOFD.h:139,190). -/
def Hofd.h {K : Type} [Field K] (o : Hofd K) (dim : Nat) : Option K :=
  match o.axes[dim]?, o.pfac[dim]? with
  | some a, some f => some (1 / a.dx ^ o.deriv * o.pfac1 * f)
  | _, _ => none

/-- The sign `df` of the derivative (src/qdlib/HOFD.h:129-130,196-197). -/
def Hofd.df {K : Type} [Ring K] (o : Hofd K) : K := if o.deriv % 2 ≠ 0 then -1 else 1

/-- The grid of the operator after `SetGrid` (src/qdlib/HOFD.h:64). -/
def Hofd.grid {K : Type} (o : Hofd K) : GridSys :=
  assign { sizes := [] } { sizes := o.axes.map Axis.n }

/-- Models one round of the loop over the lines (src/qdlib/HOFD.h:207-214). -/
def diffLine {K : Type} [CommRing K] (g : GridSys) (cf : List K) (order2 : Nat) (h df : K)
    (acc pbc : Bool) (inp : List K) (rep : Nat) (out : List K) : Option (List K) :=
  match indexBase g rep, lowOthers g, g.active with
  | some bi, some lo, some (_, nx) => diffSingleDim ⟨bi, cf, nx, lo, order2, h, df, acc, pbc⟩ inp out
  | _, _, _ => none

/-- Models `HOFD::Diff(res, in, dim, acc)` (src/qdlib/HOFD.h:187-215). -/
def diffDim {K : Type} [Field K] (o : Hofd K) (inp out : List K) (dim : Nat) (acc : Bool) :
    Option (List K) :=
  match o.h dim, o.row, activeDim o.grid dim with
  | some h, some cf, some g =>
    match numOthers g with
    | some n => loop n (diffLine g cf (o.order / 2) h o.df acc o.pbc inp) out
    | none => none
  | _, _, _ => none

/-! ### all dimensions at once -/

/-- One dimension in `HOFD::Diff(res, in, acc)` (src/qdlib/HOFD.h:147-151): stripe size, number of
points, prefactor. -/
structure DimPar (K : Type) where
  lo : Nat
  n : Nat
  h : K

/-- Models the periodic loop (src/qdlib/HOFD.h:156-160), round `t`: `j = order2 - 1 - t`,
`step = (t + 1) * lo`. -/
def allPbc {K : Type} [CommRing K] (cf : List K) (order2 : Nat) (df : K) (q : DimPar K)
    (psi : List K) (i t : Nat) (d : K) : Option K :=
  let step : Int := ((t : Int) + 1) * q.lo
  match rd cf ((order2 : Int) - 1 - t), rd psi (((i : Int) + step).tmod q.n),
      rd psi (((q.n : Int) + i - step).tmod q.n) with
  | some c, some x, some y => some (d + df * c * x + c * y)
  | _, _, _ => none

/-- Models the loop to the right for open boundaries (src/qdlib/HOFD.h:162-166): the loop ends when
`step / N` leaves the local replica.  `t` counts down the rounds that are left,
`j = t - 1`. -/
def allRight {K : Type} [CommRing K] (cf : List K) (order2 : Nat) (df : K) (q : DimPar K)
    (psi : List K) (lrep : Int) : Nat → Int → K → Option K
  | 0, _, d => some d
  | t + 1, step, d =>
    if step.tdiv q.n = lrep then
      match rd cf t, rd psi step with
      | some c, some x => allRight cf order2 df q psi lrep t (step + q.lo) (d + df * c * x)
      | _, _ => none
    else some d

/-- Models the loop to the left for open boundaries (src/qdlib/HOFD.h:167-171). -/
def allLeft {K : Type} [CommRing K] (cf : List K) (order2 : Nat) (q : DimPar K)
    (psi : List K) (lrep : Int) (i : Nat) : Nat → Int → K → Option K
  | 0, _, d => some d
  | t + 1, step, d =>
    if ((q.n : Int) + i - step).tdiv q.n = lrep + 1 then
      match rd cf t, rd psi (((q.n : Int) + step).tmod q.n) with
      | some c, some x => allLeft cf order2 q psi lrep i t (step - q.lo) (d + c * x)
      | _, _ => none
    else some d

/-- Models the body of the loop over the dimensions (src/qdlib/HOFD.h:147-174).  A dimension without
points is a division by zero. -/
def allDim {K : Type} [CommRing K] (cf : List K) (order2 : Nat) (df : K) (pbc : Bool)
    (psi : List K) (i : Nat) (q : DimPar K) (out : List K) : Option (List K) :=
  if q.n = 0 then none
  else
    match rd cf order2, rd psi i with
    | some c, some x =>
      let lrep : Int := (i : Int).tdiv q.n
      (if pbc then loop order2 (allPbc cf order2 df q psi i) (c * x)
       else
        (allRight cf order2 df q psi lrep order2 ((i : Int) + q.lo) (c * x)).bind
          (allLeft cf order2 q psi lrep i order2 ((i : Int) - q.lo))).bind (fun d =>
        upd i (fun old => old + q.h * d) out)
    | _, _ => none

/-- Models the body of the loop over the points (src/qdlib/HOFD.h:145-175). -/
def allPoint {K : Type} [CommRing K] (cf : List K) (order2 : Nat) (df : K) (pbc acc : Bool)
    (psi : List K) (dims : List (DimPar K)) (i : Nat) (out : List K) : Option (List K) :=
  (if acc then some out else upd i (fun _ => 0) out).bind (fun out =>
    loop dims.length (fun d out =>
      match dims[d]? with
      | some q => allDim cf order2 df pbc psi i q out
      | none => none) out)

/-- The per dimension data of the loop (src/qdlib/HOFD.h:138-140,148-149). -/
def Hofd.dims {K : Type} [Field K] (o : Hofd K) : List (DimPar K) :=
  (List.range o.axes.length).map (fun d =>
    ⟨lowOthersOf (o.axes.map Axis.n) d, (o.axes.map Axis.n).getD d 0, (o.h d).getD 0⟩)

/-- Models `HOFD::Diff(res, in, acc)` (src/qdlib/HOFD.h:123-177). -/
def diffAll {K : Type} [Field K] (o : Hofd K) (inp out : List K) (acc : Bool) : Option (List K) :=
  match o.row with
  | some cf =>
    loop (size o.grid) (allPoint cf (o.order / 2) o.df o.pbc acc inp o.dims) out
  | none => none

/-! ### perfectly matched layer -/

/-- The parameters of `class PML` used by `ApplyTransform`: dimension, thickness, side
(1 begin, 2 end, others both) and the table `_f1` (src/qdlib/PML.cpp:25,124-130). -/
structure Pml (K : Type) where
  dim : Nat
  thick : Nat
  side : Nat
  f1 : List K

/-- Models one round of the loop over the layer (src/qdlib/PML.cpp:163-202), for the layer point `i`
(`step = i * lo`) on the line with the given base. -/
def layerStep {K : Type} [Mul K] (conj : K → K) (p : Pml K) (cj : Bool) (base : Int) (nx lo : Nat)
    (i : Nat) (psi : List K) : Option (List K) :=
  match p.f1[i]? with
  | none => none
  | some f0 =>
    let f := if cj then conj f0 else f0
    let step : Int := (i : Int) * lo
    if p.side = 1 then wr (base + step) (fun x => x * f) psi
    else if p.side = 2 then wr (base + ((nx : Int) - 1) * lo - step) (fun x => x * f) psi
    else (wr (base + step) (fun x => x * f) psi).bind
      (wr (base + ((nx : Int) - 1) * lo - step) (fun x => x * f))

/-- Models the body of the loop over the lines (src/qdlib/PML.cpp:158-204). -/
def pmlLine {K : Type} [Mul K] (conj : K → K) (p : Pml K) (cj : Bool) (g : GridSys) (rep : Nat)
    (psi : List K) : Option (List K) :=
  match indexBase g rep, lowOthers g, g.active with
  | some b, some lo, some (_, nx) => loop p.thick (layerStep conj p cj b nx lo) psi
  | _, _, _ => none

/-- Models `PML::ApplyTransform` (src/qdlib/PML.cpp:147-205); `sizes` is the grid set with
`SetGrid`.  `ApplyTransformDiff` (src/qdlib/PML.cpp:210-246) is the same function with the table
`_df1` and without conjugation. -/
def applyTransform {K : Type} [Mul K] (conj : K → K) (p : Pml K) (sizes : List Nat) (psi : List K)
    (cj : Bool) : Option (List K) :=
  match activeDim (assign { sizes := [] } { sizes := sizes }) p.dim with
  | none => none
  | some g =>
    match numOthers g with
    | none => none
    | some n => loop n (pmlLine conj p cj g) psi

/-- Outcome of reading a parameter that is given for each dimension. -/
inductive Par (A : Type) where
  | value (x : A)
  | throws
  | ub

/-- Models how `PML::InitParams` chooses the element of a parameter array for a dimension
(src/qdlib/PML.cpp:44-50, and the same statements for every parameter): a single value is used for
all dimensions, otherwise the element with the number of the dimension; the test is
`dim > val.size()`. -/
def pick {A : Type} (val : List A) (dim : Nat) : Par A :=
  if val.length ≠ 1 ∧ dim > val.length then .throws
  else if val.length = 1 then
    match val[0]? with
    | some x => .value x
    | none => .ub
  else
    match val[dim]? with
    | some x => .value x
    | none => .ub

/-- Models the tests of `PML::InitParams` on side and thickness (src/qdlib/PML.cpp:41-81): the
values used, if no exception is thrown.  Parameters that are not given keep the defaults 3 and 10
(src/qdlib/PML.cpp:25). -/
def pmlInit (lmap : Option (List Int)) (thick : Option (List Int)) (dim nx : Nat) :
    Par (Int × Int) :=
  let side : Par Int :=
    match lmap with
    | none => .value 3
    | some l =>
      match pick l dim with
      | .value s => if s < 0 ∨ s > 3 then .throws else .value s
      | .throws => .throws
      | .ub => .ub
  match side with
  | .throws => .throws
  | .ub => .ub
  | .value s =>
    match thick with
    | none => .value (s, 10)
    | some t =>
      match pick t dim with
      | .value w => if w > nx then .throws else .value (s, w)
      | .throws => .throws
      | .ub => .ub

end QDng.Stencil
