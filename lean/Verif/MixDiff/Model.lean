import Verif.Stencil.Model

/-
Model of the mixed derivative by finite differences: `HOFD::Diff` with two dimensions and `HOFD::_DiffBlock2D`
(src/qdlib/HOFD.h:217-319,340-369) and its use in `Diff::DxDy` (src/qdlib/Diff.cpp:274-304), on top of the model of
src/qdlib/HOFD.h in Verif.Stencil.

Simplifications: as in Verif.Stencil; the OpenMP loops run one after the other; input, buffer and output are different arrays.
-/

namespace QDng.MixDiff

open QDng.Common QDng.Grid QDng.Stencil

/-- Models the sum over the coefficients (src/qdlib/HOFD.h:353-359) at the point `base`; round `t` is `j = order2 - 1 - t`,
`step = (t + 1) * lo`. -/
def pointVal {K : Type} [CommRing K] (cf : List K) (order2 N lo : Nat) (df : K) (inp : List K) (base : Int) : Option K :=
  (rd cf order2).bind fun c => (rd inp base).bind fun x =>
    loop order2 (fun t d =>
      (rd cf ((order2 : Int) - 1 - t)).bind fun c =>
      (rd inp ((base + (t + 1) * lo).tmod N)).bind fun r =>
      (rd inp ((N + base - (t + 1) * lo).tmod N)).bind fun l =>
        some (d + (df * c * r + c * l))) (c * x)

/-- The arguments of `_DiffBlock2D` that are the same for all calls (src/qdlib/HOFD.h:344-346). -/
structure Tab (K : Type) where
  cf : List K
  order2 : Nat
  N : Nat
  df : K
  acc : Bool

/-- Models `HOFD::_DiffBlock2D` (src/qdlib/HOFD.h:343-369); result: `out`. -/
def diffBlock2D {K : Type} [CommRing K] (p : Tab K) (point : Int) (lo1 lo2 bs1 bs2 : Nat) (h : K) (inp out : List K) :
    Option (List K) :=
  loop bs2 (fun x2 out => loop bs1 (fun x1 out =>
    (pointVal p.cf p.order2 p.N lo1 p.df inp (point + x2 * lo2 + x1 * lo1)).bind fun d =>
      wr (point + x2 * lo2 + x1 * lo1) (put p.acc (h * d)) out) out) out

/-- Models the search for a block size (src/qdlib/HOFD.h:248-253): the first number from `beg` on below `nx` that divides `nx`. -/
def blockSize (beg nx : Nat) : Nat := ((List.range' beg (nx - beg)).find? fun b => nx % b == 0).getD (max beg nx)

/-- The arguments of the loop over the slices (src/qdlib/HOFD.h:230-270). -/
structure Par (K : Type) where
  tab : Tab K
  n1 : Nat
  n2 : Nat
  lo1 : Nat
  lo2 : Nat
  bs1 : Nat
  bs2 : Nat
  h1 : K
  h2 : K

/-- The number `(Nx2-order2)/bs2-1` (src/qdlib/HOFD.h:291,306). -/
def Par.last {K : Type} (p : Par K) : Int := ((p.n2 : Int) - p.tab.order2).tdiv p.bs2 - 1

/-- Models the body of the loop over the second dimension (src/qdlib/HOFD.h:291-304); the state are the buffer and the result. -/
def blockStep {K : Type} [CommRing K] (p : Par K) (inp : List K) (base1 : Int) (blk2 : Nat) (s : List K × List K) :
    Option (List K × List K) :=
  let base2 := base1 + blk2 * p.bs2 * p.lo2
  (diffBlock2D p.tab (base2 + p.bs2 * p.lo2) p.lo1 p.lo2 p.bs1 p.bs2 p.h1 inp s.1).bind fun buf =>
  (diffBlock2D p.tab base2 p.lo2 p.lo1 p.bs2 p.bs1 p.h2 buf s.2).bind fun out => some (buf, out)

/-- Models the body of the loop over the first dimension (src/qdlib/HOFD.h:278-316). -/
def stripe {K : Type} [CommRing K] (p : Par K) (inp : List K) (base : Int) (blk1 : Nat) (s : List K × List K) :
    Option (List K × List K) :=
  let base1 := base + blk1 * p.bs1 * p.lo1
  let edge := ((p.tab.N : Int) + base1 - p.tab.order2 * p.lo2).tmod p.tab.N
  (diffBlock2D p.tab edge p.lo1 p.lo2 p.bs1 p.tab.order2 p.h1 inp s.1).bind fun buf =>
  (diffBlock2D p.tab base1 p.lo1 p.lo2 p.bs1 p.bs2 p.h1 inp buf).bind fun buf =>
  (loop p.last.toNat (blockStep p inp base1) (buf, s.2)).bind fun s =>
  (diffBlock2D p.tab (base1 + p.last * p.bs2 * p.lo2) p.lo2 p.lo1 p.bs2 p.bs1 p.h2 s.1 s.2).bind fun out =>
  (diffBlock2D p.tab edge p.lo2 p.lo1 p.tab.order2 p.bs1 p.h2 s.1 out).bind fun out => some (s.1, out)

/-- The arguments for an object, its grid and two dimensions (src/qdlib/HOFD.h:230-264); `none`: a dimension does not exist, or
the table has no such row. -/
def params {K : Type} [Field K] (o : Hofd K) (dim1 dim2 : Nat) (acc : Bool) : Option (Par K) :=
  match o.axes[dim1]?, o.axes[dim2]?, o.row with
  | some a1, some a2, some cf =>
    let order2 := o.order / 2
    let sizes := o.axes.map Axis.n
    some { tab := ⟨cf, order2, size { sizes := sizes }, o.df, acc⟩, n1 := a1.n, n2 := a2.n,
           lo1 := lowOthersOf sizes dim1, lo2 := lowOthersOf sizes dim2,
           bs1 := blockSize 16 a1.n, bs2 := blockSize (if order2 < 16 then 16 else order2) a2.n,
           h1 := 1 / a1.dx ^ o.deriv * o.pfac1, h2 := 1 / a2.dx ^ o.deriv * o.pfac1 }
  | _, _, _ => none

/-- Models `HOFD::Diff(res, buf, in, dim1, dim2, acc)` (src/qdlib/HOFD.h:227-319). -/
def mixed {K : Type} [Field K] (o : Hofd K) (inp : List K) (dim1 dim2 : Nat) (acc : Bool) (s : List K × List K) :
    Option (List K × List K) :=
  (params o dim1 dim2 acc).bind fun p =>
    let g : GridSys := { sizes := o.axes.map Axis.n }
    loop (numOthers2 g dim1 dim2) (fun rep => loop (p.n1 / p.bs1) (stripe p inp (rep * lowOthers2 g dim1 dim2))) s

/-- Models `Diff::DxDy(out, in, dim1, dim2, d)` with finite differences (src/qdlib/Diff.cpp:295-302): `buf` is the content of the
space buffer of `out`; result: `out`. -/
def dxdy {K : Type} [Field K] (o : Hofd K) (inp buf out : List K) (dim1 dim2 : Nat) (d : K) : Option (List K) :=
  (mixed { o with pfac1 := d, deriv := 1 } inp dim1 dim2 false (buf, out)).map Prod.snd

end QDng.MixDiff
