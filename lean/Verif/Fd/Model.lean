import Verif.Common.Outcome
import Verif.Stencil.Model
import Verif.Stencil.Table
import Mathlib.Analysis.SpecialFunctions.Trigonometric.Basic

/-
Model of the finite difference operator for grids: src/qdlib/OGridHOFD.cpp, on top of the model of src/qdlib/HOFD.h in
Verif.Stencil.

Simplifications: real numbers without rounding; the parameters deriv and order are given; `_hofd` is `none` while it is the
null pointer or points to a deleted object; source and destination of `Apply` are different wave functions.
-/

namespace QDng.Fd

open QDng.Common QDng.Grid QDng.Stencil

/-- The table of coefficients (src/qdlib/cfd_table_1.h:5-354, src/qdlib/cfd_table_2.h:5-354) as numbers. -/
noncomputable def coeffs : List (List ℂ) := cfTable.map fun r => r.map fun x : ℚ => (x : ℂ)

/-- An axis with its limits as complex numbers, only to fit the type of the stencil (src/qdlib/GridSystem.h:33-37). -/
noncomputable def axisC (a : Axis ℝ) : Axis ℂ := ⟨a.n, (a.xmin : ℂ), (a.xmax : ℂ)⟩

/-- The members of `OGridHOFD` (src/qdlib/OGridHOFD.h:36-43): `pMass` is the parameter mass kept in `_params`, `axes` the grid.
`_pfac` is always one. -/
structure Op where
  deriv : Int
  order : Int
  dim : Int
  mass : List ℝ
  pMass : Option (List ℝ)
  hofd : Option (Hofd ℂ)
  axes : List (Axis ℝ)

/-- Models the constructor (src/qdlib/OGridHOFD.cpp:21-25); `MAX_DIMS` is 4 (src/math/typedefs.h:28). -/
def Op.new : Op := ⟨1, 2, -1, List.replicate 4 1, none, none, []⟩

/-- Models the constructor of `HOFD` with `SetPBC` and `SetFactor` (src/qdlib/HOFD.h:99-113, src/qdlib/OGridHOFD.cpp:49-51). -/
noncomputable def newHofd (deriv order : Nat) (pbc : Bool) : Hofd ℂ :=
  ⟨deriv, order, pbc, coeffs, 1, List.replicate 4 1, []⟩

/-- Models `Init(params)` (src/qdlib/OGridHOFD.cpp:32-52). -/
noncomputable def Op.initParams (o : Op) (deriv order : Int) (pbc : Bool) (dim : Option Int) (mass : Option (List ℝ)) : Out Op :=
  let o := { o with deriv := deriv, order := order, pMass := mass, dim := dim.getD o.dim, hofd := none }
  if checkSetup deriv order then .ok { o with hofd := some (newHofd deriv.toNat order.toNat pbc) }
  else .threw o

/-- Models one round of the loop over the masses (src/qdlib/OGridHOFD.cpp:82-88): whether a mass above -1 has been seen, and the
value of all elements of `factor`. -/
noncomputable def massStep (v : List ℝ) (s : Ans (Bool × ℝ)) (i : Nat) : Ans (Bool × ℝ) :=
  match s with
  | .val (eff, _) =>
    match v[i]? with
    | none => .ub
    | some m => if m = 0 then .threw else .val (eff || decide (m > -1), -1 / (2 * m))
  | e => e

/-- Models the loop over the masses (src/qdlib/OGridHOFD.cpp:80-88). -/
noncomputable def massLoop (v : List ℝ) (D : Nat) : Ans (Bool × ℝ) := (List.range D).foldl (massStep v) (.val (false, 0))

/-- Models `Init(Psi)` (src/qdlib/OGridHOFD.cpp:54-95) for a wave function on the given grid. -/
noncomputable def Op.initPsi (o : Op) (axes : List (Axis ℝ)) : Out Op :=
  let o := { o with axes := axes }
  if (axes.length : Int) ≤ o.dim ∨ o.dim < -1 then .threw o
  else
    match o.hofd with
    | none => .ub
    | some h =>
      let h := { h with axes := axes.map axisC }
      match o.pMass with
      | none => .ok { o with hofd := some { h with pfac := o.mass.map fun m : ℝ => (m : ℂ) } }
      | some v =>
        let o := { o with mass := v, hofd := some h }
        if v.length < 1 then .threw o
        else
          match massLoop v axes.length with
          | .ub => .ub
          | .threw => .threw o
          | .val (eff, f) =>
            let o := { o with hofd := some { h with pfac := List.replicate v.length (f : ℂ) } }
            if eff then .ok o else .threw o

/-- Models `Apply` (src/qdlib/OGridHOFD.cpp:120-129). -/
noncomputable def Op.apply (o : Op) (inp out : List ℂ) : Option (List ℂ) :=
  match o.hofd with
  | none => none
  | some h =>
    if o.dim = -1 then
      (diffDim h inp out 0 false).bind fun out =>
        loop (o.axes.length - 1) (fun k out => diffDim h inp out (k + 1) true) out
    else if o.dim < 0 then none
    else diffDim h inp out o.dim.toNat false

/-- Models `Emax` (src/qdlib/OGridHOFD.cpp:97-110); an access behind the masses or the dimensions is undefined. -/
noncomputable def Op.emax (o : Op) : Ans ℂ :=
  if o.deriv = 1 then
    match o.axes[0]? with
    | some a => .val (((Real.pi / a.dx : ℝ) : ℂ) * Complex.I)
    | none => .ub
  else
    if o.axes.length ≤ o.mass.length then
      .val ((((List.zipWith (fun (a : Axis ℝ) m => if m > 0 then 1 / (m * a.dx * a.dx) else 0) o.axes o.mass).sum *
        (Real.pi * Real.pi / 2) : ℝ) : ℂ))
    else .ub

/-- Models `Emin` (src/qdlib/OGridHOFD.cpp:112-118). -/
noncomputable def Op.emin (o : Op) : Ans ℂ :=
  if o.deriv = 1 then
    match o.axes[0]? with
    | some a => .val (((-Real.pi / a.dx : ℝ) : ℂ) * Complex.I)
    | none => .ub
  else .val 0

/-- Models `Copy` into a new operator (src/qdlib/OGridHOFD.cpp:136-149, src/qdlib/OGridsystem.cpp:28-42). -/
def Op.copy (o : Op) : Op := { Op.new with deriv := o.deriv, order := o.order, dim := o.dim, axes := o.axes }

end QDng.Fd
