import Verif.Deriv.Model
import Verif.Common.Outcome
import Mathlib.Analysis.SpecialFunctions.Log.Basic

/-
Model of the coefficients of the absorbing layer (src/qdlib/PML.cpp:96-130) and of the kinetic
energy with absorbing layers (src/qdlib/OGridPML.cpp).  Double precision numbers are modelled as
real numbers.  Where a wave function is multiplied with the table of the layer, and that nothing
outside of the array is touched, is the subject of C58; here a wave function is a function of the
grid point.  The derivative is the one of `Diff` with the Fourier method
(src/qdlib/OGridPML.cpp:22-26), modelled in `Verif.Deriv.Model`.
-/

namespace QDng.Absorb

open QDng.Grid QDng.Deriv

/-! ### The coefficients of the layer -/

/-- The parameters of a layer after they have been read (src/qdlib/PML.h:31-36). -/
structure Par where
  gamma : ℝ
  smax : ℝ
  p : ℤ
  thick : ℕ

/-- The defaults of the constructor (src/qdlib/PML.cpp:25). -/
noncomputable def Par.default : Par := { gamma := 1 / 4, smax := 1, p := 4, thick := 10 }

/-- The default of the characteristic wave number (src/qdlib/PML.cpp:96). -/
noncomputable def kDefault (dx : ℝ) : ℝ := Real.pi / dx / 2

/-- The strength that is used if the parameter `smax` is not given (src/qdlib/PML.cpp:121). -/
noncomputable def smaxEst (otol : ℝ) (p : ℤ) (k : ℝ) (thick : ℕ) (dx : ℝ) : ℝ :=
  -Real.log otol * ((p : ℝ) + 1) / (1.141 * k * (thick : ℝ) * dx)

/-- The factor `phi` (src/qdlib/PML.cpp:124). -/
noncomputable def Par.phi (c : Par) : ℂ :=
  Complex.exp (((c.gamma * Real.pi : ℝ) : ℂ) * Complex.I) * (c.smax : ℂ) *
    (((1 / (c.thick : ℝ)) ^ c.p : ℝ) : ℂ)

/-- The base of the monomial, `i-_thick-1` (src/qdlib/PML.cpp:128). -/
def Par.base (c : Par) (i : ℕ) : ℤ := (i : ℤ) - (c.thick : ℤ) - 1

/-- The denominator of an element of the table (src/qdlib/PML.cpp:128). -/
noncomputable def Par.den (c : Par) (i : ℕ) : ℂ := 1 + c.phi * ((((c.base i : ℤ) : ℝ) ^ c.p : ℝ) : ℂ)

/-- Element `i` of the table `_f1` (src/qdlib/PML.cpp:128); `none` if it is not a number because of
a division by zero. -/
noncomputable def Par.f1 (c : Par) (i : ℕ) : Option ℂ := if c.den i = 0 then none else some (1 / c.den i)

/-- Element `i` of the table `_df1` (src/qdlib/PML.cpp:129), `none` if it is not a number. -/
noncomputable def Par.df1 (c : Par) (i : ℕ) : Option ℂ :=
  match c.f1 i with
  | none => none
  | some f => some (-1 / (f * f) * c.phi * (c.p : ℂ) * ((((c.base i : ℤ) : ℝ) ^ (c.p - 1) : ℝ) : ℂ))

/-! ### The kinetic energy with absorbing layers -/

/-- A layer as used by `PML::ApplyTransform`: thickness, side (1 begin, 2 end, others both) and the
table of factors (src/qdlib/PML.h:35-37). -/
structure Layer where
  thick : ℕ
  side : ℕ
  f1 : ℕ → ℂ

/-- The layer made by `PML::InitParams` (src/qdlib/PML.cpp:124-130).  An element of the table that
is not a number is replaced by zero here; the statements ask for tables of numbers. -/
noncomputable def Par.layer (c : Par) (side : ℕ) : Layer :=
  { thick := c.thick, side := side, f1 := fun i => (c.f1 i).getD 0 }

/-- The factor `PML::ApplyTransform` multiplies a point with (src/qdlib/PML.cpp:147-205): the point
number `x` of a line of `n` points. -/
noncomputable def Layer.factor (l : Layer) (cj : Bool) (n x : ℕ) : ℂ :=
  let f : ℕ → ℂ := fun i => if cj then (starRingEnd ℂ) (l.f1 i) else l.f1 i
  (if l.side ≠ 2 ∧ x < l.thick then f x else 1) *
    (if l.side ≠ 1 ∧ n - 1 - x < l.thick then f (n - 1 - x) else 1)

/-- The state of an initialised operator: masses, layers and the flag `_conj`
(src/qdlib/OGridPML.h:30-35, src/qdlib/Operator.h:85). -/
structure Op (s : Space) where
  mass : Fin s.d → ℝ
  layer : Fin s.d → Layer
  conj : Bool

/-- Models `_pml[i].ApplyTransform(wf, _conj)` (src/qdlib/OGridPML.cpp:119, 121). -/
noncomputable def Op.transform {s : Space} (o : Op s) (i : Fin s.d) (ψ : s.Wf) : s.Wf :=
  fun x => ψ x * (o.layer i).factor o.conj (s.axes i).n (x i)

/-- Models the body of the loop of `OGridPML::Apply` (src/qdlib/OGridPML.cpp:118-122). -/
noncomputable def Op.step {s : Space} (o : Op s) (ψ : s.Wf) (dest : s.Wf) (i : Fin s.d) : s.Wf :=
  let buf1 := dnDxn s i ψ 1
  let buf1 := o.transform i buf1
  let buf2 := dnDxn s i buf1 (-1 / 2 / o.mass i)
  let buf2 := o.transform i buf2
  dest + buf2

/-- Models `OGridPML::Apply` (src/qdlib/OGridPML.cpp:111-126). -/
noncomputable def Op.apply {s : Space} (o : Op s) (ψ : s.Wf) : s.Wf :=
  (List.finRange s.d).foldl (o.step ψ) 0

/-- Models `OGridPML::Emax` (src/qdlib/OGridPML.cpp:77-87). -/
noncomputable def Op.emax {s : Space} (o : Op s) : ℝ :=
  (∑ i, if o.mass i > 0 then 1 / (o.mass i * (s.axes i).dx * (s.axes i).dx) else 0) *
    (Real.pi * Real.pi / 2)

/-- Models the imaginary part of `OGridPML::Emin`, with the mass, the spacing and the parameters of
the first dimension; the real part is zero (src/qdlib/OGridPML.cpp:89-109). -/
noncomputable def eminIm (mass0 dx0 gamma smax : ℝ) : ℝ :=
  let kmax := Real.pi / dx0
  (((kmax * kmax / 2 / mass0 : ℝ) : ℂ) /
    (1 + (smax : ℂ) * Complex.exp ((gamma : ℂ) * Complex.I))).im

/-! ### Life of an operator -/

/-- An operator that is not yet, or is, initialised: the parameters of `Init(params)`, the grid it
is set up for and the grid of its buffers (`none`: the pointer `_buf1` is `NULL`)
(src/qdlib/OGridPML.h:28-35). -/
structure Obj (P G : Type) where
  params : P
  grid : Option G
  buf : Option G

/-- Models `OGridPML::Init(Psi)` (src/qdlib/OGridPML.cpp:47-75); `none` is the null pointer, and
`ok` tells whether the parameters fit the grid (`PML::InitParams` does not throw).  A null pointer
is no `WFGridSystem`, and its name is asked for (lines 53-56). -/
def Obj.init {P G : Type} (ok : P → G → Bool) (o : Obj P G) (psi : Option G) : Common.Out (Obj P G) :=
  match o.buf with
  | some _ => .ok o
  | none =>
    match psi with
    | none => .ub
    | some g => if ok o.params g then .ok { o with grid := some g, buf := some g }
      else .threw { o with grid := some g }

/-- Models `OGridPML::Copy(O)` for another operator of the same class
(src/qdlib/OGridPML.cpp:133-149). -/
def Obj.copy {P G : Type} (ok : P → G → Bool) (o src : Obj P G) : Common.Out (Obj P G) :=
  Obj.init ok { o with params := src.params, buf := none } src.buf

/-- Models `OGridPML::Copy(this)`: the buffer of the source is deleted before it is used
(src/qdlib/OGridPML.cpp:135-146). -/
def Obj.copySelf {P G : Type} (ok : P → G → Bool) (o : Obj P G) : Common.Out (Obj P G) :=
  let o' := { o with buf := none }
  Obj.init ok o' o'.buf

/-- Models which grid `OGridPML::Apply` works with for a wave function on the grid `g`
(src/qdlib/OGridPML.cpp:111-126): without buffers a null pointer is used, with another grid vectors
of the wrong length are accessed. -/
def Obj.apply {P G : Type} [DecidableEq G] (o : Obj P G) (g : G) : Common.Ans G :=
  match o.buf, o.grid with
  | some b, some g' => if b = g ∧ g' = g then .val g else .ub
  | _, _ => .ub

/-- Models `OGridPML::Valid` for a wave function on the grid `g` (src/qdlib/OGridPML.cpp:151-159). -/
def Obj.valid {P G : Type} [DecidableEq G] (o : Obj P G) (g : G) : Bool := o.grid = some g

end QDng.Absorb
