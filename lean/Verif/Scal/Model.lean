import Verif.Common.Outcome
import Mathlib.Analysis.SpecialFunctions.Pow.Real
import Mathlib.Analysis.Complex.Basic

/-
Model of the helper operators Scalar and Normalize (src/qdlib/OScalar.cpp, OScalar.h, ONormalize.h).
Double precision numbers are modelled as real numbers, a wave function as the list of its elements.
The scalar product of the class of the wave functions is the sum over the elements times a weight
(the volume element of a grid, C175, one for level wave functions, src/qdlib/WFLevel.cpp:73-91).
-/

namespace QDng.Scal

open QDng.Common

/-- The scalar product of wave functions of the same size with the weight `w`
(src/qdlib/WFLevel.cpp:82-90). -/
noncomputable def dot (w : ℝ) (a b : List ℂ) : ℂ :=
  (List.zipWith (fun x y => (starRingEnd ℂ) x * y) a b).sum * (w : ℂ)

/-- Models `WFLevel::operator*`: wave functions of different size are refused
(src/qdlib/WFLevel.cpp:73-91). -/
noncomputable def scalarProduct (w : ℝ) (a b : List ℂ) : Ans ℂ :=
  if a.length ≠ b.length then .threw else .val (dot w a b)

/-- The operator Scalar: the constant and the buffer, `none` is the null pointer
(src/qdlib/OScalar.h:24-27). -/
structure Scal where
  value : ℂ
  buf : Option (List ℂ)

/-- Models the constructor (src/qdlib/OScalar.cpp:11-14). -/
noncomputable def Scal.create : Scal := { value := 1, buf := none }

/-- Models `ParamContainer::GetValue(name, double&)` (src/tools/ParamContainer.cpp:223-234): `old` is
the value of the variable before, `parse` what `sscanf` makes of the text (`none`: nothing read). -/
def getDouble (parse : String → Option ℝ) (text : Option String) (old : ℝ) : ℝ :=
  match text with
  | some t => (parse t).getD old
  | none => 0

/-- Models `OScalar::Init(params)` (src/qdlib/OScalar.cpp:22-30); `value` and `im` are the texts of the
parameters. -/
def Scal.initParams (parse : String → Option ℝ) (value im : Option String) (o : Scal) : Scal :=
  let re := getDouble parse value o.value.re
  let im' := match im with
    | some t => getDouble parse (some t) o.value.im
    | none => o.value.im
  { o with value := ⟨re, im'⟩ }

/-- Models `OScalar::Init(Psi)` (src/qdlib/OScalar.cpp:32-40); `none` is the null pointer, `fresh` the
undefined content of a new wave function of this size. -/
def Scal.initWf (fresh : Nat → List ℂ) (psi : Option (List ℂ)) (o : Scal) : Out Scal :=
  match psi with
  | none => .threw o
  | some p => match o.buf with
    | some _ => .ok o
    | none => .ok { o with buf := some (fresh p.length) }

/-- Models `OScalar::Apply(destPsi, sourcePsi)` (src/qdlib/OScalar.cpp:49-52) with
`MultElementsCopy` (src/math/codelets/MultElementsCopyCCc.h:6-35): the loop runs over the elements of
the destination.  Result: the destination. -/
noncomputable def Scal.applyTo (o : Scal) (dest source : List ℂ) : Ans (List ℂ) :=
  if source.length < dest.length then .ub
  else .val ((source.take dest.length).map fun a => a * o.value)

/-- Models `OScalar::Apply(Psi)` (src/qdlib/OScalar.cpp:55-58). -/
noncomputable def Scal.apply (o : Scal) (psi : List ℂ) : List ℂ := psi.map fun a => a * o.value

/-- Models `OScalar::MatrixElement` (src/qdlib/OScalar.cpp:42-47): the answer; the ket is copied into
the buffer. -/
noncomputable def Scal.matrixElement (w : ℝ) (o : Scal) (bra ket : List ℂ) : Ans ℂ :=
  match o.buf with
  | none => .ub
  | some _ => scalarProduct w bra (ket.map fun a => a * o.value)

/-- Models `OScalar::Valid` (src/qdlib/OScalar.cpp:81-87). -/
def Scal.valid (o : Scal) (psi : Option (List ℂ)) : Ans Bool :=
  match psi with
  | none => .val false
  | some p => match o.buf with
    | none => .ub
    | some b => .val (p.length == b.length)

/-- Models `OScalar::Copy` from another Scalar (src/qdlib/OScalar.cpp:66-79). -/
def Scal.copy (fresh : Nat → List ℂ) (src o : Scal) : Scal :=
  { value := src.value
    buf := match src.buf with
      | some b => some (fresh b.length)
      | none => o.buf }

/-- Models `OScalar::Emax` (src/qdlib/OScalar.h:40). -/
def Scal.emax (o : Scal) : ℂ := o.value

/-- Models `OScalar::Emin` (src/qdlib/OScalar.h:41). -/
def Scal.emin (_ : Scal) : ℂ := 0

/-! ### Normalize -/

/-- Models `WaveFunction::Norm` (src/qdlib/WaveFunction.h:94-101). -/
noncomputable def norm (w : ℝ) (psi : List ℂ) : ℝ := Real.sqrt (dot w psi psi).re

/-- Models `WaveFunction::Normalize` (src/qdlib/WaveFunction.h:103-106), which is
`ONormalize::Apply(Psi)` (src/qdlib/ONormalize.h:50).  `none`: the norm is zero, the factor is not a
finite number and the elements become "not a number". -/
noncomputable def normalize (w : ℝ) (psi : List ℂ) : Option (List ℂ) :=
  if norm w psi = 0 then none else some (psi.map fun a => a * ((1 / norm w psi : ℝ) : ℂ))

/-- Models `ONormalize::Apply(destPsi, sourcePsi)` (src/qdlib/ONormalize.h:44-48): the destination is
replaced by a copy of the source, which is then normalised. -/
noncomputable def normalizeTo (w : ℝ) (_dest source : List ℂ) : Option (List ℂ) := normalize w source

end QDng.Scal
