import Mathlib.Analysis.SpecialFunctions.Exponential
import Mathlib.Analysis.SpecialFunctions.Trigonometric.Basic
import Mathlib.LinearAlgebra.Matrix.Notation
import Verif.Clock.Model
import Verif.Common.Outcome

/-
Model of laser fields and of the operators driven by them: src/qdlib/Laser.cpp, src/qdlib/OLaser.cpp,
src/qdlib/OGridDipole.cpp, src/qdlib/OGridRaman.cpp, src/qdlib/OMatDipole.cpp and the parts of
src/qdlib/OGridPotential.cpp they use.

Numbers are real and complex numbers instead of floating point numbers.  The vector functions of
src/math/VectorPrimitives.h are applied element by element.  A laser points to a clock; the model holds the state of
this clock.  Generated fields, the files, the parameters besides `scale`, `offset` and `setzero` and the Fourier
transforms are not modelled.
-/

namespace QDng.Lasers

open QDng.Common

noncomputable section

/-- `Laser` (src/qdlib/Laser.h:19-29). -/
structure Laser where
  data : List ℝ
  dt : ℝ
  scale : ℝ
  clock : Option Clock.Clock

/-- An element of a vector of real numbers; the index is not checked (src/qdlib/Laser.cpp:127, 135, 148). -/
def elemAt (v : List ℝ) (i : Int) : Ans ℝ :=
  if i < 0 then .ub
  else match v[i.toNat]? with
    | some x => .val x
    | none => .ub

open Classical in
/-- `Clock(clock)` (src/qdlib/Laser.cpp:106-112). -/
def Laser.setClock (l : Laser) : Option Clock.Clock → Out Laser
  | none => .ok l
  | some c =>
    if c.dt ≠ l.dt ∨ c.nsteps > l.data.length then .threw { l with clock := some c }
    else .ok { l with clock := some c }

/-- `Get()` (src/qdlib/Laser.cpp:125-128). -/
def Laser.get (l : Laser) : Ans ℝ :=
  match l.clock with
  | none => .ub
  | some c =>
    match elemAt l.data c.step with
    | .val x => .val (x * l.scale)
    | _ => .ub

/-- `Set(value)` (src/qdlib/Laser.cpp:133-136). -/
def Laser.set (l : Laser) (value : ℝ) : Out Laser :=
  match l.clock with
  | none => .ub
  | some c =>
    if c.step < 0 ∨ l.data.length ≤ c.step.toNat then .ub
    else .ok { l with data := l.data.set c.step.toNat value }

/-- The loop of `GetVectorPot` (src/qdlib/Laser.cpp:147-149). -/
def potLoop (data : List ℝ) : Nat → Nat → ℝ → Ans ℝ
  | 0, _, sum => .val sum
  | n + 1, t, sum =>
    match data[t]? with
    | some x => potLoop data n (t + 1) (sum + x)
    | none => .ub

/-- `GetVectorPot()` (src/qdlib/Laser.cpp:143-152). -/
def Laser.vectorPot (l : Laser) : Ans ℝ :=
  match l.clock with
  | none => .ub
  | some c =>
    match potLoop l.data c.step.toNat 0 0 with
    | .val s => .val (s * l.dt)
    | _ => .ub

/-- The loop of `PulseEnergy` (src/qdlib/Laser.cpp:176-180). -/
def squareLoop : List ℝ → ℝ → ℝ
  | [], d => d
  | x :: l, d => squareLoop l (d + x * x)

/-- `PulseEnergy()` (src/qdlib/Laser.cpp:174-184). -/
def Laser.pulseEnergy (l : Laser) : ℝ :=
  137.0359996 / (4 * Real.pi) * (squareLoop l.data 0 * l.scale) * l.dt

/-- `Scale(d)` (src/qdlib/Laser.h:52). -/
def Laser.setScale (l : Laser) (d : ℝ) : Laser := { l with scale := d }

/-- `operator=` (src/qdlib/Laser.cpp:154-169). -/
def Laser.assign (l r : Laser) : Laser := { l with data := r.data, clock := r.clock, dt := r.dt }

/-- A new laser (src/qdlib/Laser.cpp:11-12). -/
def Laser.new (dt : ℝ) : Laser := { data := [], dt := dt, scale := 1, clock := none }

/-- `OLaser::Clock(cl)` for one laser (src/qdlib/OLaser.cpp:119-130); `scale` is the parameter of this name. -/
def clockLaser (scale : Option ℝ) (cl : Clock.Clock) (l : Laser) : Out Laser :=
  match l.setClock (some cl) with
  | .ok l => .ok (match scale with | some s => l.setScale s | none => l)
  | x => x

/-- The smallest element, `VecMin` (src/math/math_functions.cpp:10-18). -/
def vecMin : ℝ → List ℝ → ℝ
  | d, [] => d
  | d, x :: l => vecMin (open Classical in if x < d then x else d) l

/-- The largest element, `VecMax` (src/math/math_functions.cpp:23-31). -/
def vecMax : ℝ → List ℝ → ℝ
  | d, [] => d
  | d, x :: l => vecMax (open Classical in if x > d then x else d) l

/-- `OGridPotential::Init` behind reading the file (src/qdlib/OGridPotential.cpp:52-73). -/
def loadPotential {n : Nat} (file : Fin (n + 1) → ℝ) (setzero : Bool) (offset : ℝ) (scale : Option ℝ) :
    Fin (n + 1) → ℝ :=
  let v := if setzero then fun i => file i - vecMin (file 0) (List.ofFn file) else file
  let v := fun i => v i + offset
  fun i => v i * scale.getD 1

/-- `OGridDipole` (src/qdlib/OGridDipole.h:21-25): the values on the grid, the laser and the parameter `scale`. -/
structure Dipole (n : Nat) where
  mu : Fin n → ℝ
  laser : Laser
  scaleParam : Option ℝ

/-- `OGridDipole::Init` (src/qdlib/OGridDipole.cpp:18-29). -/
def Dipole.init {n : Nat} (file : Fin (n + 1) → ℝ) (setzero : Bool) (offset : ℝ) (scale : Option ℝ) (laser : Laser) :
    Dipole (n + 1) :=
  { mu := loadPotential file setzero offset scale, laser := laser, scaleParam := scale }

/-- `OLaser::Clock` of a dipole operator (src/qdlib/OLaser.cpp:27-131). -/
def Dipole.setClock {n : Nat} (o : Dipole n) (cl : Clock.Clock) : Out (Dipole n) :=
  match clockLaser o.scaleParam cl o.laser with
  | .ok l => .ok { o with laser := l }
  | .threw l => .threw { o with laser := l }
  | .ub => .ub

/-- `MultElements(A, B, C, d)` (src/math/codelets/MultElementsCCDd.h:6-33). -/
def multCCDd {n : Nat} (b : Fin n → ℂ) (c : Fin n → ℝ) (d : ℝ) : Fin n → ℂ := fun i => b i * c i * d

/-- `MultElementsAdd(A, B, C, d)` (src/math/codelets/MultElementsAddCCDd.h:6-33). -/
def addCCDd {n : Nat} (a b : Fin n → ℂ) (c : Fin n → ℝ) (d : ℝ) : Fin n → ℂ := fun i => a i + b i * c i * d

/-- `MultElementsAdd(A, B, C)` (src/math/codelets/MultElementsAddCCD.h:6-33). -/
def addCCD {n : Nat} (a b : Fin n → ℂ) (c : Fin n → ℝ) : Fin n → ℂ := fun i => a i + b i * c i

/-- `MultElements(A, B, d)` (src/math/codelets/MultElementsCDd.h:6-33). -/
def multCDd {n : Nat} (a : Fin n → ℂ) (b : Fin n → ℝ) (d : ℝ) : Fin n → ℂ := fun i => a i * b i * d

/-- `ExpElements(A, B, d)` (src/math/codelets/ExpElementsCDc.h:6-33). -/
def expCDc {n : Nat} (b : Fin n → ℝ) (d : ℂ) : Fin n → ℂ := fun i => Complex.exp (b i * d)

/-- A call that needs the value of the field (for instance src/qdlib/OGridDipole.cpp:48). -/
def Laser.withField {A : Type} (l : Laser) (f : ℝ → A) : Ans A :=
  match l.get with
  | .val e => .val (f e)
  | _ => .ub

/-- `OGridDipole::Apply(dest, source)` (src/qdlib/OGridDipole.cpp:46-49). -/
def Dipole.apply {n : Nat} (o : Dipole n) (src : Fin n → ℂ) : Ans (Fin n → ℂ) :=
  o.laser.withField fun e => multCCDd src o.mu (-1 * e)

/-- `OGridDipole::ApplyAdd` (src/qdlib/OGridDipole.cpp:51-54). -/
def Dipole.applyAdd {n : Nat} (o : Dipole n) (dest src : Fin n → ℂ) : Ans (Fin n → ℂ) :=
  o.laser.withField fun e => addCCDd dest src o.mu (-1 * e)

/-- `OGridDipole::Apply(Psi)` (src/qdlib/OGridDipole.cpp:57-60). -/
def Dipole.applyIn {n : Nat} (o : Dipole n) (psi : Fin n → ℂ) : Ans (Fin n → ℂ) :=
  o.laser.withField fun e => multCDd psi o.mu (-1 * e)

/-- `OGridDipole::InitExponential` (src/qdlib/OGridDipole.cpp:83-87, src/qdlib/OGridsystem.cpp:57-60). -/
def Dipole.expo {n : Nat} (o : Dipole n) (c : ℂ) : Ans (Fin n → ℂ) :=
  o.laser.withField fun e => expCDc o.mu (-1 * c * e)

/-- `OGridDipole::Copy` into an operator (src/qdlib/OGridDipole.cpp:68-81, src/qdlib/OLaser.cpp:219-222). -/
def Dipole.copyFrom {n : Nat} (o r : Dipole n) : Dipole n :=
  { mu := r.mu, laser := o.laser.assign r.laser, scaleParam := r.scaleParam }

/-- `OGridDipole::Emax` for not empty vectors (src/qdlib/OGridDipole.cpp:36-39). -/
def Dipole.emax {n : Nat} (o : Dipole (n + 1)) : Ans ℝ :=
  match o.laser.data with
  | [] => .ub
  | e :: es => .val (vecMax (o.mu 0) (List.ofFn o.mu) * vecMax e (e :: es))

/-- `OGridDipole::Emin` (src/qdlib/OGridDipole.cpp:41-44). -/
def Dipole.emin {n : Nat} (_o : Dipole (n + 1)) : ℝ := 0

/-- `OGridRaman` (src/qdlib/OGridRaman.h:21-25) with its two lasers. -/
structure Raman (n : Nat) where
  alpha : Fin n → ℝ
  laser0 : Laser
  laser1 : Laser
  scaleParam : Option ℝ

/-- `OGridRaman::Init` (src/qdlib/OGridRaman.cpp:18-29). -/
def Raman.init {n : Nat} (file : Fin (n + 1) → ℝ) (setzero : Bool) (offset : ℝ) (scale : Option ℝ) (l0 l1 : Laser) :
    Raman (n + 1) :=
  { alpha := loadPotential file setzero offset scale, laser0 := l0, laser1 := l1, scaleParam := scale }

/-- `OLaser::Clock` of a Raman operator (src/qdlib/OLaser.cpp:119-130). -/
def Raman.setClock {n : Nat} (o : Raman n) (cl : Clock.Clock) : Out (Raman n) :=
  match clockLaser o.scaleParam cl o.laser0, clockLaser o.scaleParam cl o.laser1 with
  | .ok l0, .ok l1 => .ok { o with laser0 := l0, laser1 := l1 }
  | _, _ => .threw o

/-- A call that needs the values of both fields (src/qdlib/OGridRaman.cpp:48). -/
def Raman.withFields {n : Nat} {A : Type} (o : Raman n) (f : ℝ → ℝ → A) : Ans A :=
  match o.laser0.get, o.laser1.get with
  | .val e0, .val e1 => .val (f e0 e1)
  | _, _ => .ub

/-- `OGridRaman::Apply(dest, source)` (src/qdlib/OGridRaman.cpp:46-49). -/
def Raman.apply {n : Nat} (o : Raman n) (src : Fin n → ℂ) : Ans (Fin n → ℂ) :=
  o.withFields fun e0 e1 => multCCDd src o.alpha (-0.5 * e0 * e1)

/-- `OGridRaman::Apply(Psi)` (src/qdlib/OGridRaman.cpp:51-54). -/
def Raman.applyIn {n : Nat} (o : Raman n) (psi : Fin n → ℂ) : Ans (Fin n → ℂ) :=
  o.withFields fun e0 e1 => multCDd psi o.alpha (-0.5 * e0 * e1)

/-- `ApplyAdd` of a Raman operator, inherited from `OGridPotential` (src/qdlib/OGridRaman.h:21-57,
src/qdlib/OGridPotential.cpp:139-142). -/
def Raman.applyAdd {n : Nat} (o : Raman n) (dest src : Fin n → ℂ) : Ans (Fin n → ℂ) :=
  .val (addCCD dest src o.alpha)

/-- `OGridRaman::InitExponential` (src/qdlib/OGridRaman.cpp:78-82). -/
def Raman.expo {n : Nat} (o : Raman n) (c : ℂ) : Ans (Fin n → ℂ) :=
  o.withFields fun e0 e1 => expCDc o.alpha (-1 * c * e0 * e1)

/-- `OMatDipole` (src/qdlib/OMatDipole.h:20-24). -/
structure MatDipole (n : Nat) where
  mat : Matrix (Fin n) (Fin n) ℝ
  laser : Laser
  scaleParam : Option ℝ

/-- `OLaser::Clock` of a matrix operator (src/qdlib/OLaser.cpp:119-130). -/
def MatDipole.setClock {n : Nat} (o : MatDipole n) (cl : Clock.Clock) : Out (MatDipole n) :=
  match clockLaser o.scaleParam cl o.laser with
  | .ok l => .ok { o with laser := l }
  | .threw l => .threw { o with laser := l }
  | .ub => .ub

/-- `MatVecMult(dest, M, source)` for a real matrix (src/qdlib/OHermitianMatrix.cpp:162). -/
def matVec {n : Nat} (m : Matrix (Fin n) (Fin n) ℝ) (v : Fin n → ℂ) : Fin n → ℂ :=
  fun i => ∑ j, (m i j : ℂ) * v j

/-- `OMatDipole::Apply(dest, source)` (src/qdlib/OMatDipole.cpp:51-55). -/
def MatDipole.apply {n : Nat} (o : MatDipole n) (src : Fin n → ℂ) : Ans (Fin n → ℂ) :=
  o.laser.withField fun e => fun i => matVec o.mat src i * (((-1 * e : ℝ)) : ℂ)

/-- `OMatDipole::Apply(Psi)` (src/qdlib/OMatDipole.cpp:57-61, src/qdlib/OHermitianMatrix.cpp:172-180). -/
def MatDipole.applyIn {n : Nat} (o : MatDipole n) (psi : Fin n → ℂ) : Ans (Fin n → ℂ) :=
  let result := matVec o.mat psi
  o.laser.withField fun e => fun i => result i * (((-1 * e : ℝ)) : ℂ)

/-- `ApplyAdd` of a matrix operator, inherited from `Operator` (src/qdlib/Operator.h:307-316). -/
def MatDipole.applyAdd {n : Nat} (o : MatDipole n) (dest src : Fin n → ℂ) : Ans (Fin n → ℂ) :=
  match o.apply src with
  | .val buf => .val fun i => dest i + buf i
  | _ => .ub

/-- `OMatDipole::InitExponential` (src/qdlib/OMatDipole.cpp:85-91) with the eigenvalues of the matrix. -/
def MatDipole.expo {n : Nat} (o : MatDipole n) (eigenvalues : Fin n → ℝ) (c : ℂ) : Ans (Fin n → ℂ) :=
  o.laser.withField fun e => expCDc eigenvalues (-1 * c * e)

end

end QDng.Lasers
