import Verif.Common.Outcome
import Mathlib.Data.Complex.Basic

/-
Model of the exponent of a propagator, src/qdlib/OPropagator.h.

The clock is an object that other parts of the program share; the propagator keeps a pointer to it.  Numbers
are exact.  The list of operators a propagator inherits from is modelled in Verif.Ops.ListModel; here only its
conjugation flag matters.
-/

namespace QDng.Ops

open QDng.Common

/-- State of a propagator (src/qdlib/OPropagator.h:26-34, src/qdlib/Operator.h:75-90): `c0` is `_c0`,
`imaginary` is `imaginary_time`, `conj` is `_conj`, `hasClock` tells if `clock` is set, and `dt` is the time
step of the clock object. -/
structure Propagator where
  c0 : ℂ
  forward : Bool
  imaginary : Bool
  conj : Bool
  hasClock : Bool
  dt : ℝ

/-- Constructor (src/qdlib/OPropagator.h:37-39). -/
noncomputable def Propagator.new : Propagator :=
  { c0 := 0, forward := true, imaginary := false, conj := false, hasClock := false, dt := 0 }

/-- `Clock(cl)` (src/qdlib/OPropagator.h:44-55) with a clock of time step `dt`. -/
noncomputable def Propagator.setClock (s : Propagator) (dt : ℝ) : Propagator :=
  let c := Complex.I * dt
  let c := if s.forward then c * (-1) else c
  let c := if s.imaginary then Complex.I * c else c
  { s with hasClock := true, dt := dt, c0 := c }

/-- `Forward()` (src/qdlib/OPropagator.h:62-77). -/
noncomputable def Propagator.goForward (s : Propagator) : Out Propagator :=
  if !s.hasClock then .threw s
  else .ok { s with
    c0 := if s.imaginary then (s.dt : ℂ) else (-1) * Complex.I * s.dt
    forward := true
    conj := false }

/-- `Backward()` (src/qdlib/OPropagator.h:83-98). -/
noncomputable def Propagator.goBackward (s : Propagator) : Out Propagator :=
  if !s.hasClock then .threw s
  else .ok { s with
    c0 := if s.imaginary then -(s.dt : ℂ) else 1 * Complex.I * s.dt
    forward := false
    conj := true }

/-- `ImaginaryTime()` (src/qdlib/OPropagator.h:103-110); without a clock a null pointer is read. -/
noncomputable def Propagator.imaginaryTime (s : Propagator) : Out Propagator :=
  if !s.hasClock then .ub
  else .ok { s with c0 := if s.forward then (s.dt : ℂ) else (-1) * s.dt, imaginary := true }

/-- `Conj(conj)` (src/qdlib/OPropagator.h:112-118). -/
noncomputable def Propagator.setConj (s : Propagator) (c : Bool) : Out Propagator :=
  if c then s.goBackward else s.goForward

/-- `RealTime()` (src/qdlib/OPropagator.h:125-132). -/
noncomputable def Propagator.realTime (s : Propagator) : Out Propagator :=
  if !s.hasClock then .ub
  else .ok { s with
    c0 := if s.forward then (-1) * Complex.I * s.dt else Complex.I * s.dt
    imaginary := false }

/-- `Exponent(c)` (src/qdlib/OPropagator.h:140-143). -/
def Propagator.setExponent (s : Propagator) (c : ℂ) : Propagator := { s with c0 := c }

/-- `Copy(O)` (src/qdlib/OPropagator.h:157-168): everything but the conjugation flag, which stays as it is in
the target. -/
def Propagator.copyFrom (s r : Propagator) : Propagator :=
  { s with hasClock := r.hasClock, dt := r.dt, c0 := r.c0, forward := r.forward, imaginary := r.imaginary }

/-- `Init(Psi)` (src/qdlib/OPropagator.h:172-185) for a wave function that may be null (`wf`); the
initialisation of the members (`OList::Init`) is left out. -/
noncomputable def Propagator.init (s : Propagator) (wf : Bool) : Out Propagator :=
  if !s.hasClock then .threw s
  else if s.dt = 0 then .threw s
  else if !wf then .threw s
  else .ok s

end QDng.Ops
