import Verif.Propa.ChebyModel
import Verif.Common.Outcome

/-
Model of the set-up of the Chebychev propagator (src/qdlib/OCheby.cpp, OCheby::Init) with the library
routines for the Bessel functions as a parameter (src/linalg/Bessel.cpp).  One step of the propagator
is modelled in `Verif.Propa.ChebyModel`.  Double precision numbers are modelled as real numbers, the
conversion to `int` has no overflow.
-/

namespace QDng.Chexp

open QDng.Propa QDng.Common

/-- A library routine for Bessel functions: whether the request for `n` functions at `x` succeeds, the
values and the number of values reported as underflow (src/linalg/Bessel.cpp:22-58, 61-97). -/
structure Lib where
  ok : ℕ → ℝ → Bool
  val : ℕ → ℝ → ℕ → ℝ
  zeroes : ℕ → ℝ → ℕ

/-- What the set-up works with: the energies from the Hamiltonian or the parameters, the time step,
direction and kind of time, and the parameters `order`, `scaling` and `prec`
(src/qdlib/OCheby.cpp:382-402, 430-434, 483-486). -/
structure Given where
  emin : ℂ
  emax : ℂ
  dt : ℝ
  forward : Bool
  imaginary : Bool
  order : Option ℕ
  scaling : Option ℝ
  prec : ℝ

/-- Models the exponent of the propagator (src/qdlib/OPropagator.h:62-131). -/
noncomputable def exponent (g : Given) : ℂ :=
  if g.imaginary then (if g.forward then (g.dt : ℂ) else -(g.dt : ℂ))
  else (if g.forward then (-1) * Complex.I * g.dt else 1 * Complex.I * g.dt)

/-- The conversion of a number to `int` (src/qdlib/OCheby.cpp:420, 467). -/
noncomputable def toInt (x : ℝ) : ℤ := if 0 ≤ x then ⌊x⌋ else ⌈x⌉

/-- The limit `BESSEL_DELTA` (src/qdlib/OCheby.h:10). -/
noncomputable def delta : ℝ := 1 / 10 ^ 32

/-- Models `OCheby::Init(Psi)` behind the set-up of the Hamiltonian
(src/qdlib/OCheby.cpp:368, 405-493). -/
noncomputable def setup {V : Type} (h : V → V) (g : Given) (J I : Lib) : Ans (Cheby V) :=
  if g.dt = 0 then .threw
  else
    let ex := exponent g
    let off := chebyOffset g.imaginary g.emin g.emax
    let sc0 := chebyScaling off ex g.emin g.emax
    let est := (toInt (20 * sc0 * g.dt)).natAbs
    let sc := g.scaling.getD sc0
    let n := g.order.getD (if est < 10 then 10 else est)
    let L := if g.imaginary then I else J
    if n < 3 then .threw
    else if L.ok n (sc * g.dt) = false then .threw
    else
      match chebyOrder est g.order (L.val n (sc * g.dt)) delta (fun n => L.zeroes n (sc * g.dt)) with
      | none => .threw
      | some order =>
        if 0 < order ∧ g.imaginary = false ∧ (order : ℤ) ≤ toInt (sc * g.dt) then .threw
        else
          match chebyCoeff order ((List.range n).map fun k => ((L.val n (sc * g.dt) k : ℝ) : ℂ)) with
          | none => .ub
          | some cs => .val { h := h, exponent := ex, dt := g.dt, scaling := sc, offset := off,
                              coeff := cs, order := order, prec := g.prec }

end QDng.Chexp
