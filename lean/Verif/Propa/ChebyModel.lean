import Verif.Ops.Model
import Mathlib.Analysis.Complex.Exponential
import Mathlib.Algebra.Module.Defs
import Mathlib.Analysis.SpecialFunctions.Sqrt

/-
Model of one time step of the Chebychev propagator, src/qdlib/OCheby.cpp.

Wave functions are objects in a store; the scratch objects `ket0`, `ket1`, `ket2`, `buf` are addressed by
pointers, two of which are exchanged in every round.  The loops over strides and points are elementwise and
are written as operations on whole wave functions.  The Hamiltonian is a function `h` on wave functions,
`H->Apply(dest, source)` stores `h` of the source (see Verif.Ops for what operators do).  Numbers are exact.
Not modelled: the Bessel functions (library routine), the estimate of the energy range, warnings.
-/

namespace QDng.Propa

open QDng.Ops

/-- What `Init` leaves behind (src/qdlib/OCheby.h:34-42): the exponent of the propagator, the time step, the
scaling and offset, the coefficients and the limit for convergence. -/
structure Cheby (V : Type) where
  h : V → V
  exponent : ℂ
  dt : ℝ
  scaling : ℝ
  offset : ℂ
  coeff : List ℂ
  order : Nat
  prec : ℝ

/-- `_exp` (src/qdlib/OCheby.cpp:97, 205). -/
noncomputable def Cheby.exp {V : Type} (c : Cheby V) : ℂ := c.exponent / c.dt

/-- The phase of the offset, `cexp(Exponent() * _offset)` (src/qdlib/OCheby.cpp:107-109). -/
noncomputable def Cheby.phase {V : Type} (c : Cheby V) : ℂ := Complex.exp (c.exponent * c.offset)

/-- The statements in front of the loop (src/qdlib/OCheby.cpp:99-111, 207-218); `none`: a coefficient outside
of the array is read. -/
noncomputable def Cheby.start {V : Type} [AddCommGroup V] [Module ℂ V] (c : Cheby V) (p k0 k1 b : Nat)
    (σ : Store V) : Option (Store V) :=
  match c.coeff[0]?, c.coeff[1]? with
  | some c0, some c1 =>
    let σ := put σ k0 (σ p)
    let σ := put σ k1 (c.h (σ p))
    let σ := put σ k1 (σ k1 + (-1 * c.offset) • σ p)
    let σ := put σ k1 ((c.exp / c.scaling) • σ k1)
    let σ := put σ p ((c0 * c.phase) • σ p)
    let σ := put σ b ((c1 * c.phase) • σ k1)
    some (put σ p (σ p + σ b))
  | _, _ => none

/-- One round of the recursion (src/qdlib/OCheby.cpp:121-176, 228-283) without test and swap; `sgn` is `1` in
real time and `-1` in imaginary time. -/
noncomputable def Cheby.round {V : Type} [AddCommGroup V] [Module ℂ V] (c : Cheby V) (sgn : ℂ)
    (p k0 k1 k2 b : Nat) (ci : ℂ) (σ : Store V) : Store V :=
  let σ := put σ b (c.h (σ k1))
  let σ := put σ b ((1 / (c.scaling : ℂ)) • (σ b - c.offset • σ k1))
  let σ := put σ b ((2 * c.exp) • σ b)
  let σ := put σ k2 (σ b + sgn • σ k0)
  let σ := put σ k0 (σ k2)
  put σ p (σ p + (ci * c.phase) • σ k2)

/-- The test for convergence.  Real time (src/qdlib/OCheby.cpp:178-182): `ref` is the norm of the input, the
offset must be real.  A division by zero gives infinity or not a number, which is not below the limit. -/
noncomputable def Cheby.stopReal {V : Type} (c : Cheby V) (nrm : V → ℝ) (ref : ℝ) (psi : V) : Prop :=
  ref ≠ 0 ∧ |ref - nrm psi| / ref < c.prec ∧ c.offset.im = 0

/-- The test for convergence in imaginary time (src/qdlib/OCheby.cpp:285-289): `last` is the norm after the
round before, zero in the first round. -/
noncomputable def Cheby.stopImag {V : Type} (c : Cheby V) (nrm : V → ℝ) (last : ℝ) (psi : V) : Prop :=
  last ≠ 0 ∧ |nrm psi - last| / last < c.prec

open Classical in
/-- The loop `for (int i = 2; i < _order; i++)` in real time (src/qdlib/OCheby.cpp:120-194) from `i` on with
`n` rounds left: the store at the end.  The pointers `ket0` and `ket1` are exchanged after every round. -/
noncomputable def Cheby.loopReal {V : Type} [AddCommGroup V] [Module ℂ V] (c : Cheby V) (nrm : V → ℝ) (ref : ℝ)
    (p k2 b : Nat) : Nat → Nat → Nat → Nat → Store V → Option (Store V)
  | 0, _, _, _, σ => some σ
  | n + 1, i, k0, k1, σ =>
    match c.coeff[i]? with
    | none => none
    | some ci =>
      let σ := c.round 1 p k0 k1 k2 b ci σ
      if c.stopReal nrm ref (σ p) then some σ
      else Cheby.loopReal c nrm ref p k2 b n (i + 1) k1 k0 σ

open Classical in
/-- The loop in imaginary time (src/qdlib/OCheby.cpp:227-294). -/
noncomputable def Cheby.loopImag {V : Type} [AddCommGroup V] [Module ℂ V] (c : Cheby V) (nrm : V → ℝ)
    (p k2 b : Nat) : Nat → Nat → ℝ → Nat → Nat → Store V → Option (Store V)
  | 0, _, _, _, _, σ => some σ
  | n + 1, i, last, k0, k1, σ =>
    match c.coeff[i]? with
    | none => none
    | some ci =>
      let σ := c.round (-1) p k0 k1 k2 b ci σ
      if c.stopImag nrm last (σ p) then some σ
      else Cheby.loopImag c nrm p k2 b n (i + 1) (nrm (σ p)) k1 k0 σ

/-- `Apply(Psi)` (src/qdlib/OCheby.cpp:306-322). -/
noncomputable def Cheby.applyIn {V : Type} [AddCommGroup V] [Module ℂ V] (c : Cheby V) (imaginary : Bool)
    (nrm : V → ℝ) (k0 k1 k2 b p : Nat) (σ : Store V) : Option (Store V) :=
  match c.start p k0 k1 b σ with
  | none => none
  | some σ' =>
    if imaginary then c.loopImag nrm p k2 b (c.order - 2) 2 0 k0 k1 σ'
    else c.loopReal nrm (nrm (σ p)) p k2 b (c.order - 2) 2 k0 k1 σ'

/-- `Apply(dest, source)` (src/qdlib/OCheby.cpp:299-304). -/
noncomputable def Cheby.apply {V : Type} [AddCommGroup V] [Module ℂ V] (c : Cheby V) (imaginary : Bool)
    (nrm : V → ℝ) (k0 k1 k2 b d s : Nat) (σ : Store V) : Option (Store V) :=
  c.applyIn imaginary nrm k0 k1 k2 b d (put σ d (σ s))

/-- The coefficients from the Bessel functions (src/qdlib/OCheby.cpp:475-480); `none`: the array of Bessel
functions is too short. -/
def chebyCoeff (order : Nat) (bessel : List ℂ) : Option (List ℂ) :=
  if order ≤ bessel.length then
    some ((bessel.take order).mapIdx fun i b => if i = 0 then b else 2 * b)
  else none

/-- The offset (src/qdlib/OCheby.cpp:406-411). -/
noncomputable def chebyOffset (imaginary : Bool) (emin emax : ℂ) : ℂ :=
  if !imaginary then ⟨(emax + emin).re / 2, (emax + emin).im⟩
  else emin - ((Real.sqrt (Complex.normSq emin)) * 0.05 : ℝ)

open Classical in
/-- The scaling (src/qdlib/OCheby.cpp:413-416). -/
noncomputable def chebyScaling (offset exponent emin emax : ℂ) : ℝ :=
  if offset.im ≠ 0 ∨ |exponent.im| = 0 then Real.sqrt (Complex.normSq (emax - emin)) * 1.05
  else Real.sqrt (Complex.normSq (emax - emin)) / 2

open Classical in
/-- The loop that looks for the order needed (src/qdlib/OCheby.cpp:456-461) from `i` on; `order` is the number
of Bessel functions that did not underflow. -/
noncomputable def chebyNeeded (bessel : Nat → ℝ) (delta : ℝ) (order : Nat) : Nat → Nat → Nat
  | 0, i => i
  | n + 1, i =>
    if i < order ∧ delta < |bessel (i - 1) - bessel (i - 2)| then chebyNeeded bessel delta order n (i + 1) else i

/-- The order (src/qdlib/OCheby.cpp:419-464): `estimate` is the number of terms estimated from scaling and time
step, `given` the parameter, `zeroes` what the library reports as the number of Bessel functions that underflow;
`none`: exception.  The check against `int(_scaling * Dt)` behind it is not modelled. -/
noncomputable def chebyOrder (estimate : Nat) (given : Option Nat) (bessel : Nat → ℝ) (delta : ℝ)
    (zeroes : Nat → Nat) : Option Nat :=
  let order := if estimate < 10 then 10 else estimate
  let order := given.getD order
  if order < 3 then none
  else
    let order := order - zeroes order
    match given with
    | some _ => some order
    | none => some (chebyNeeded bessel delta order order 2)

end QDng.Propa
