import Verif.HMat.Lemmas
import Verif.Common.Outcome
import Mathlib.Analysis.SpecialFunctions.Log.Basic
import Mathlib.Analysis.SpecialFunctions.Trigonometric.Basic

/-
Model of the friction operators, src/qdlib/OGridStokesAlbrecht.cpp, src/qdlib/OGridStokes.cpp and
src/qdlib/OGridGStokes.cpp, with the mask functions of src/math/math_functions.h.

Wave functions are vectors on `N` grid points, `w` is the volume of a grid cell in the scalar product.  The operators
in the list, the momentum and the kinetic energy are given as matrices, so both forms of their `Apply` agree.
Destination and source are different wave functions.  Exact numbers, one process.  Not modelled: logging, and where
parameters come from.
-/

namespace QDng.Fric

open QDng.Common

/-- The scalar product of wave functions (src/qdlib/WFGridCartesian.cpp:62-110). -/
noncomputable def ip {N : Nat} (w : ℝ) (φ χ : Fin N → ℂ) : ℂ := (w : ℂ) * HMat.inner φ χ

/-- `Norm()` (src/qdlib/WaveFunction.h:94-101). -/
noncomputable def norm {N : Nat} (w : ℝ) (ψ : Fin N → ℂ) : ℝ := Real.sqrt (ip w ψ ψ).re

/-! ### OGridStokesAlbrecht -/

/-- Models `OGridStokesAlbrecht` (src/qdlib/OGridStokesAlbrecht.h:36-51): the two operators of its list, `_eta`, `_xe`,
`_ve`, and `_recalc` of the base class (src/qdlib/Operator.h:64). -/
structure Albrecht (N : Nat) where
  T : Matrix (Fin N) (Fin N) ℂ
  X : Matrix (Fin N) (Fin N) ℂ
  eta : ℝ
  xe : ℝ
  ve : ℝ
  recalc : Bool

/-- Models the constructor and `Init(params)` (src/qdlib/OGridStokesAlbrecht.cpp:18, 27-45,
src/qdlib/Operator.h:104). -/
noncomputable def Albrecht.new {N : Nat} (T X : Matrix (Fin N) (Fin N) ℂ) (R eta : ℝ) : Albrecht N :=
  ⟨T, X, 6 * Real.pi * R * eta, 0, 0, true⟩

/-- Models the update of the expectation values (src/qdlib/OGridStokesAlbrecht.cpp:69-78). -/
noncomputable def Albrecht.refresh {N : Nat} (w : ℝ) (o : Albrecht N) (ψ : Fin N → ℂ) : Albrecht N :=
  if o.recalc then
    { o with
      xe := (ip w ψ (o.X.mulVec ψ)).re / norm w ψ
      ve := 2 * (ip w ψ (o.X.mulVec (o.T.mulVec ψ))).im }
  else o

/-- Models `Apply` (src/qdlib/OGridStokesAlbrecht.cpp:65-85). -/
noncomputable def Albrecht.apply {N : Nat} (w : ℝ) (o : Albrecht N) (ψ : Fin N → ℂ) : Albrecht N × (Fin N → ℂ) :=
  let o := o.refresh w ψ
  (o, fun i => (ψ i * ((-o.xe : ℝ) : ℂ) + o.X.mulVec ψ i) * ((o.eta * o.ve : ℝ) : ℂ))

/-- Models `RecalcInternals(on)` (src/qdlib/Operator.h:369). -/
def Albrecht.setRecalc {N : Nat} (o : Albrecht N) (on : Bool) : Albrecht N := { o with recalc := on }

/-- Models `Copy` into a new operator (src/qdlib/OGridStokesAlbrecht.cpp:98-112, src/qdlib/OList.cpp:180-199). -/
def Albrecht.copy {N : Nat} (o : Albrecht N) : Albrecht N := ⟨o.T, o.X, o.eta, 0, 0, true⟩

/-! ### The masks -/

/-- Models `Sigmoid` (src/math/math_functions.h:78-84). -/
noncomputable def sigmoid {N : Nat} (x0 b : ℝ) (n : Fin N) : ℝ := 1 / (1 + Real.exp (-b * ((n.val : ℝ) - x0)))

/-- Models `SigmoidInt` (src/math/math_functions.h:92-98). -/
noncomputable def sigmoidInt {N : Nat} (x0 b : ℝ) (n : Fin N) : ℝ :=
  ((n.val : ℝ) - x0) + 1 / b * Real.log (1 + Real.exp (-b * ((n.val : ℝ) - x0)))

/-! ### OGridStokes -/

/-- Models `OGridStokes` (src/qdlib/OGridStokes.h:29-47): the position, the momentum, the mask, its integral, the
factor, `_c`, `_xe`, `_pe`, `_recalc`; `none` is what has not been initialised.  `psi` tells whether the buffer `_psi`
exists. -/
structure Stokes (N : Nat) where
  x : Fin N → ℝ
  P : Matrix (Fin N) (Fin N) ℂ
  sig : Fin N → ℝ
  sigInt : Option (Fin N → ℝ)
  fac : ℝ
  c : ℝ
  xe : Option ℝ
  pe : Option ℝ
  recalc : Bool
  psi : Bool

/-- Models both `Init` functions (src/qdlib/OGridStokes.cpp:11-75) on a grid which begins at `xmin` with the distance
`dx`.  The products of the parameters are taken together: `fac` is the factor of the last line of `Apply`
(src/qdlib/OGridStokes.cpp:137). -/
noncomputable def Stokes.new {N : Nat} (x : Fin N → ℝ) (P : Matrix (Fin N) (Fin N) ℂ)
    (mass eta R c x0 slope xmin dx : ℝ) : Stokes N :=
  { x := x, P := P
    sig := if slope = 0 then fun _ => 1 else sigmoid ((x0 - xmin) / dx) slope
    sigInt := if slope = 0 then none else some (sigmoidInt ((x0 - xmin) / dx) slope)
    fac := eta / mass * R * 6 * Real.pi, c := c, xe := none, pe := none, recalc := true, psi := true }

/-- The multiplication with a real function (src/math/VectorPrimitives.h). -/
def times {N : Nat} (f : Fin N → ℝ) (ψ : Fin N → ℂ) : Fin N → ℂ := fun i => ψ i * (f i : ℂ)

/-- Models the update of the expectation values (src/qdlib/OGridStokes.cpp:88-96). -/
noncomputable def Stokes.refresh {N : Nat} (w : ℝ) (o : Stokes N) (ψ : Fin N → ℂ) : Stokes N :=
  if o.recalc then
    let χ := times o.sig ψ
    { o with
      xe := some ((ip w (times o.x χ) χ).re / norm w χ)
      pe := some ((ip w (o.P.mulVec χ) χ).re / norm w χ) }
  else o

/-- The second part of `Apply` (src/qdlib/OGridStokes.cpp:111-135). -/
noncomputable def Stokes.mixed {N : Nat} (o : Stokes N) (xe : ℝ) (ψ : Fin N → ℂ) : Fin N → ℂ := fun i =>
  times o.x (times o.sig (o.P.mulVec ψ)) i * ((1 / 2 * o.c : ℝ) : ℂ) +
    o.P.mulVec (times o.x (times o.sig ψ)) i * ((1 / 2 * o.c : ℝ) : ℂ) -
    o.P.mulVec (times o.sig ψ) i * ((xe * o.c * (1 / 2) : ℝ) : ℂ) -
    times o.sig (o.P.mulVec ψ) i * ((xe * o.c * (1 / 2) : ℝ) : ℂ)

/-- Models `Apply` (src/qdlib/OGridStokes.cpp:84-138). -/
noncomputable def Stokes.apply {N : Nat} (w : ℝ) (o : Stokes N) (ψ : Fin N → ℂ) : Ans (Stokes N × (Fin N → ℂ)) :=
  if !o.psi then .ub
  else
    let o := o.refresh w ψ
    match o.sigInt, o.xe, o.pe with
    | some f, some xe, some pe =>
      let linear : Fin N → ℂ := fun i =>
        times f ψ i * ((pe * (1 - o.c) : ℝ) : ℂ) + ψ i * ((xe * pe * (1 - o.c) : ℝ) : ℂ)
      .val (o, fun i => (if o.c ≠ 0 then linear i + o.mixed xe ψ i else linear i) * (o.fac : ℂ))
    | _, _, _ => .ub

/-- Models `Copy` into a new operator (src/qdlib/OGridStokes.cpp:11-14, 156-172): `_psi` is never set, and a later
`Init` returns at once because `_buf` exists (src/qdlib/OGridStokes.cpp:57). -/
def Stokes.copy {N : Nat} (o : Stokes N) : Stokes N :=
  ⟨o.x, o.P, fun _ => 0, none, o.fac, 0, none, none, true, false⟩

/-! ### OGridGStokes -/

/-- Models `OGridGStokes` (src/qdlib/OGridGStokes.h:29-46) with `D` dimensions: the momentum and the position operators
of its list, the matrix `_GnnG` from the file, of which the elements have the size `M`, and `_etaR0`. -/
structure Kick (D N M : Nat) where
  P : Fin D → Matrix (Fin N) (Fin N) ℂ
  q : Fin D → Fin N → ℝ
  G : Fin D → Fin D → Fin M → ℝ
  etaR0 : ℝ

/-- Models `Init(params)` (src/qdlib/OGridGStokes.cpp:49-122). -/
noncomputable def Kick.new {D N M : Nat} (P : Fin D → Matrix (Fin N) (Fin N) ℂ) (q : Fin D → Fin N → ℝ)
    (G : Fin D → Fin D → Fin M → ℝ) (eta R : ℝ) : Kick D N M := ⟨P, q, G, -6 * Real.pi * eta * R⟩

/-- Models `Init(Psi)` (src/qdlib/OGridGStokes.cpp:124-188) with the time step `dt` of the clock. -/
def Kick.init {D N M : Nat} (o : Kick D N M) (dt : ℝ) : Kick D N M := { o with etaR0 := o.etaR0 * dt }

/-- Models the exponent (src/qdlib/OGridGStokes.cpp:206-245): the loops over the grid points, with the matrix elements
of a point; `none` if the point is outside of the matrix elements. -/
noncomputable def Kick.exponent {D N M : Nat} (o : Kick D N M) (p : Fin D → ℝ) (k : Fin N) : Option ℝ :=
  if h : k.val < M then
    some ((List.finRange D).foldl (fun s i =>
      s + (List.finRange D).foldl (fun s j => s + o.etaR0 * o.G i j ⟨k.val, h⟩ * p j) 0 * o.q i k) 0)
  else none

/-- Models `Apply` (src/qdlib/OGridGStokes.cpp:190-259) on a wave function with as many dimensions as given in the
parameters. -/
noncomputable def Kick.apply {D N M : Nat} (w : ℝ) (o : Kick D N M) (ψ : Fin N → ℂ) : Ans (Fin N → ℂ) :=
  let p := fun i => (ip w ψ ((o.P i).mulVec ψ)).re
  if h : ∀ k, (o.exponent p k).isSome then
    .val fun k => Complex.exp (((o.exponent p k).get (h k) : ℂ) * Complex.I) * ψ k
  else .ub

end QDng.Fric
