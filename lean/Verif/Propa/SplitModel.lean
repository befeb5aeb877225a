import Mathlib.Data.Complex.Basic

/-
Model of the general split operator propagator, src/qdlib/OGSPO.cpp.

A part is an operator that is diagonal after its transformation: it computes, for a time step of the clock and a
factor, the exponential of its values (`ODSpace::InitExponential`, an external call: the result is assumed to
depend on nothing else).  `X` are diagonals, `mul` multiplies a wave function by a diagonal elementwise.  The
propagator keeps the diagonals of the last call.  Wave functions are values.  Numbers are exact.  Not modelled:
how `Init` collects the parts by name.
-/

namespace QDng.Propa

/-- A transformation (src/qdlib/Transform.h:19-34): forward, backward, and the multiplication of a diagonal by its
normalization factor. -/
structure Transf (V X : Type) where
  fwd : V → V
  bwd : V → V
  norm : X → X

/-- One of the operators `_ops[i]` (src/qdlib/ODSpace.h): `isTimeDep`, `InitExponential` at a time step of the
clock with a factor, `Transformation`. -/
structure Part (V X : Type) where
  timeDep : Bool
  expo : Int → ℂ → X
  transf : Option (Transf V X)

/-- Cached exponentials `_exp`, `_laststep`, `_lastexp` (src/qdlib/OGSPO.h:36-40). -/
structure Cache (X : Type) where
  exps : List X
  laststep : Int
  lastexp : ℂ

/-- State after construction and initialisation (src/qdlib/OGSPO.cpp:12-18, 99) and of a copy
(src/qdlib/OGSPO.cpp:157-162): storage with arbitrary content, no last step; `e` is what `_lastexp` holds. -/
def Cache.fresh {X : Type} (exps : List X) (e : ℂ) : Cache X := { exps := exps, laststep := -1, lastexp := e }

/-- The condition for a new exponential (src/qdlib/OGSPO.cpp:35-36). -/
def outdated {V X : Type} (p : Part V X) (c : Cache X) (step : Int) (e : ℂ) : Prop :=
  (p.timeDep = true ∧ c.laststep ≠ step) ∨ c.laststep = -1 ∨ c.lastexp.re ≠ e.re ∨ c.lastexp.im ≠ e.im

/-- A new exponential with the normalization (src/qdlib/OGSPO.cpp:37-41). -/
def newExp {V X : Type} (p : Part V X) (step : Int) (e sf : ℂ) : X :=
  match p.transf with
  | none => p.expo step (e * sf)
  | some t => t.norm (p.expo step (e * sf))

open Classical in
/-- `InitExp()` (src/qdlib/OGSPO.cpp:30-47), the loop; `sf` is one for the first part and one half after it. -/
noncomputable def refresh {V X : Type} (c : Cache X) (step : Int) (e : ℂ) : ℂ → List (Part V X) → List X → List X
  | sf, p :: ps, x :: xs =>
    (if outdated p c step e then newExp p step e sf else x) :: refresh c step e (1 / 2) ps xs
  | _, _, xs => xs

/-- `InitExp()` (src/qdlib/OGSPO.cpp:30-47). -/
noncomputable def initExp {V X : Type} (parts : List (Part V X)) (step : Int) (e : ℂ) (c : Cache X) : Cache X :=
  { exps := refresh c step e 1 parts c.exps, lastexp := e, laststep := step }

/-- Body of both loops (src/qdlib/OGSPO.cpp:120-126, 131-137); `none`: index outside of the arrays. -/
def splitBody {V X : Type} (mul : X → V → V) (parts : List (Part V X)) (exps : List X) (i : Nat) (ψ : V) :
    Option V :=
  match parts[i]?, exps[i]? with
  | some p, some x =>
    match p.transf with
    | none => some (mul x ψ)
    | some t => some (t.bwd (mul x (t.fwd ψ)))
  | _, _ => none

/-- The loop `for (int i = _spoLen - 1; i > 0; i--)` (src/qdlib/OGSPO.cpp:119-127), `i` the current index. -/
def splitDown {V X : Type} (mul : X → V → V) (parts : List (Part V X)) (exps : List X) : Nat → V → Option V
  | 0, ψ => some ψ
  | i + 1, ψ => (splitBody mul parts exps (i + 1) ψ).bind (splitDown mul parts exps i)

/-- The loop `for (int i = 0; i < _spoLen; i++)` (src/qdlib/OGSPO.cpp:130-138) with `n` rounds left. -/
def splitUp {V X : Type} (mul : X → V → V) (parts : List (Part V X)) (exps : List X) : Nat → Nat → V → Option V
  | 0, _, ψ => some ψ
  | n + 1, i, ψ => (splitBody mul parts exps i ψ).bind (splitUp mul parts exps n (i + 1))

/-- `Apply(Psi)` (src/qdlib/OGSPO.cpp:114-139) when the clock is at `step` and the exponent is `e`. -/
noncomputable def splitApply {V X : Type} (mul : X → V → V) (parts : List (Part V X)) (step : Int) (e : ℂ)
    (c : Cache X) (ψ : V) : Cache X × Option V :=
  let c := initExp parts step e c
  (c, (splitDown mul parts c.exps (parts.length - 1) ψ).bind (splitUp mul parts c.exps parts.length 0))

end QDng.Propa
