import Verif.Propa.SplitModel

/-
The normalization of the transformations of the general split operator propagator, src/qdlib/TransformFFT.cpp: the
factor is one until the transformation has been used.  What has been used is one flag for all parts: an application of
the propagator (src/qdlib/OGSPO.cpp:119-138) and of its Hamiltonian (src/qdlib/Diff.cpp:203-212) use all of them.
-/

namespace QDng.Propa

/-- A part as it is seen before its transformation has been used: the normalization is one
(src/qdlib/TransformFFT.cpp:11-12, src/qdlib/TransformFFT.h:29). -/
def Part.unused {V X : Type} (p : Part V X) : Part V X :=
  { p with transf := p.transf.map fun t => { t with norm := id } }

/-- The parts as they are seen (src/qdlib/TransformFFT.cpp:31, 46). -/
def seen {V X : Type} (used : Bool) (parts : List (Part V X)) : List (Part V X) :=
  if used then parts else parts.map Part.unused

/-- What happens to a propagator: a step at a time step of the clock with an exponent; the energy of a wave function is
computed with its Hamiltonian (src/qdlib/Operator.h:249-258, src/ProgPropa.cpp:241); it is replaced by a copy, which has
new parts (src/qdlib/OGSPO.cpp:146-165). -/
inductive NormEvent (V X : Type) where
  | step (step : Int) (e : ℂ) (ψ : V)
  | energy
  | copy (exps : List X) (e : ℂ)

/-- One call of `Apply` (src/qdlib/OGSPO.cpp:114-139): the exponentials are computed with what the transformations know
before they are used. -/
noncomputable def normApply {V X : Type} (mul : X → V → V) (parts : List (Part V X)) (step : Int) (e : ℂ)
    (c : Cache X × Bool) (ψ : V) : (Cache X × Bool) × Option V :=
  let r := splitApply mul (seen c.2 parts) step e c.1 ψ
  ((r.1, true), r.2)

/-- The state after a history. -/
noncomputable def normHistory {V X : Type} (mul : X → V → V) (parts : List (Part V X)) :
    Cache X × Bool → List (NormEvent V X) → Cache X × Bool
  | c, [] => c
  | c, .step s e ψ :: l => normHistory mul parts (normApply mul parts s e c ψ).1 l
  | c, .energy :: l => normHistory mul parts (c.1, true) l
  | _, .copy xs e :: l => normHistory mul parts (Cache.fresh xs e, false) l

/-- `n` steps with the exponent `e`, the clock counts from `s`. -/
noncomputable def normSteps {V X : Type} (mul : X → V → V) (parts : List (Part V X)) (e : ℂ) :
    Nat → Int → Cache X × Bool → V → Option V
  | 0, _, _, ψ => some ψ
  | n + 1, s, c, ψ =>
    let r := normApply mul parts s e c ψ
    r.2.bind (normSteps mul parts e n (s + 1) r.1)

end QDng.Propa
