import Verif.Common.Outcome
import Mathlib.Algebra.Order.Field.Basic

/-
Model of the quantum jump operator, src/qdlib/OJump.cpp.

The operators of the list are functions on wave functions, `nrm` is the squared norm (`*buf * buf`) and
`normalize` the normalisation (see Verif.Multi and Verif.Linalg for products).  The random number is a parameter
of the call.  Numbers are exact.
-/

namespace QDng.Propa

open QDng.Common

/-- The first loop (src/qdlib/OJump.cpp:67-71): cumulative probabilities, `last` is the entry before. -/
def jumpSums {V K : Type} [Field K] (nrm : V → K) (dt : K) (psi : V) : List (V → V) → K → List K
  | [], _ => []
  | o :: l, last =>
    let pjump := dt * nrm (o psi)
    (pjump + last) :: jumpSums nrm dt psi l (pjump + last)

/-- The second loop (src/qdlib/OJump.cpp:81-91) without its effect: the index at which the jump happens. -/
def jumpPick {K : Type} [LT K] [DecidableLT K] (rnd : K) : List K → Nat → Option Nat
  | [], _ => none
  | c :: l, i => if c > rnd then some i else jumpPick rnd l (i + 1)

/-- The effect of the second loop (src/qdlib/OJump.cpp:86-89): jump and normalise. -/
def jumpAct {V : Type} (ops : List (V → V)) (normalize : V → V) (psi : V) : Option Nat → Out V
  | none => .ok psi
  | some i =>
    match ops[i]? with
    | none => .ub
    | some o => .ok (normalize (o psi))

/-- `Apply(Psi)` (src/qdlib/OJump.cpp:59-92); `csum.back()` of an empty vector is undefined behaviour. -/
def jumpApply {V K : Type} [Field K] [LinearOrder K] (ops : List (V → V)) (nrm : V → K) (normalize : V → V)
    (dt maxPjump rnd : K) (psi : V) : Out V :=
  let psi := normalize psi
  let csum := jumpSums nrm dt psi ops 0
  match csum.getLast? with
  | none => .ub
  | some total =>
    if total ≥ maxPjump then .threw psi
    else
      jumpAct ops normalize psi (jumpPick rnd csum 0)

end QDng.Propa
