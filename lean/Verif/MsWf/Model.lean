import Verif.Common.Outcome
import Mathlib.Data.Complex.Basic

/-!
# Model of the scalar product and the assignment of multistate wave functions

Source: `/repo/src/qdlib/WFMultistate.cpp:184-224` with level wave functions as states
(`/repo/src/qdlib/WFLevel.cpp:52-91`).

Simplifications: one process (without MPI); complex numbers instead of pairs of `double`; the parameters of a wave function
are one opaque number.  How missing states are filled in is modelled in `Verif/Multi/Model.lean`, how states share their
storage with the multistate wave function in `Verif/Store/Model.lean`.
-/

namespace QDng.MsWf

open QDng.Common

/-- `WFMultistate` (`/repo/src/qdlib/WFMultistate.h:20-27`): number of states, values of the state behind every pointer in
the array (`none`: null or outside the array), parameters. -/
structure Ms where
  n : Nat
  states : Nat → Option (List ℂ)
  params : Nat

/-- The argument of an operation (`/repo/src/qdlib/WFMultistate.cpp:186-189, 207-210`): a null pointer, a wave function that
is not a multistate one, or a multistate one. -/
inductive Arg where
  | null
  | other
  | multi (p : Ms)

/-- The loop of the scalar product of level wave functions (`/repo/src/qdlib/WFLevel.cpp:81-90`). -/
def dotLoop : List ℂ → List ℂ → ℂ → ℂ
  | x :: xs, y :: ys, c => dotLoop xs ys (c + (starRingEnd ℂ) x * y)
  | _, _, c => c

/-- `WFLevel::operator*` (`/repo/src/qdlib/WFLevel.cpp:73-91`); `none`: the sizes differ. -/
def dot (x y : List ℂ) : Option ℂ := if x.length ≠ y.length then none else some (dotLoop x y 0)

/-- The loop of the scalar product (`/repo/src/qdlib/WFMultistate.cpp:212-214`), `k` rounds left. -/
def mulLoop (a b : Ms) : Nat → Nat → ℂ → Ans ℂ
  | 0, _, c => .val c
  | k + 1, i, c =>
    match a.states i, b.states i with
    | some x, some y =>
      match dot x y with
      | none => .threw
      | some d => mulLoop a b k (i + 1) (c + d)
    | _, _ => .ub

/-- `WFMultistate::operator*(Psi)` (`/repo/src/qdlib/WFMultistate.cpp:202-224`): for a null pointer the message of the
exception asks it for its name. -/
def mul (a : Ms) : Arg → Ans ℂ
  | .null => .ub
  | .other => .threw
  | .multi b => mulLoop a b a.n 0 0

/-- The loop of the assignment (`/repo/src/qdlib/WFMultistate.cpp:195-197`, `/repo/src/qdlib/WFLevel.cpp:52-62`). -/
def setLoop (src : Ms) : Nat → Nat → Ms → Out Ms
  | 0, _, d => .ok d
  | k + 1, i, d =>
    match d.states i, src.states i with
    | some _, some y => setLoop src k (i + 1) { d with states := fun j => if j = i then some y else d.states j }
    | _, _ => .ub

/-- `WFMultistate::operator=(Psi)` (`/repo/src/qdlib/WFMultistate.cpp:184-200`). -/
def assign (d : Ms) : Arg → Out Ms
  | .null => .ub
  | .other => .threw d
  | .multi s =>
    if d.n ≠ s.n then .threw d
    else (setLoop s s.n 0 d).bind fun d' => .ok { d' with params := s.params }

end QDng.MsWf
