/-
Outcomes of C++ calls: normal return, exception, undefined behaviour.
-/

namespace QDng.Common

/-- Outcome of a call that changes an object.  An exception carries the object as the call left it
(C++ does not undo assignments made before a `throw`), so "rejected without changing the object" is
a statement about it.  `ub` is undefined behaviour (for instance src/qdlib/OList.cpp:47-52 with a
negative index). -/
inductive Out (S : Type) where
  | ok (s : S)
  | threw (s : S)
  | ub
  deriving DecidableEq, Repr

/-- Outcome of a call that answers a question (for instance src/qdlib/OList.cpp:64-70). -/
inductive Ans (A : Type) where
  | val (a : A)
  | threw
  | ub
  deriving DecidableEq, Repr

/-- Sequence of two statements: an exception or undefined behaviour in the first one ends the
sequence (for instance src/qdlib/OSum.cpp:55-59). -/
def Out.bind {S : Type} : Out S → (S → Out S) → Out S
  | .ok s, f => f s
  | .threw s, _ => .threw s
  | .ub, _ => .ub

end QDng.Common
