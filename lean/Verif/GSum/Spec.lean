import Verif.GSum.Model
import Mathlib.Algebra.BigOperators.Group.List.Basic
import Mathlib.Data.List.Forall2

/-!
# What is expected of sums of grid operators

Words for the properties C306 to C309, in terms of the calls `Add`, `Get`, `Size` and of the operators themselves.
-/

namespace QDng.GSum

open QDng.Common

/-- What a caller sees of a sum: `Size` and `Get` give the operators `ps` in this order. -/
def Members (w : World) (s : Nat) (ps : List Nat) : Prop :=
  size w s = .val ps.length ∧ ∀ i (h : i < ps.length), get w s (i : Int) = .val ps[i]

/-- The operators `os` live at the addresses `ps`. -/
def Living (w : World) (ps : List Nat) (os : List Pot) : Prop :=
  List.Forall₂ (fun p o => p ≠ 0 ∧ w.pots p = some o) ps os

/-- The value of the sum of operators at a grid point. -/
def valueAt (os : List Pot) (i : Nat) : ℝ := (os.map (fun o => o.vals.getD i 0)).sum

/-- A caller adds operators one after the other and remembers which calls returned (`none`: undefined behaviour). -/
def addAll : World → Nat → List Nat → Option (World × List Nat)
  | w, _, [] => some (w, [])
  | w, s, p :: l =>
    match add w s p with
    | .ok w' => (addAll w' s l).map (fun r => (r.1, p :: r.2))
    | .threw w' => addAll w' s l
    | .ub => none

/-- The operators a sum should take: those given (no null pointers) that have as many points as the first one, up to
sixteen. -/
def wanted (len : Nat → Nat) (ps : List Nat) : List Nat :=
  match ps.filter (fun p => p ≠ 0) with
  | [] => []
  | f :: l => ((f :: l).filter (fun p => len p = len f)).take 16

/-- Executions in which every operator is added to at most one living sum, sums are not copied and members are not
deleted by others. -/
inductive Careful : World → Prop
  | start : Careful { pots := fun _ => none, sums := fun _ => none }
  | pot {w : World} (h : Careful w) (a : Nat) (o : Pot) (ha : a ≠ 0) (hf : w.pots a = none)
      (hn : w.sums a = none) : Careful (newPot w a o)
  | sum {w : World} (h : Careful w) (a : Nat) (ha : a ≠ 0) (hf : w.sums a = none) (hn : w.pots a = none) :
      Careful (newSum w a)
  | add {w w' : World} (h : Careful w) (s p : Nat) (hp : ∀ t i, get w t i ≠ .val p)
      (hr : add w s p = .ok w' ∨ add w s p = .threw w') : Careful w'
  | delete {w : World} (h : Careful w) (s : Nat) : Careful (deleteSum w s)

end QDng.GSum
