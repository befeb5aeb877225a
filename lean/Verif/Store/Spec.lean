import Verif.Store.Model

/-
What a user sees of a multistate wave function: a table of values for every state in two representations.
-/

namespace QDng.Store

/-- The wave function as the user sees it: storage present or given back, representation, the values in this and in the
other representation (unknown values are `none`). -/
structure View (V : Type) where
  active : Bool
  k : Bool
  cur : Nat → Nat → Option V
  oth : Nat → Nat → Option V

/-- What a user does with a multistate wave function. -/
inductive Act (V : Type)
  | retire
  | reaquire
  | kspace (b : Bool)
  | writeState (s i : Nat) (x : V)
  | writeMulti (s i : Nat) (x : V)

/-- One value of a table changed. -/
def tab {V : Type} (f : Nat → Nat → Option V) (s i : Nat) (x : V) : Nat → Nat → Option V :=
  fun s' i' => if s' = s ∧ i' = i then some x else f s' i'

/-- What the user expects: giving storage back loses the values, taking it again does not change values that are there,
changing the representation changes to the other table, and it does not matter if a value is written through the state or
through the multistate wave function. -/
def View.step {V : Type} (a : View V) : Act V → View V
  | .retire => ⟨false, a.k, fun _ _ => none, fun _ _ => none⟩
  | .reaquire => { a with active := true }
  | .kspace b => if a.k = b then a else { a with k := b, cur := a.oth, oth := a.cur }
  | .writeState s i x => { a with cur := tab a.cur s i x }
  | .writeMulti s i x => { a with cur := tab a.cur s i x }

/-- Values may be written to `n` states with `ss` elements while the storage is there. -/
def Act.allowed {V : Type} (n ss : Nat) (a : View V) : Act V → Prop
  | .writeState s i _ => a.active = true ∧ s < n ∧ i < ss
  | .writeMulti s i _ => a.active = true ∧ s < n ∧ i < ss
  | _ => True

/-- All calls are allowed when they are made. -/
def AllAllowed {V : Type} (n ss : Nat) : View V → List (Act V) → Prop
  | _, [] => True
  | a, t :: ts => t.allowed n ss a ∧ AllAllowed n ss (a.step t) ts

/-- All calls, as the user expects them to work. -/
def View.run {V : Type} (a : View V) (ts : List (Act V)) : View V := ts.foldl View.step a

/-- A new wave function. -/
def View.new (V : Type) : View V := ⟨true, false, fun _ _ => none, fun _ _ => none⟩

/-- One call in the program. -/
def perform {V : Type} (m : Multi) (t : Act V) (w : World V) : Res V Unit :=
  match t with
  | .retire => multiRetire m w
  | .reaquire => multiReaquire m w
  | .kspace b => multiKspace m b w
  | .writeState s i x =>
    match m.states[s]? with
    | none => .ub
    | some a => writeAt a 0 i x w
  | .writeMulti s i x => writeAt m.self s i x w

/-- Several calls in the program; an exception ends the sequence. -/
def performAll {V : Type} (m : Multi) : List (Act V) → World V → Res V Unit
  | [], w => .ok w ()
  | t :: ts, w => (perform m t w).bind fun w _ => performAll m ts w

/-- Several calls in a program that catches every exception and goes on. -/
def performCatching {V : Type} (m : Multi) : List (Act V) → World V → Res V Unit
  | [], w => .ok w ()
  | t :: ts, w =>
    match perform m t w with
    | .ok w _ => performCatching m ts w
    | .threw w => performCatching m ts w
    | .ub => .ub

/-- New wave functions. -/
def newStates {V : Type} (ss : Nat) : Nat → World V → Res V (List Nat)
  | 0, w => .ok w []
  | n + 1, w => (newStates ss n w).bind fun w l => (newWf ss w).bind fun w a => .ok w (l ++ [a])

/-- A multistate wave function with `n` new states of `ss` elements: constructor, `Add` of the states, `Init`. -/
def build {V : Type} (n ss : Nat) (w : World V) : Res V Multi :=
  (newWf 0 w).bind fun w me =>
    (newStates ss n w).bind fun w l => (multiLink ⟨me, l⟩ w).bind fun w _ => .ok w ⟨me, l⟩

/-- Numbers not yet given are not in use. -/
def Sane {V : Type} (w : World V) : Prop :=
  (∀ k, w.live k = true → k < w.nextB) ∧ ∀ x v, w.vecs x = some v → x < w.nextV

end QDng.Store
