import Verif.OpChain.Model

/-
What the loading of operators is compared with: the meaning of the input as a tree of operators, where references stand
for the operators that were given under a key before.
-/

namespace QDng.OpChain.Spec

open QDng QDng.OpChain

/-- An operator with its parts and the names of the elements they come from. -/
inductive Tree
  | mk (shape : Shape) (tags : List Str) (parts : List Tree)

/-- The operator without its parts. -/
def Tree.shape : Tree → Shape
  | .mk sh _ _ => sh

/-- The operators that have been given under a key. -/
abbrev Env := Str → Option Tree

/-- The name of an element stands for a row and a column: `m<row>.<col>`, with any first letter. -/
def TagIs (tag : Str) (p : Nat × Nat) : Prop :=
  ∃ ch, ch ≠ '.' ∧ tag = ch :: (FileSeq.showNat p.1 ++ '.' :: FileSeq.showNat p.2)

/-- Sizes are equal, only at the beginning there may be operators without a size. -/
def SameSize (sizes : List Nat) (n : Nat) : Prop :=
  ∃ z m, sizes = List.replicate z 0 ++ List.replicate m n ∧ (m = 0 → n = 0)

/-- The number of states of a matrix: enough for the rows and columns and for the given number. -/
def StatesFor (given : Int) (ps : List (Nat × Nat)) (n : Int) : Prop :=
  given ≤ n ∧ (∀ p ∈ ps, (p.1 : Int) < n ∧ (p.2 : Int) < n) ∧
    (n = given ∨ ∃ p ∈ ps, n = (p.1 : Int) + 1 ∨ n = (p.2 : Int) + 1)

/-- Operators on a grid: the modules of this kind and sums of them. -/
def OnGrid (W : World) : Shape → Prop
  | .leaf n _ => W.load n = some .grid
  | .gridsum _ => True
  | .list _ _ => False
  | .matrix _ _ _ => False

/-- The size of an operator on a grid. -/
def gridSize (W : World) : Shape → Nat
  | .leaf n r => W.gsize n r
  | .gridsum m => m
  | .list _ _ => 0
  | .matrix _ _ _ => 0

/-- Operators that generate a laser field. -/
def Generates (W : World) : Shape → Prop
  | .leaf n r => W.gen n r = true
  | .gridsum _ => False
  | .list _ _ => False
  | .matrix _ _ _ => False

/-- The names of sums on grids and matrices. -/
def Special (name : Str) : Prop :=
  name = "GridSum".toList ∨ name = "Multistate".toList ∨ name = "DMultistate".toList

/-- The operator an element asks for, if its parts have the given names and shapes. -/
def Makes (W : World) (at_ : Attrs) (text : Bool) (tags : List Str) (parts : List Shape) : Shape → Prop
  | .gridsum n => at_.name = "GridSum".toList ∧ parts ≠ [] ∧ parts.length ≤ 16 ∧
      (∀ p ∈ parts, OnGrid W p ∧ ¬ Generates W p) ∧ SameSize (parts.map (gridSize W)) n
  | .matrix dvr unity n => at_.name = (if dvr then "DMultistate".toList else "Multistate".toList) ∧ parts ≠ [] ∧
      (unity = true ↔ at_.unity ≠ some "false".toList) ∧ W.states at_.rest ≤ 64 ∧
      ∃ ps : List (Nat × Nat), List.Forall₂ TagIs tags ps ∧ ps.Nodup ∧ (∀ p ∈ ps, p.1 < 64 ∧ p.2 < 64) ∧
        StatesFor (W.states at_.rest) ps n
  | .list name rest => at_.name = name ∧ at_.rest = rest ∧ ¬ Special at_.name ∧ W.load name = some .list ∧
      W.initOk name rest = true ∧ tags.Nodup ∧ tags.length ≤ 128 ∧ (text = true → tags ≠ [])
  | .leaf name rest => at_.name = name ∧ at_.rest = rest ∧ ¬ Special at_.name ∧
      (W.load name = some .grid ∨ W.load name = some .plain) ∧ W.initOk name rest = true ∧ tags = [] ∧ parts = []

/-- Single operators have no parts, whatever is in the element. -/
def Single (W : World) (at_ : Attrs) : Prop :=
  ¬ Special at_.name ∧ (W.load at_.name = some .grid ∨ W.load at_.name = some .plain)

/-- An operator given under a key that is not in use is known from there on. -/
def Known (E : Env) (key : Str) (t : Tree) (E' : Env) : Prop :=
  if key = [] then E' = E else E key = none ∧ E' = fun k => if k = key then some t else E k

mutual
/-- The meaning of an element, where the operators `E` are known; `E'` are known behind the element. -/
def Means (W : World) : Node → Env → Tree → Env → Prop
  | .mk _ at_ text kids, E, t, E' =>
    match at_.ref with
    | some r => E r = some t ∧ E' = E
    | none => ∃ sh ts tags E1, Makes W at_ text tags (ts.map Tree.shape) sh ∧ t = .mk sh tags ts ∧ Known E1 at_.key t E' ∧
        ((Single W at_ ∧ tags = [] ∧ ts = [] ∧ E1 = E) ∨
          (¬ Single W at_ ∧ tags = kids.map Node.tag ∧ MeansAll W kids E ts E1))
def MeansAll (W : World) : List Node → Env → List Tree → Env → Prop
  | [], E, ts, E' => ts = [] ∧ E' = E
  | k :: ks, E, ts, E' => ∃ t E1 ts1, Means W k E t E1 ∧ MeansAll W ks E1 ts1 E' ∧ ts = t :: ts1
end

/-- Where the parts of an operator are. -/
def PlacesOk : Shape → List Str → List Place → Prop
  | .gridsum _, tags, ps => ps = tags.map fun _ => Place.next
  | .matrix _ _ _, tags, ps => List.Forall₂ (fun tag p => ∃ r c, TagIs tag (r, c) ∧ p = Place.elem r c) tags ps
  | .list _ _, tags, ps => ps = tags.map Place.named
  | .leaf _ _, tags, ps => tags = [] ∧ ps = []

mutual
/-- The operator with number `a` and all its parts, down to the single operators, are as in the tree. -/
def Denotes (h : List Obj) : Tree → Nat → Prop
  | .mk sh tags ts, a => ∃ o, h[a]? = some o ∧ o.shape = sh ∧ PlacesOk sh tags (o.parts.map Prod.fst) ∧
      DenotesAll h ts (o.parts.map Prod.snd)
def DenotesAll (h : List Obj) : List Tree → List Nat → Prop
  | [], as => as = []
  | t :: ts, as => ∃ a as', as = a :: as' ∧ Denotes h t a ∧ DenotesAll h ts as'
end

/-- Keys of the user do not begin with two underscores. -/
def Plain (k : Str) : Prop := ¬ ['_', '_'] <+: k

/-- The operators known by their keys are the ones in the global list. -/
def Represents (s : State) (E : Env) : Prop :=
  s.store [] = none ∧ ∀ k, Plain k → (E k = none → s.store k = none) ∧
    (∀ t, E k = some t → ∃ e, s.store k = some e ∧ Denotes s.heap t e.1)

mutual
/-- All keys and references are ones of a user, and the elements of matrices have names with a row and a column. -/
def Regular : Node → Prop
  | .mk _ at_ _ kids => Plain at_.key ∧ (∀ r, at_.ref = some r → Plain r) ∧
      (at_.name = "Multistate".toList ∨ at_.name = "DMultistate".toList →
        ∀ k ∈ kids, ∃ p : Nat × Nat, p.1 ≤ 2147483647 ∧ p.2 ≤ 2147483647 ∧ TagIs k.tag p) ∧ RegularAll kids
def RegularAll : List Node → Prop
  | [] => True
  | k :: ks => Regular k ∧ RegularAll ks
end

end QDng.OpChain.Spec
