import Verif.Chain.Model

/-
What sections of the input mean: values without memory, sharing and order of execution.
-/

namespace QDng.Chain.Spec

open QDng.Chain

/-- A wave function: is it of the multistate kind, and its components. -/
abbrev Value (V : Type) := Bool × List V

/-- The norm of a wave function with several components. -/
noncomputable def norm {V : Type} [Norm V] (l : List V) : ℝ := Real.sqrt ((l.map fun v => ‖v‖ ^ 2).sum)

/-- Every component times a number. -/
def times {V : Type} [SMul ℂ V] (c : ℂ) (l : List V) : List V := l.map fun v => c • v

/-- The coefficient of a section: `coeff`, or else the root of `coeff2`, or else one. -/
noncomputable def coefficient (a : Attr) : Option ℝ :=
  match a.coeff, a.coeff2 with
  | some c, _ => some c
  | none, some c2 => if 0 ≤ c2 then some (Real.sqrt c2) else none
  | none, none => some 1

/-- The phase factor of a section; the phase is given in units of pi. -/
noncomputable def phase (a : Attr) : ℂ :=
  match a.phase with
  | some p => Complex.exp (Complex.I * (Real.pi * p))
  | none => 1

open Classical in
/-- Normalisation, where the norm is not zero. -/
noncomputable def normed {V : Type} [Norm V] [SMul ℂ V] (on : Bool) (l : List V) : Option (List V) :=
  if on then (if norm l = 0 then none else some (times ((norm l)⁻¹ : ℝ) l)) else some l

/-- Normalisation, phase and coefficient. -/
noncomputable def dress {V : Type} [Norm V] [SMul ℂ V] (a : Attr) (v : Value V) : Option (Value V) :=
  (normed a.normalize v.2).bind fun l => (coefficient a).map fun c : ℝ => (v.1, times (c : ℂ) (times (phase a) l))

/-- The entry given last for a place. -/
def lastAt {A : Type} (l : List (Int × A)) (i : Nat) : Option A :=
  (l.reverse.find? fun e => e.1 = (i : Int)).map (·.2)

/-- The number of places needed. -/
def places {A : Type} (l : List (Int × A)) : Nat := l.foldr (fun e n => max (e.1.toNat + 1) n) 0

/-- Components at given places, zero elsewhere; at least `n` places. -/
def arrange {V : Type} [Zero V] (l : List (Int × V)) (n : Nat) : List V :=
  (List.range (max n (places l))).map fun i => (lastAt l i).getD 0

/-- `k` times the sum of lists of components. -/
def sumOf {V : Type} [Zero V] [Add V] [SMul ℂ V] (k : ℂ) (n : Nat) (vs : List (Value V)) : List V :=
  (List.range n).map fun i => k • (vs.map fun v => v.2.getD i 0).sum

/-- `k` times the sum of wave functions, which must have the same number of components. -/
noncomputable def total {V : Type} [Zero V] [Add V] [SMul ℂ V] (k : ℂ) : List (Value V) → Option (Value V)
  | [] => none
  | v :: vs => if vs.all fun u => u.2.length = v.2.length then some (v.1, sumOf k v.2.length (v :: vs)) else none

/-- A multistate wave function from its states. -/
def states {V : Type} [Zero V] (n : Int) (l : List (Int × V)) : Option (Value V) :=
  if l = [] ∨ n > 64 then none else some (true, arrange l n.toNat)

/-- The coefficient of a state in a map: one if there are no coefficients, zero if there are not enough. -/
def mapCoeff (coeffs : Option (List ℝ)) (i : Nat) : ℝ :=
  match coeffs with
  | none => 1
  | some l => l.getD i 0

/-- Input state `i` times its coefficient at the place `map[i]`; a map with a single entry picks that state. -/
noncomputable def remap {V : Type} [Zero V] [SMul ℂ V] (map : List Int) (coeffs : Option (List ℝ)) (v : Value V) :
    Option (Value V) :=
  if v.1 = false ∨ map.length > v.2.length ∨ (∃ t ∈ map, t < 0 ∨ (v.2.length : Int) ≤ t) then none
  else match map with
    | [] => none
    | [t] => if coeffs = some [] then none
      else some (false, [(mapCoeff coeffs 0 : ℂ) • v.2.getD t.toNat 0])
    | _ =>
      if ∃ t ∈ map, 63 ≤ t then none
      else some (true, arrange (map.zipIdx.map fun (t, i) => (t, (mapCoeff coeffs i : ℂ) • v.2.getD i 0)) 0)

mutual
/-- The value of a section; `k` is the factor in front of the sum in linear combinations, which should be one. -/
noncomputable def eval {V : Type} [Zero V] [Add V] [Norm V] [SMul ℂ V] (k : ℂ) : Node V → Option (Value V)
  | .file a multi first others => dress a (multi, first :: others)
  | .lc a terms => (evalTerms k terms).bind fun l => (total k (l.map (·.2))).bind (dress a)
  | .multistate a n parts => (evalTerms k parts).bind fun l =>
    if ∀ e ∈ l, 0 ≤ e.1 ∧ e.1 < 63 ∧ e.2.2.length = 1 then
      (states n (l.map fun e => (e.1, e.2.2.getD 0 0))).bind (dress a)
    else none
  | .multimap a map coeffs input => (eval k input).bind fun v => (remap map coeffs v).bind (dress a)
/-- The values of the sections inside of a section, with their numbers. -/
noncomputable def evalTerms {V : Type} [Zero V] [Add V] [Norm V] [SMul ℂ V] (k : ℂ) :
    Nodes V → Option (List (Int × Value V))
  | .nil => some []
  | .cons index n rest => (eval k n).bind fun v => (evalTerms k rest).map fun l => (index, v) :: l
end

mutual
/-- Every section satisfies a condition on its options; the flag tells if it is a linear combination. -/
def All {V : Type} (p : Attr → Bool → Prop) : Node V → Prop
  | .file a _ _ _ => p a false
  | .lc a terms => p a true ∧ AllTerms p terms
  | .multistate a _ parts => p a false ∧ AllTerms p parts
  | .multimap a _ _ input => p a false ∧ All p input
/-- The same for all sections inside of a section. -/
def AllTerms {V : Type} (p : Attr → Bool → Prop) : Nodes V → Prop
  | .nil => True
  | .cons _ n rest => All p n ∧ AllTerms p rest
end

/-- No section has the coefficient zero. -/
def NoZero {V : Type} (n : Node V) : Prop := All (fun a _ => coefficient a ≠ some 0) n

/-- Every linear combination is normalised. -/
def LCNormalized {V : Type} (n : Node V) : Prop := All (fun a lc => lc = true → a.normalize = true) n

/-- The value of an object in memory. -/
def valueOf {V : Type} (w : Wf) (st : St V) : Value V := (w.multi, w.cells.map st.cell)

end QDng.Chain.Spec
