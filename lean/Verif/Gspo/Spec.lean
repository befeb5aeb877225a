import Verif.Gspo.Model

/-!
What the user of a split operator propagator expects, without the functions of the model.
-/

namespace QDng.Gspo

/-- The name of the part number `i`: A, B, C, ... -/
def Letter (i : Nat) : Name := [('A'.toNat + i) % 256]

/-- The list has a part with the name number `i`, and it is `p`. -/
def HasPart (l : List (Option Name × Part)) (i : Nat) (p : Part) : Prop := (some (Letter i), p) ∈ l

/-- No two entries have the same name, and there are at most 128: what the list guarantees (C112). -/
def Proper (l : List (Option Name × Part)) : Prop :=
  l.length ≤ 128 ∧ (l.filterMap (·.1)).Nodup

/-- The names in the list are A, B, C, ... and every part has a diagonal representation. -/
def Sequence (l : List (Option Name × Part)) : Prop :=
  ∀ i, i < l.length → ∃ p, HasPart l i p ∧ p.diag = true

/-- Every operator in the list can be set up with wave functions with `n` elements. -/
def Takes (l : List (Option Name × Part)) (n : Nat) : Prop :=
  ∀ e, e ∈ l → e.2.takes n = true

/-- The propagator was never set up: nothing was grabbed, no Hamiltonian was made. -/
def Untouched (s : St) : Prop :=
  s.H = none ∧ s.spoLen = 0 ∧ (∀ i, s.ops i = none) ∧ (∀ i, s.exp i = 0) ∧ s.hInit = none ∧ s.hClock = none

/-- The propagator is ready for wave functions with `n` elements: its parts are those of the list in the order of the
letters, the Hamiltonian is the sum of exactly these parts, is set up for `n` elements and follows the clock of the
propagator, and every exponential has room for `n` elements. -/
def Ready (s : St) (n : Nat) : Prop :=
  s.spoLen = s.parts.length
    ∧ (∃ h, s.H = some h ∧ h.length = s.parts.length
        ∧ ∀ i, i < s.parts.length → ∃ p, HasPart s.parts i p ∧ s.ops i = some p ∧ s.exp i = n
            ∧ h[i]? = some (Letter i, p))
    ∧ s.hInit = some n ∧ s.clock.isSome = true ∧ s.hClock = s.clock

end QDng.Gspo
