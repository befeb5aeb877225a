import Mathlib.Data.Nat.Digits.Defs
import Verif.PNum.Model

/-
Words used in the statements about numbers in parameter containers.
-/

namespace QDng.PNum.Spec

open QDng QDng.PNum

/-- The numbers that a variable of an integer type can hold. -/
def holds : Kind → Int → Prop
  | .int, v => -2 ^ 31 ≤ v ∧ v < 2 ^ 31
  | .uint, v => 0 ≤ v ∧ v < 2 ^ 32
  | .long, v => -2 ^ 63 ≤ v ∧ v < 2 ^ 63
  | .size, v => 0 ≤ v ∧ v < 2 ^ 64

/-- The characters `0` to `9`. -/
def digitChar (c : Char) : Prop := c ∈ ['0', '1', '2', '3', '4', '5', '6', '7', '8', '9']

/-- A text of at least one digit is the decimal notation (leading zeros allowed) of a natural number. -/
def decimal (s : Str) (n : Nat) : Prop :=
  s ≠ [] ∧ (∀ c ∈ s, digitChar c) ∧ n = Nat.ofDigits 10 (s.reverse.map (fun c => c.toNat - '0'.toNat))

/-- The ways to write an integer: digits with an optional sign. -/
def notation' (s : Str) (v : Int) : Prop :=
  ∃ (ds : Str) (n : Nat), decimal ds n ∧ ((s = ds ∧ v = n) ∨ (s = '+' :: ds ∧ v = n) ∨ (s = '-' :: ds ∧ v = -n))

/-- White space. -/
def blank (s : Str) : Prop := ∀ c ∈ s, c ∈ [' ', '\t', '\n', '\r', Char.ofNat 11, Char.ofNat 12]

/-- A text that does not go on with a digit. -/
def noDigitNext (s : Str) : Prop := ∀ c r, s = c :: r → ¬ digitChar c

/-- A text that does not begin (after white space) with an integer. -/
def noNumber (s : Str) : Prop := ¬ ∃ (w t rest : Str) (v : Int), blank w ∧ notation' t v ∧ s = w ++ t ++ rest

end QDng.PNum.Spec
