import Mathlib.Algebra.Field.Defs

/-
Specification side of the grid properties, independent of the model: coordinates, and the place of
a grid point in a linear array whose first coordinate varies fastest.
-/

namespace QDng.Grid

/-- The product of a list of sizes. -/
def prodL : List Nat → Nat
  | [] => 1
  | n :: ns => n * prodL ns

/-- `Valid cs sizes`: one coordinate for each dimension, each smaller than the size of the
dimension. -/
def Valid : List Nat → List Nat → Prop
  | [], [] => True
  | c :: cs, n :: ns => c < n ∧ Valid cs ns
  | _, _ => False

/-- Place of the grid point with the given coordinates; the first coordinate varies fastest. -/
def place : List Nat → List Nat → Nat
  | c :: cs, n :: ns => c + n * place cs ns
  | _, _ => 0

/-- The frequency belonging to index `j` of a discrete Fourier transform of `n` points. -/
def freq (n j : Nat) : Int := if 2 * j < n then (j : Int) else (j : Int) - (n : Int)

/-- The wave number of index `j` on an axis of `n` equidistant points from `xmin` to `xmax`:
the Fourier frequency in units of two pi over `n` times the spacing. -/
def waveNumber {K : Type} [Field K] (pi : K) (n : Nat) (xmin xmax : K) (j : Nat) : K :=
  (freq n j : K) * (2 * pi / ((n : K) * ((xmax - xmin) / ((n : K) - 1))))

/-- `f 0 + ... + f (n - 1)`. -/
def sumTo {K : Type} [Zero K] [Add K] (f : Nat → K) : Nat → K
  | 0 => 0
  | n + 1 => sumTo f n + f n

/-- `Once seen prev ds`: each dimension of `ds` is either activated for the first time or is the
one that is active already. -/
def Once : List Nat → Option Nat → List Nat → Prop
  | _, _, [] => True
  | seen, prev, d :: ds => (d ∉ seen ∨ prev = some d) ∧ Once (d :: seen) (some d) ds

end QDng.Grid
