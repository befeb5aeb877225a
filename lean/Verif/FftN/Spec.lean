import Mathlib.Algebra.BigOperators.Ring.Finset
import Mathlib.Analysis.SpecialFunctions.Trigonometric.Basic
import Mathlib.Analysis.SpecialFunctions.Complex.Circle

/- Words for the properties of the transforms, independent of the model's definitions. -/

namespace QDng.FftN.Spec

/-- The place of a grid point in the array of a wave function: the first dimension runs fastest. -/
def place : List Nat → List Nat → Nat
  | n :: ns, x :: xs => x + n * place ns xs
  | _, _ => 0

/-- The grid points by their indices along the dimensions. -/
def IsPoint (dims p : List Nat) : Prop :=
  p.length = dims.length ∧ ∀ i (h : i < p.length) (h' : i < dims.length), p[i] < dims[i]

/-- All grid points. -/
def points : List Nat → List (List Nat)
  | [] => [[]]
  | n :: ns => (List.range n).flatMap fun x => (points ns).map fun xs => x :: xs

/-- The plane wave factor `exp(sgn 2 pi i Σ q_i x_i / n_i)`. -/
noncomputable def wave (sgn : ℝ) (dims q x : List Nat) : ℂ :=
  Complex.exp (sgn * (2 * Real.pi * Complex.I) *
    ∑ i ∈ Finset.range dims.length, ((q.getD i 0 : Nat) : ℂ) * ((x.getD i 0 : Nat) : ℂ) / (dims.getD i 0 : Nat))

/-- The factor along a single dimension of `n` points. -/
noncomputable def wave1 (sgn : ℝ) (n a b : Nat) : ℂ :=
  Complex.exp (sgn * (2 * Real.pi * Complex.I) * ((a : ℂ) * (b : ℂ) / n))

end QDng.FftN.Spec
