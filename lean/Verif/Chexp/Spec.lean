import Mathlib.Analysis.InnerProductSpace.Basic
import Mathlib.Analysis.Calculus.Deriv.Basic
import Mathlib.Topology.Algebra.InfiniteSum.Basic
import Mathlib.Analysis.SpecialFunctions.Exp

/-
Specification side of the accuracy of the Chebychev propagator: Bessel functions, the Schrödinger
equation in real and imaginary time, energy bounds.
-/

namespace QDng.Chexp

open Nat

/-- The Bessel function of the first kind of order `k`. -/
noncomputable def besselJ (k : ℕ) (x : ℝ) : ℝ :=
  ∑' m : ℕ, (-1) ^ m * (x / 2) ^ (2 * m + k) / (m ! * (m + k)!)

/-- The modified Bessel function of the first kind of order `k`. -/
noncomputable def besselI (k : ℕ) (x : ℝ) : ℝ :=
  ∑' m : ℕ, (x / 2) ^ (2 * m + k) / (m ! * (m + k)!)

variable {V : Type} [NormedAddCommGroup V] [InnerProductSpace ℂ V]

/-- `psi` solves the Schrödinger equation `i d/dt psi = H psi`. -/
def Solves (H : V →ₗ[ℂ] V) (psi : ℝ → V) : Prop :=
  ∀ t, HasDerivAt psi ((-Complex.I) • H (psi t)) t

/-- `psi` solves the Schrödinger equation in imaginary time, `d/dt psi = - H psi`. -/
def Cools (H : V →ₗ[ℂ] V) (psi : ℝ → V) : Prop :=
  ∀ t, HasDerivAt psi (-(H (psi t))) t

/-- `H` is Hermitian. -/
def Hermitian (H : V →ₗ[ℂ] V) : Prop := ∀ a b, inner ℂ (H a) b = inner ℂ a (H b)

/-- All expectation values of `H` lie between the bounds. -/
def Within (H : V →ₗ[ℂ] V) (emin emax : ℝ) : Prop :=
  ∀ a, emin * ‖a‖ ^ 2 ≤ (inner ℂ a (H a)).re ∧ (inner ℂ a (H a)).re ≤ emax * ‖a‖ ^ 2

/-- Bound for the error of a sum of `n` terms, `z` is half of the energy range times the time step. -/
noncomputable def errorBound (z : ℝ) (n : ℕ) : ℝ :=
  2 * ((z / 2) ^ n / n !) * Real.exp (z / 2 + (z / 2) ^ 2 / (n + 1))

end QDng.Chexp
