import Verif.Krylov.Model
import Mathlib.LinearAlgebra.LinearIndependent.Basic

/-
What the properties of the Krylov propagators say, without the Lanczos or Arnoldi recursion.
-/

namespace QDng.Krylov.Spec

variable {V : Type} [NormedAddCommGroup V] [InnerProductSpace ℂ V]

/-- `φ` is `exp(tau * H) ψ`: `ψ` is a sum of eigenvectors of `H`, and each of them is multiplied by
the exponential of `tau` times its eigenvalue. -/
def Evolved (H : V →ₗ[ℂ] V) (tau : ℂ) (ψ φ : V) : Prop :=
  ∃ (n : ℕ) (d : Fin n → ℂ) (v : Fin n → V), (∀ j, H (v j) = d j • v j) ∧ (∑ j, v j = ψ) ∧
    (∑ j, Complex.exp (d j * tau) • v j = φ)

/-- A family of vectors `φ tau` agrees with `exp(tau * H) ψ` up to the power `n - 1` of `tau`: it is
a sum of exponentials of `tau` whose first `n` derivatives at zero are `ψ`, `H ψ`, `H² ψ`, ... -/
def AgreesTo (n : ℕ) (H : V →ₗ[ℂ] V) (ψ : V) (φ : ℂ → V) : Prop :=
  ∃ (m : ℕ) (d : Fin m → ℂ) (v : Fin m → V), (∀ tau, φ tau = ∑ j, Complex.exp (d j * tau) • v j) ∧
    ∀ k < n, ∑ j, (d j) ^ k • v j = (H ^ k) ψ

/-- The first `n` Krylov vectors `ψ, H ψ, ..., H^(n-1) ψ`. -/
def krylov (H : V →ₗ[ℂ] V) (ψ : V) (n : ℕ) : Fin n → V := fun k => (H ^ (k : ℕ)) ψ

end QDng.Krylov.Spec
