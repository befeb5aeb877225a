import Verif.Chexp.Spec
import Mathlib.LinearAlgebra.Span.Basic

/-
Specification side of the eigenfunctions by the Lanczos method.
-/

namespace QDng.RitzEf

variable {V : Type} [NormedAddCommGroup V] [InnerProductSpace ℂ V]

/-- The wave functions that can be built from `ψ, H ψ, ..., H^(n-1) ψ`. -/
def powers (H : V →ₗ[ℂ] V) (ψ : V) (n : ℕ) : Submodule ℂ V := Submodule.span ℂ {x | ∃ k < n, x = (H ^ k) ψ}

/-- The energy of a wave function, which need not be normalised. -/
noncomputable def energy (H : V →ₗ[ℂ] V) (ψ : V) : ℝ := (inner ℂ ψ (H ψ)).re / ‖ψ‖ ^ 2

/-- How far a wave function is from being an eigenfunction. -/
noncomputable def spread (H : V →ₗ[ℂ] V) (ψ : V) : ℝ := ‖H ψ - ((inner ℂ ψ (H ψ) : ℂ) / (‖ψ‖ ^ 2 : ℝ)) • ψ‖ / ‖ψ‖

/-- `e` is an eigenvalue of `H`. -/
def IsLevel (H : V →ₗ[ℂ] V) (e : ℝ) : Prop := ∃ v, v ≠ 0 ∧ H v = (e : ℂ) • v

end QDng.RitzEf
