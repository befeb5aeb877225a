import Verif.Deriv.Spec
import Mathlib.Analysis.Calculus.Deriv.Basic
import Mathlib.Analysis.SpecialFunctions.Sqrt

/-
Specification side of the accuracy of the Runge-Kutta and the split operator propagator: the Schrödinger
equation on a grid.  The equation for a general Hamiltonian is in `Verif.Chexp.Spec`.
-/

namespace QDng.Accur

open QDng.Deriv

/-- The norm of a wave function on a grid. -/
noncomputable def normOf (s : Space) (ψ : s.Wf) : ℝ := Real.sqrt (scal s ψ ψ).re

/-- The kinetic energy: the linear map that multiplies each plane wave with its kinetic energy. -/
def IsKinetic (s : Space) (mass : Fin s.d → ℝ) (T : s.Wf → s.Wf) : Prop :=
  (∀ (c : ℂ) φ ψ, T (c • φ + ψ) = c • T φ + T ψ) ∧
    ∀ q, T (wave s q) = ((∑ i, wavenum s q i ^ 2 / (2 * mass i) : ℝ) : ℂ) • wave s q

/-- `psi` solves the Schrödinger equation with the kinetic energy `T` and the potential energy `v`. -/
def SolvesOn (s : Space) (T : s.Wf → s.Wf) (v : s.Pt → ℝ) (psi : ℝ → s.Wf) : Prop :=
  ∀ t x, HasDerivAt (fun u => psi u x) (-Complex.I * (T (psi t) x + v x * psi t x)) t

end QDng.Accur
