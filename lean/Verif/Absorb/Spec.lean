import Verif.Deriv.Spec
import Verif.Absorb.Model
import Mathlib.Analysis.SpecialFunctions.Integrals.Basic
import Mathlib.Analysis.SpecialFunctions.Pow.Real

/-
Specification side of the absorbing layer: the profile of the layer, the wave that returns from the
border, and absorption.
-/

namespace QDng.Absorb

open QDng.Grid QDng.Deriv

/-- The usual profile of a layer: the strength grows with the power `p` of the depth, from zero at
the inner edge (depth 0) to `smax` at the border (depth 1). -/
noncomputable def profile (smax : ℝ) (p : ℕ) (depth : ℝ) : ℝ := smax * depth ^ p

/-- The amplitude of a wave with wave number `k` that runs through a layer of length `len`, is
reflected at the border and runs back.  In the layer the coordinate is stretched by
`1 + exp(i gamma pi) * strength`, so the amplitude decays with `k sin(gamma pi)` times the integral
of the strength, on both ways. -/
noncomputable def roundTrip (gamma smax : ℝ) (p : ℕ) (k len : ℝ) : ℝ :=
  Real.exp (-(2 * (k * Real.sin (gamma * Real.pi) * ∫ x in (0:ℝ)..len, profile smax p (x / len))))

/-- The norm of a wave function (without the volume element). -/
noncomputable def norm2 (s : Space) (ψ : s.Wf) : ℝ := Real.sqrt (∑ x, ‖ψ x‖ ^ 2)

/-- A point lies in a layer of dimension `i`. -/
def inLayer {s : Space} (o : Op s) (i : Fin s.d) (x : s.Pt) : Prop :=
  ((o.layer i).side ≠ 2 ∧ (x i : ℕ) < (o.layer i).thick) ∨
    ((o.layer i).side ≠ 1 ∧ (s.axes i).n - 1 - (x i : ℕ) < (o.layer i).thick)

/-- A wave function that vanishes in all layers. -/
def Free {s : Space} (o : Op s) (ψ : s.Wf) : Prop := ∀ i x, inLayer o i x → ψ x = 0

/-- The layers at the two ends of a dimension do not overlap. -/
def Apart {s : Space} (o : Op s) (i : Fin s.d) : Prop :=
  (o.layer i).side = 1 ∨ (o.layer i).side = 2 ∨ 2 * (o.layer i).thick ≤ (s.axes i).n

end QDng.Absorb
