import Verif.Stencil.Spec
import Verif.Stencil.TableProps
import Verif.Grid.Model
import Mathlib.Analysis.SpecialFunctions.Trigonometric.Basic

/-
Specification of the finite difference operator: the derivative along one dimension of a function on a grid.
-/

namespace QDng.Fd

open QDng.Grid QDng.Stencil

/-- The sizes of a grid. -/
def sizes (axes : List (Axis ℝ)) : List Nat := axes.map Axis.n

/-- The finite difference derivative of `ψ` along the dimension `d` at the point with the coordinates `cs`: the central stencil
with the tabulated coefficients (C65: those of the exact formula up to 10^-15), over the spacing to the power of the derivative;
outside of the grid the function is zero or periodic. -/
noncomputable def term (deriv order : Nat) (pbc : Bool) (axes : List (Axis ℝ)) (ψ : List ℂ) (cs : List Nat) (d : Nat) : ℂ :=
  match axes[d]?, cs[d]? with
  | some a, some x =>
    central (order / 2) (fun m => ((entry deriv (order / 2) m : ℚ) : ℂ)) (if deriv = 1 then -1 else 1)
      (extend pbc a.n fun y => ψ.getD (place (cs.set d y) (sizes axes)) 0) x /
      (((a.xmax - a.xmin) / ((a.n : ℝ) - 1) : ℝ) : ℂ) ^ deriv
  | _, _ => 0

/-- The dimensions an operator acts on: all, or one. -/
def dims (D : Nat) (dim : Option Nat) : List Nat :=
  match dim with
  | none => List.range D
  | some d => [d]

/-- The scalar product of two functions on a grid (without the volume element). -/
noncomputable def dot (φ ψ : List ℂ) : ℂ :=
  ∑ q ∈ Finset.range ψ.length, starRingEnd ℂ (φ.getD q 0) * ψ.getD q 0

/-- The masses of `D` dimensions the operator can be used with: none (for up to four dimensions), or one for each dimension, not
zero and not all of them -1 or below. -/
def Accepted (mass : Option (List ℝ)) (D : Nat) : Prop :=
  match mass with
  | none => D ≤ 4
  | some v => D ≤ v.length ∧ (∀ d x, d < D → v[d]? = some x → x ≠ 0) ∧ ∃ d x, d < D ∧ v[d]? = some x ∧ -1 < x

/-- The factor of the kinetic energy with the mass `m`. -/
noncomputable def kin (m : ℝ) : ℝ := -1 / (2 * m)

end QDng.Fd
