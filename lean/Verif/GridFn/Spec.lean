import Verif.Deriv.Spec
import Verif.GridFn.Model

/-
Specification side of the multiplicative grid operators, in terms of the coordinates of the grid
points.
-/

namespace QDng.GridFn

open QDng.Deriv

/-- The distance from the left border of the grid in units of the distance of the edge from it. -/
noncomputable def reach (s : Space) (i : Fin s.d) (edge : ℝ) (p : s.Pt) : ℝ :=
  (coord s p i - (s.axes i).xmin) / (edge - (s.axes i).xmin)

/-- Butterworth function of order `n` that leaves the left hand side of the edge. -/
noncomputable def passLeft (s : Space) (i : Fin s.d) (edge : ℝ) (n : Nat) (p : s.Pt) : ℝ :=
  1 / (1 + reach s i edge p ^ (2 * n))

/-- Butterworth function of order `n` that leaves the right hand side of the edge. -/
noncomputable def passRight (s : Space) (i : Fin s.d) (edge : ℝ) (n : Nat) (p : s.Pt) : ℝ :=
  reach s i edge p ^ (2 * n) / (1 + reach s i edge p ^ (2 * n))

/-- The factor of dimension `i` in a mask. -/
noncomputable def dimFactor {s : Space} (e : Edges s) (n : Nat) (p : s.Pt) (i : Fin s.d) : ℝ :=
  (match e.lp i with | none => 1 | some x => passLeft s i x n p) *
    (match e.rp i with | none => 1 | some x => passRight s i x n p)

/-- The contribution of dimension `i` to an absorber that starts on the right of the edges. -/
noncomputable def dimAbsorb {s : Space} (e : Edges s) (n : Nat) (p : s.Pt) (i : Fin s.d) : ℝ :=
  match e.rp i with | none => 0 | some x => passRight s i x n p

/-- All edges are inside of the grid, and not on its left border. -/
def Edges.Inside {s : Space} (e : Edges s) : Prop :=
  ∀ i x, (e.lp i = some x ∨ e.rp i = some x) → (s.axes i).xmin < x ∧ x ≤ (s.axes i).xmax

/-- The point lies on the side to be left of all edges. -/
def Edges.Kept {s : Space} (e : Edges s) (p : s.Pt) : Prop :=
  ∀ i, (∀ x, e.lp i = some x → coord s p i < x) ∧ (∀ x, e.rp i = some x → x < coord s p i)

/-- The point lies on the wrong side of an edge. -/
def Edges.Removed {s : Space} (e : Edges s) (p : s.Pt) : Prop :=
  ∃ i, (∃ x, e.lp i = some x ∧ x < coord s p i) ∨ (∃ x, e.rp i = some x ∧ coord s p i < x)

/-- The volume of a grid cell. -/
noncomputable def cell (s : Space) : ℝ := ∏ i, spacing s i

end QDng.GridFn
