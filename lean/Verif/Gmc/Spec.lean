import Verif.Deriv.Spec
import Verif.Stencil.Table
import Verif.Absorb.Model

/-
Specification side of the G-matrix with chain rule or absorbing layers.
-/

namespace QDng.Gmc

open QDng.Deriv QDng.Stencil

/-- A function of the grid point continued with zeros: the value `m` points further along dimension
`i`. -/
noncomputable def shifted {s : Space} (g : s.Pt → ℝ) (i : Fin s.d) (p : s.Pt) (m : ℤ) : ℝ :=
  if h : 0 ≤ ((p i : ℕ) : ℤ) + m ∧ ((p i : ℕ) : ℤ) + m < (s.axes i).n then
    g (Function.update p i ⟨(((p i : ℕ) : ℤ) + m).toNat, by omega⟩)
  else 0

/-- The coefficient of the point `m` steps to the left in the table of first derivatives
(its accuracy is the subject of C65). -/
noncomputable def weight (order m : ℕ) : ℝ :=
  (((((table1.getD (order / 2 - 1) [])[order / 2 - m]?).map dec).getD 0 : ℚ) : ℝ)

/-- The finite difference derivative along dimension `i`, with zeros outside of the grid. -/
noncomputable def fdDeriv {s : Space} (order : ℕ) (i : Fin s.d) (g : s.Pt → ℝ) (p : s.Pt) : ℝ :=
  (weight order 0 * g p + ∑ m ∈ Finset.range (order / 2),
    weight order (m + 1) * (shifted g i p (-((m : ℤ) + 1)) - shifted g i p ((m : ℤ) + 1))) /
      spacing s i

end QDng.Gmc
