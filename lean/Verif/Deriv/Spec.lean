import Verif.Grid.Spec
import Verif.Deriv.Model

/-
Specification side of the derivative operators: plane waves on the grid, the wave numbers the grid
supports and the scalar product.  Only the description of the grid is taken from the model.
-/

namespace QDng.Deriv

open QDng.Grid

/-- A usable grid: each dimension has at least two points and a positive length. -/
def Space.Ok (s : Space) : Prop := ∀ i, 2 ≤ (s.axes i).n ∧ (s.axes i).xmin < (s.axes i).xmax

/-- The distance of neighbouring points of dimension `i`. -/
noncomputable def spacing (s : Space) (i : Fin s.d) : ℝ :=
  ((s.axes i).xmax - (s.axes i).xmin) / (((s.axes i).n : ℝ) - 1)

/-- The coordinate of a grid point along dimension `i`. -/
noncomputable def coord (s : Space) (x : s.Pt) (i : Fin s.d) : ℝ :=
  (s.axes i).xmin + ((x i : Nat) : ℝ) * spacing s i

/-- The wave numbers of the grid, labelled by the Fourier index: `q` for the lower and `q - n` for
the upper half, in units of two pi over `n` times the spacing. -/
noncomputable def wavenum (s : Space) (q : s.Pt) (i : Fin s.d) : ℝ :=
  (freq (s.axes i).n (q i) : ℝ) * (2 * Real.pi / (((s.axes i).n : ℝ) * spacing s i))

/-- The plane wave with wave numbers `k`. -/
noncomputable def planeWave (s : Space) (k : Fin s.d → ℝ) : s.Wf := fun x =>
  Complex.exp (Complex.I * ((∑ i, k i * coord s x i : ℝ) : ℂ))

/-- The plane wave with the wave numbers labelled by `q`. -/
noncomputable def wave (s : Space) (q : s.Pt) : s.Wf := planeWave s (wavenum s q)

/-- The scalar product, approximating the integral over the grid by a sum. -/
noncomputable def scal (s : Space) (φ ψ : s.Wf) : ℂ :=
  ((∏ i, spacing s i : ℝ) : ℂ) * ∑ x, (starRingEnd ℂ) (φ x) * ψ x

/-- The derivative along dimension `i` that is exact for the plane waves of the grid: the unique
linear map that multiplies each of them by `i` times its wave number. -/
def IsDerivative (s : Space) (i : Fin s.d) (D : s.Wf → s.Wf) : Prop :=
  (∀ (c : ℂ) φ ψ, D (c • φ + ψ) = c • D φ + D ψ) ∧
    ∀ q, D (wave s q) = (Complex.I * (wavenum s q i : ℂ)) • wave s q

/-- The wave number the Nabla operator sees: of one dimension, or the sum over all. -/
noncomputable def waveSum (s : Space) (dim : Option (Fin s.d)) (q : s.Pt) : ℝ :=
  match dim with
  | none => ∑ i, wavenum s q i
  | some i => wavenum s q i

/-- The complex conjugate of a map. -/
noncomputable def conjMap {s : Space} (A : s.Wf → s.Wf) (ψ : s.Wf) : s.Wf := fun x =>
  (starRingEnd ℂ) (A (fun y => (starRingEnd ℂ) (ψ y)) x)

/-- The value of an element of the G-matrix at a grid point. -/
def Elem.val {s : Space} : Elem s → s.Pt → ℝ
  | .none, _ => 0
  | .const g, _ => g
  | .grid g, p => g p

/-- The wave function times a real function of the grid point. -/
def times {s : Space} (g : s.Pt → ℝ) (ψ : s.Wf) : s.Wf := fun p => (g p : ℂ) * ψ p

/-- The symmetric matrix described by its lower triangle. -/
def sym {s : Space} (low : Fin s.d → Fin s.d → Elem s) (i j : Fin s.d) (p : s.Pt) : ℝ :=
  if j ≤ i then (low i j).val p else (low j i).val p

end QDng.Deriv
