import Verif.Deriv.Spec

/- Words for the properties of the lossy compression, independent of the model's definitions. -/

namespace QDng.Lossy.Spec

open QDng.Deriv

/-- The amplitude of the plane wave with the numbers `q` in a wave function on the grid: the discrete
Fourier transform. -/
noncomputable def amplitude (s : Space) (ψ : s.Wf) (q : s.Pt) : ℂ :=
  ∑ x : s.Pt, ψ x *
    Complex.exp (-(2 * Real.pi * Complex.I * ∑ i, ((q i : Nat) : ℂ) * ((x i : Nat) : ℂ) / (s.axes i).n))

/-- `M` is the largest modulus of the amplitudes. -/
def Largest (s : Space) (ψ : s.Wf) (M : ℝ) : Prop :=
  (∃ q, ‖amplitude s ψ q‖ = M) ∧ ∀ q, ‖amplitude s ψ q‖ ≤ M

/-- The square of the norm of a vector over the grid (without the volume element). -/
noncomputable def normSq (s : Space) (ψ : s.Wf) : ℝ := ∑ x : s.Pt, ‖ψ x‖ ^ 2

/-- A part of an amplitude after the cut: zero below the threshold, unchanged otherwise. -/
noncomputable def kept (thr v : ℝ) : ℝ := if |v| < thr then 0 else v

/-- The square of the norm of a list of numbers. -/
noncomputable def listNormSq (l : List ℂ) : ℝ := (l.map fun a => ‖a‖ ^ 2).sum

end QDng.Lossy.Spec
