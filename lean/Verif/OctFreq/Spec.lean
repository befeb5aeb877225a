import Mathlib.Analysis.SpecialFunctions.Complex.Log
import Verif.Oct.Spec

/-
What frequency shaping means.
-/

namespace QDng.OctFreq.Spec

open QDng.Oct

noncomputable section

variable {V : Type} [NormedAddCommGroup V] [InnerProductSpace ℂ V]

/-- Component `k` of the spectrum of a field given at `N` time steps; the frequency is `2 π k / (N dt)`. -/
def spectrum (N : Nat) (x : Nat → ℝ) (k : Nat) : ℂ :=
  ∑ j ∈ Finset.range N, (x j : ℂ) * Complex.exp (-(2 * Real.pi * j * k / N) * Complex.I)

/-- The imaginary part the change of the field is made of, for the wave functions `wi` and `wt` of the targets. -/
def corr (c : Setup V) (wi wt : Nat → V) : ℝ :=
  ∑ t ∈ Finset.range c.ntargets, (if c.phase then (inner ℂ (wt t) (c.mu (wi t)) : ℂ)
    else (inner ℂ (wi t) (wt t) : ℂ) * inner ℂ (wt t) (c.mu (wi t))).im

/-- `chi` is `last` propagated backward under the field `o`. -/
structure Backward (c : Setup V) (o : Nat → ℝ) (last : Nat → V) (chi : Nat → Nat → V) : Prop where
  last : ∀ t, chi t c.steps = last t
  step : ∀ t s, s < c.steps → chi t s = Oct.Spec.absorb c (c.bwd s (fun _ => o s) (chi t (s + 1)))

/-- A backward step is undone by the forward step, and nothing is absorbed. -/
structure Reversible (c : Setup V) : Prop where
  nogobbler : c.gobbler = none
  undo : ∀ s e (x : V), c.fwd s e (c.bwd s e x) = x

/-- What the user gets to see of a line of the report and of the laser file. -/
structure Shown (V : Type) where
  final : Nat → V
  fields : Nat → Nat → ℝ
  yield : ℝ
  laserObj : ℝ
  objective : ℝ

def shown (a : Line V) : Shown V := ⟨a.phii, a.fields, a.yield, a.laserObj, a.objective⟩

/-- The time step and the positions of the spectrum: the frequency of component `k`. -/
def frequency (N : Nat) (dt : ℝ) (k : Nat) : ℝ := 2 * Real.pi * k / (N * dt)

end

end QDng.OctFreq.Spec
