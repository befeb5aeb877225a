import Verif.LaserGen.Model

/-
The pulses as the handbook describes them (doc/Handbook.tex:1239-1257).
-/

namespace QDng.LaserGen.Spec

/-- The formula of the handbook (doc/Handbook.tex:1243). -/
noncomputable def pulse (emax t0 sigma w0 phi b t : ℝ) : ℝ :=
  emax * Real.exp (-(t - t0) ^ 2 / (2 * sigma ^ 2)) * Real.cos (w0 * (t - t0) + b * (t - t0) ^ 2 + phi)

/-- The pulse with the default values of the handbook, for the duration `T` (doc/Handbook.tex:1247-1257). -/
noncomputable def handbook (T : ℝ) (g : Given) (t : ℝ) : ℝ :=
  pulse (g.emax.getD 0.0001) (g.t0.getD (T / 2)) (g.sigma.getD (T / 8)) (g.w0.getD 0.05695) (g.phi.getD 0) (g.b.getD 0) t

/-- The duration of a propagation. -/
noncomputable def duration (cl : Clk) : ℝ := cl.steps * cl.dt

/-- The number of steps can be divided for the defaults that are used, and the width is not zero. -/
def Fits (cl : Clk) (g : Given) : Prop :=
  (g.t0 = none → 2 ∣ cl.steps) ∧ (g.sigma = none → 8 ∣ cl.steps ∧ duration cl ≠ 0) ∧ g.sigma ≠ some 0

/-- An operator that has read its input: one laser, generated. -/
def Generated (fs : Files) (p : Params) (type : String) (o : OLaser) : Prop :=
  p.laser = none ∧ p.gen = some type ∧ (OLaser.new 1).init fs p = .val o

/-- The lasers of a new operator after calls of `UsePol` and `NumLaser`: whether the number is changed while
polarisation vectors exist that are switched off. -/
def lost (made on : Bool) : List Call → Bool
  | [] => false
  | .usePol true :: cs => lost true true cs
  | .usePol false :: cs => lost made false cs
  | .numLaser _ :: cs => (made && !on) || lost made on cs

end QDng.LaserGen.Spec
