import Mathlib.Algebra.BigOperators.Group.Finset.Basic
import Verif.Oct.Model

/-
What the optimal control program is supposed to do.
-/

namespace QDng.Oct.Spec

noncomputable section

variable {V : Type} [NormedAddCommGroup V] [InnerProductSpace ℂ V]

/-- The wave function behind a step: the gobbler, if there is one, absorbs. -/
def absorb (c : Setup V) (x : V) : V := match c.gobbler with
  | none => x
  | some g => g x

/-- The wave function `psi` propagated over `n` steps under the influence of the laser fields `f`. -/
def evolve (c : Setup V) (f : Nat → Nat → ℝ) (psi : V) : Nat → V
  | 0 => psi
  | n + 1 => absorb c (c.fwd n (fun l => f l n) (evolve c f psi n))

/-- The same, when all lasers have the field `e`. -/
def evolve1 (c : Setup V) (e : Nat → ℝ) (psi : V) (n : Nat) : V := evolve c (fun _ => e) psi n

/-- The yield of a set of final wave functions: the sum of the expectation values of the target operators, the absolute
value of the sum of the overlaps with the targets (phase sensitive) or the sum of their squares. -/
def yield (c : Setup V) (final tgt : Nat → V) : ℝ :=
  if c.operators then ∑ t ∈ Finset.range c.ntargets, |(inner ℂ (final t) (c.target t (final t)) : ℂ).re|
  else if c.phase then ‖∑ t ∈ Finset.range c.ntargets, (inner ℂ (final t) (tgt t) : ℂ)‖
  else ∑ t ∈ Finset.range c.ntargets, ‖(inner ℂ (final t) (tgt t) : ℂ)‖ ^ 2

/-- The propagator is unitary and answers to a change of the field like the time evolution with a dipole interaction
`- mu E` does: when a step is undone with another field, the wave function has changed by `i dt (E' - E) mu psi`, up to
terms of second order in the change of the field (constant `K`) and, for propagators that do not have the dipole
interaction at the begin of the step, of first order with a (small) constant `d`. -/
structure Responds (c : Setup V) (K d : ℝ) : Prop where
  norm : ∀ s e (x : V), ‖c.fwd s (fun _ => e) x‖ = ‖x‖
  unitary : ∀ s e (x y : V), (inner ℂ (c.bwd s (fun _ => e) x) (c.bwd s (fun _ => e) y) : ℂ) = inner ℂ x y
  answer : ∀ s e e' (x : V),
    ‖c.bwd s (fun _ => e) (c.fwd s (fun _ => e') x) - (x + (Complex.I * c.dt * (e' - e : ℝ)) • c.mu x)‖ ≤
      (K * (e' - e) ^ 2 + d * |e' - e|) * ‖x‖

end

end QDng.Oct.Spec
