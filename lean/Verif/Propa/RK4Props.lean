import Verif.Propa.RK4Model
import Mathlib.Algebra.Module.LinearMap.End
import Mathlib.Algebra.BigOperators.Fin
import Mathlib.Data.Nat.Factorial.Basic
import Mathlib.Tactic.Module
import Mathlib.Tactic.FieldSimp
import Mathlib.Tactic.NormNum.NatFactorial

/-
Properties of the Runge-Kutta propagator: C32.
-/

namespace QDng.Propa

open QDng.Ops

section

variable {V : Type} [AddCommGroup V] [Module ℂ V]

/-- Specification: the Taylor polynomial of degree four of the exponential of `c H`. -/
noncomputable def taylor4 (c : ℂ) (H : Module.End ℂ V) (ψ : V) : V :=
  ∑ k ∈ Finset.range 5, (c ^ k / (k.factorial : ℂ)) • (H ^ k) ψ

/-- C32: for every linear Hamiltonian, exponent, time step and wave function one step in place replaces the
wave function by the Taylor polynomial of the exponential; nothing but the scratch objects changes besides. -/
theorem C32_in_place_partial (r : RK4 V) (H : Module.End ℂ V) (hH : ∀ x, r.h x = H x) (hdt : r.dt ≠ 0)
    (b1 b2 b3 b4 p : Nat) (hd : [p, b1, b2, b3, b4].Nodup) (σ : Store V) :
    r.applyIn b1 b2 b3 b4 p σ p = taylor4 r.exponent H (σ p) ∧
    ∀ a, a ∉ [p, b1, b2, b3, b4] → r.applyIn b1 b2 b3 b4 p σ a = σ a := by
  simp only [List.nodup_cons, List.mem_cons, List.not_mem_nil, or_false, not_or] at hd
  obtain ⟨⟨h1, h2, h3, h4⟩, ⟨h5, h6, h7⟩, ⟨h8, h9⟩, h10, -⟩ := hd
  have hdt' : (r.dt : ℂ) ≠ 0 := by exact_mod_cast hdt
  constructor
  · simp only [RK4.applyIn, RK4.stage, put, if_true, if_neg h1, if_neg h2, if_neg h3, if_neg h4, if_neg h5,
      if_neg h6, if_neg h7, if_neg h8, if_neg h9, if_neg h10, if_neg (Ne.symm h5), if_neg (Ne.symm h6),
      if_neg (Ne.symm h7), if_neg (Ne.symm h8), if_neg (Ne.symm h9), if_neg (Ne.symm h10), hH, map_add, map_smul]
    simp only [taylor4, Finset.sum_range_succ, Finset.sum_range_zero, pow_succ, pow_zero, Module.End.mul_apply,
      Module.End.one_apply, Nat.factorial, one_mul, zero_add]
    match_scalars <;> field_simp <;> push_cast <;> ring
  · intro a ha
    simp only [List.mem_cons, List.not_mem_nil, or_false, not_or] at ha
    obtain ⟨a1, a2, a3, a4, a5⟩ := ha
    simp [RK4.applyIn, RK4.stage, put, a1, a2, a3, a4, a5]

/-- C32 is violated out of place: the destination keeps its content and the source is replaced by the
propagated destination. -/
theorem C32_violated_out_of_place (r : RK4 V) (H : Module.End ℂ V) (hH : ∀ x, r.h x = H x) (hdt : r.dt ≠ 0)
    (b1 b2 b3 b4 d s : Nat) (hd : [d, s, b1, b2, b3, b4].Nodup) (σ : Store V) :
    r.apply b1 b2 b3 b4 d s σ d = σ d ∧ r.apply b1 b2 b3 b4 d s σ s = taylor4 r.exponent H (σ d) := by
  have hn := List.nodup_cons.mp hd
  have hds : d ≠ s := fun h => hn.1 (by simp [h])
  obtain ⟨h1, h2⟩ := C32_in_place_partial r H hH hdt b1 b2 b3 b4 s hn.2 (put σ s (σ d))
  constructor
  · unfold RK4.apply
    rw [h2 d hn.1]
    simp [put, hds]
  · unfold RK4.apply
    rw [h1]
    simp [put]

end

/-- A case that meets the hypotheses: multiplication by two on the complex numbers. -/
example : ∃ (r : RK4 ℂ) (H : Module.End ℂ ℂ), (∀ x, r.h x = H x) ∧ r.dt ≠ 0 ∧ [5, 6, 1, 2, 3, 4].Nodup :=
  ⟨{ h := fun x => 2 * x, exponent := -Complex.I, dt := 1 }, (2 : ℂ) • 1, by simp, by simp, by decide⟩

/-- The violation is visible: with a destination of zero and a source of one the source is erased and the
destination stays zero, while the polynomial of the source is not zero for the zero Hamiltonian. -/
example : taylor4 (-Complex.I) (0 : Module.End ℂ ℂ) 1 = 1 := by
  simp [taylor4, Finset.sum_range_succ]

end QDng.Propa
