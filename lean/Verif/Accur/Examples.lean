import Verif.Accur.Props
import Verif.Accur.Cheby
import Verif.Chexp.Examples

/-
Concrete cases that meet the hypotheses of the theorems in Rk4.lean and Props.lean.
-/

namespace QDng.Accur.Examples

open QDng.Chexp QDng.Chexp.Examples QDng.Propa QDng.Ops QDng.Deriv QDng.Spo QDng.Common

/-- A propagator with two levels at the energies zero and one. -/
noncomputable def rk (forward : Bool) (dt : ℝ) : RK4 V2 :=
  ⟨fun x => projection upper x, (if forward then -Complex.I else Complex.I) * dt, dt⟩

theorem rk_direction (forward : Bool) (dt : ℝ) (h : dt ≠ 0) :
    Direction (rk forward dt) (if forward then dt else -dt) := by
  refine ⟨h, ?_⟩
  cases forward
  · show Complex.I * (dt : ℂ) = -Complex.I * ((-dt : ℝ) : ℂ)
    push_cast
    ring
  · rfl

theorem within : Within (projection upper) (-1) 1 := fun a => by
  obtain ⟨h1, h2⟩ := projection_within upper upper_norm 0 le_rfl a
  refine ⟨?_, by linarith [sq_nonneg ‖a‖]⟩
  have := sq_nonneg ‖a‖
  linarith

theorem nodup : [0, 1, 2, 3, 4].Nodup := by decide

/-- Hypotheses of `C269_step` and `C269_many`: steps of a tenth, forward or backward. -/
example (forward : Bool) (n : ℕ) : ∃ psi : ℝ → V2, Solves (projection upper) psi ∧ psi 0 = lower + upper ∧
    ‖(((rk forward (1 / 10)).applyIn 1 2 3 4 0)^[n] (fun _ => psi 0)) 0 -
      psi (n * (if forward then 1 / 10 else -(1 / 10)))‖ ≤ n * (1 / 10 ^ 7) * ‖psi 0‖ := by
  obtain ⟨psi, hp, h0⟩ := start_solution
  refine ⟨psi, hp, h0, ?_⟩
  have h := C269_many (rk forward (1 / 10)) (projection upper) (fun _ => rfl) _ (rk_direction forward (1 / 10) (by norm_num))
    (projection_hermitian upper) 1 zero_le_one within (by cases forward <;> norm_num) psi hp 1 2 3 4 0 nodup (fun _ => psi 0)
    rfl n
  refine h.trans (mul_le_mul_of_nonneg_right (mul_le_mul_of_nonneg_left ?_ (Nat.cast_nonneg n)) (norm_nonneg _))
  cases forward <;> norm_num [abs_of_pos]

/-- Hypotheses of `C270_bounded_partial`. -/
example : ‖(rk true 2).applyIn 1 2 3 4 0 (fun _ => lower + upper) 0‖ ≤ ‖lower + upper‖ :=
  C270_bounded_partial (rk true 2) (projection upper) (fun _ => rfl) 2 (rk_direction true 2 two_ne_zero)
    (projection_hermitian upper) 1 within (by norm_num) 1 2 3 4 0 nodup (fun _ => lower + upper)

theorem upper_eigen : projection upper upper = ((1 : ℝ) : ℂ) • upper := by
  rw [projection_apply, inner_self_eq_norm_sq_to_K, upper_norm]
  simp

theorem upper_ne : upper ≠ 0 := fun h => by
  have := upper_norm
  rw [h, norm_zero] at this
  exact zero_ne_one this

/-- Hypotheses of `C270_violated_growth`: a time step of three. -/
example : ∀ C : ℝ, ∃ n : ℕ, C < ‖(((rk true 3).applyIn 1 2 3 4 0)^[n] (fun _ => upper)) 0‖ :=
  C270_violated_growth (rk true 3) (projection upper) (fun _ => rfl) 3 (rk_direction true 3 (by norm_num)) 1 (by norm_num)
    upper upper_eigen upper_ne 1 2 3 4 0 nodup (fun _ => upper) rfl

/-- Hypotheses of `C270_violated_loss`: a time step of one. -/
example : ‖(rk true 1).applyIn 1 2 3 4 0 (fun _ => upper) 0‖ < ‖upper‖ :=
  C270_violated_loss (rk true 1) (projection upper) (fun _ => rfl) 1 (rk_direction true 1 one_ne_zero) 1 (by norm_num)
    (by norm_num) upper upper_eigen upper_ne 1 2 3 4 0 nodup (fun _ => upper) rfl

/-- Hypotheses of `C272_many`: a run of any length with the criterion on the norm switched off. -/
example (forward : Bool) (g : Given) (hg : g = given forward 0) :
    ∃ (c : Cheby V2) (σ : ℕ → Store V2), setup (fun x => projection upper x) g exactJ exactI = .val c ∧ 2 ≤ c.order ∧
      σ 0 0 = lower + upper ∧ ∀ k, c.applyIn g.imaginary (fun v => ‖v‖) 1 2 3 4 0 (σ k) = some (σ (k + 1)) := by
  obtain ⟨c, hc, h2⟩ := given_setup forward 0
  rw [← hg] at hc
  have hstep : ∀ σ : Store V2, ∃ σ', c.applyIn g.imaginary (fun v => ‖v‖) 1 2 3 4 0 σ = some σ' := by
    intro σ
    obtain ⟨psi, hp, h0⟩ := solution_exists (projection upper) (projection_hermitian upper) (-Complex.I) (σ 0)
    obtain ⟨σ', m, s1, -⟩ := C265_step (projection upper) (projection_hermitian upper) 0 1 (by norm_num)
      (projection_within upper upper_norm 0 le_rfl) g (by subst hg; rfl) (by subst hg; rfl) (by subst hg; rfl)
      (by subst hg; rfl) exactJ exactI (fun _ _ _ _ => rfl) c hc (by omega) psi hp 0 (fun v => ‖v‖) 1 2 3 4 0 different σ
      h0.symm
    exact ⟨σ', s1⟩
  choose f hf using hstep
  exact ⟨c, fun k => f^[k] (fun _ => lower + upper), hc, by omega, rfl, fun k => by
    dsimp only
    rw [hf, Function.iterate_succ_apply']⟩

/-- A harmonic potential on the square, with a coupling on the diagonal. -/
noncomputable def hill : Pot square := ⟨false, fun _ x => coord square x 0 ^ 2⟩
noncomputable def tilt : Pot square := ⟨false, fun _ x => coord square x 1⟩

/-- Hypotheses of `C271_step` and `C271_many`: every initial wave function on the square. -/
example (ψ : square.Wf) (dt : ℝ) : ∃ (T : square.Wf → square.Wf) (psi : ℝ → square.Wf) (o : Spo square)
    (φ : ℕ → square.Wf), IsKinetic square (fun _ => 1) T ∧ SolvesOn square T (total hill (some tilt) 0) psi ∧ psi 0 = ψ ∧
    φ 0 = ψ ∧ (∀ k : ℕ, o.apply k (.one (φ k)) = .val (o, .one (φ (k + 1)))) ∧
    (∃ tmax vmax : ℝ, (∀ q : square.Pt, |∑ j, wavenum square q j ^ 2 / (2 * 1)| ≤ tmax) ∧
      ∀ x, |total hill (some tilt) 0 x| ≤ vmax) ∧
    ∀ tmax vmax : ℝ, (∀ q : square.Pt, |∑ j, wavenum square q j ^ 2 / (2 * 1)| ≤ tmax) →
      (∀ x, |total hill (some tilt) 0 x| ≤ vmax) →
    ∀ N : ℕ, normOf square (φ N - psi (N * dt)) ≤ N * ((|dt| * (tmax + vmax)) ^ 3 / 3) * normOf square (psi 0) := by
  obtain ⟨t, ht⟩ := square_kin
  obtain ⟨T, -, hT1, hT2, -⟩ := C131_kinetic square_ok (fun _ => 1) t ht
  obtain ⟨psi, hp, h0⟩ := solution_grid square_ok (mass := fun _ => 1) ⟨hT1, hT2⟩ (total hill (some tilt) 0) ψ
  obtain ⟨o, ho, hr, -⟩ := init_single square_ok ht (-Complex.I * dt) hill (some tilt) 0 ψ
  have hstep := apply_static hr (by rw [hr.timeDep]; rfl)
  have hfin : ∀ f : square.Pt → ℝ, ∀ x, |f x| ≤ ∑ y, |f y| := fun f x =>
    Finset.single_le_sum (f := fun y => |f y|) (fun y _ => abs_nonneg _) (Finset.mem_univ x)
  let step := strang (kinStep (expElements (kinE square (fun _ => 1)) (-Complex.I * dt))) (-Complex.I * dt)
    (total hill (some tilt) 0)
  refine ⟨T, psi, o, fun k => step^[k] ψ, ⟨hT1, hT2⟩, hp, h0, rfl, fun k => ?_, ⟨_, _, hfin _, hfin _⟩,
    fun tmax vmax ha hb N => ?_⟩
  · dsimp only
    rw [hstep, Function.iterate_succ_apply']
  · exact C271_many square_ok (fun _ => 1) t ht dt hill (some tilt) rfl (fun q hq => by cases hq; rfl) 0 ψ T ⟨hT1, hT2⟩ tmax vmax ha hb psi hp (fun _ => o)
      (fun k => k) (fun k => step^[k] ψ) ho h0.symm (fun k => by rw [hstep, Function.iterate_succ_apply']) N

end QDng.Accur.Examples
