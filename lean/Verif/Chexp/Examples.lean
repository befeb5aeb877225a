import Verif.Chexp.Props
import Mathlib.Analysis.InnerProductSpace.PiL2

/-
Concrete cases that meet the hypotheses of the theorems in Props.lean.
-/

namespace QDng.Chexp.Examples

open QDng.Propa QDng.Common QDng.Ops

/-- Two levels. -/
abbrev V2 : Type := EuclideanSpace ℂ (Fin 2)

noncomputable def lower : V2 := EuclideanSpace.single 0 1
noncomputable def upper : V2 := EuclideanSpace.single 1 1

theorem lower_norm : ‖lower‖ = 1 := by simp [lower]
theorem upper_norm : ‖upper‖ = 1 := by simp [upper]
theorem lower_upper : inner ℂ lower upper = (0 : ℂ) := by
  unfold lower upper
  rw [EuclideanSpace.inner_single_left]
  simp

/-- Exact routines. -/
noncomputable def exactJ : Lib := ⟨fun _ _ => true, fun _ x k => besselJ k x, fun _ _ => 0⟩
noncomputable def exactI : Lib := ⟨fun _ _ => true, fun _ x k => Real.exp (-|x|) * besselI k x, fun _ _ => 0⟩

/-- Energies zero and one, time step one, number of terms chosen by the program. -/
noncomputable def given (forward : Bool) (prec : ℝ := 1 / 10 ^ 6) : Given :=
  ⟨((0 : ℝ) : ℂ), ((1 : ℝ) : ℂ), 1, forward, false, none, none, prec⟩

theorem given_setup (forward : Bool) (prec : ℝ := 1 / 10 ^ 6) :
    ∃ c : Cheby V2, setup (fun x => projection upper x) (given forward prec) exactJ exactI = .val c ∧ 2 ≤ c.order := by
  obtain ⟨hsc, -⟩ := real_scaling 0 1 (by norm_num) (given forward prec) rfl rfl rfl one_ne_zero
  rw [show ((1 : ℝ) - 0) / 2 = 1 / 2 by norm_num] at hsc
  have hest : (toInt (20 * (1 / 2) * 1)).natAbs = 10 := by
    unfold toInt
    rw [if_pos (by norm_num), show (20 * (1 / 2) * 1 : ℝ) = ((10 : ℤ) : ℝ) by norm_num, Int.floor_intCast]
    rfl
  have hint : toInt (1 / 2 * 1) = 0 := by
    unfold toInt
    rw [if_pos (by norm_num), Int.floor_eq_iff]
    constructor <;> push_cast <;> norm_num
  obtain ⟨m, hm, m2, m10⟩ := C31_order 10 (exactJ.val 10 (1 / 2 * 1)) delta (fun n => exactJ.zeroes n (1 / 2 * 1))
  obtain ⟨c, hc, hc2⟩ := setup_intro (fun x => projection upper x) (given forward prec) exactJ exactI (1 / 2) 10 10 m
    one_ne_zero hsc (by rw [hsc]; exact hest) rfl (by norm_num) rfl hm
    (Or.inr (by show toInt (1 / 2 * 1) < (m : ℤ); rw [hint]; omega)) (by omega)
  exact ⟨c, hc, by omega⟩

/-- A solution that starts with both levels. -/
theorem start_solution : ∃ psi : ℝ → V2, Solves (projection upper) psi ∧ psi 0 = lower + upper :=
  solution_exists (projection upper) (projection_hermitian upper) (-Complex.I) (lower + upper)

theorem different : Different 0 1 2 3 4 := by unfold Different; decide

/-- Hypotheses of `C265_step`, `C267_norm_partial`. -/
example (forward : Bool) : ∃ (c : Cheby V2) (psi : ℝ → V2) (σ' : Store V2) (m : ℕ),
    Solves (projection upper) psi ∧ psi 0 = lower + upper ∧
    c.applyIn false (fun v => ‖v‖) 1 2 3 4 0 (fun _ => psi 0) = some σ' ∧ 2 ≤ m ∧ m ≤ c.order ∧
      ‖σ' 0 - psi (if forward then 0 + 1 else 0 - 1)‖ ≤ errorBound ((1 - 0) / 2 * |1|) m * ‖psi 0‖ := by
  obtain ⟨c, hc, h2⟩ := given_setup forward
  obtain ⟨psi, hp, h0⟩ := start_solution
  obtain ⟨σ', m, s1, s2, s3, s4, -⟩ := C265_step (projection upper) (projection_hermitian upper) 0 1 (by norm_num)
    (projection_within upper upper_norm 0 le_rfl) (given forward) rfl rfl rfl rfl exactJ exactI (fun _ _ _ _ => rfl) c hc
    h2 psi hp 0 (fun v => ‖v‖) 1 2 3 4 0 different (fun _ => psi 0) rfl
  exact ⟨c, psi, σ', m, hp, h0, s1, s2, s3, s4⟩

/-- Hypotheses of `C266_enough_partial` and `C266_small`. -/
example (forward : Bool) : ∃ (c : Cheby V2) (psi : ℝ → V2) (σ' : Store V2) (m : ℕ),
    c.applyIn false (fun _ => 0) 1 2 3 4 0 (fun _ => psi 0) = some σ' ∧ psi 0 = lower + upper ∧ m = c.order ∧
      ‖σ' 0 - psi (if forward then 0 + 1 else 0 - 1)‖ ≤ 1 / 10 ^ 10 * ‖psi 0‖ := by
  obtain ⟨c, hc, h2⟩ := given_setup forward
  obtain ⟨psi, hp, h0⟩ := start_solution
  obtain ⟨σ', m, s1, s2, s3, s4, s5⟩ := C266_small (projection upper) (projection_hermitian upper) 0 1 (by norm_num)
    (projection_within upper upper_norm 0 le_rfl) (given forward) rfl rfl rfl rfl rfl one_pos (by norm_num [given])
    exactJ exactI (fun _ _ _ _ => rfl) (fun _ _ => rfl) c hc psi hp 0 (fun _ => 0) 1 2 3 4 0 different (fun _ => psi 0) rfl
  have hm : m = c.order := by
    rcases Nat.lt_or_ge m c.order with h | h
    · exact absurd rfl (s5 h).1
    · omega
  exact ⟨c, psi, σ', m, s1, h0, hm, s4 hm⟩

/-- Hypotheses of `C266_violated_crossing`. -/
example : ∃ z : ℝ, 1 < z ∧ z < 2 ∧ ∀ (forward : Bool) (prec : ℝ), ∃ c : Cheby V2,
    setup (fun x => (0 : V2 →ₗ[ℂ] V2) x) ⟨((-z : ℝ) : ℂ), (z : ℂ), 1, forward, false, none, none, prec⟩ exactJ exactI = .val c ∧
      c.order = 2 := by
  obtain ⟨z, z1, z2, h⟩ := C266_violated_crossing (V := V2) exactJ exactI (fun _ _ _ _ => rfl) (fun _ _ => rfl)
    (fun _ _ => rfl)
  refine ⟨z, z1, z2, fun forward prec => ?_⟩
  obtain ⟨c, hc, hc2, -⟩ := h forward prec
  exact ⟨c, hc, hc2⟩

/-- Hypotheses of `C266_refuses`. -/
example : setup (fun x => projection upper x)
    ⟨((0 : ℝ) : ℂ), ((100 : ℝ) : ℂ), 1, true, false, some 20, none, 1 / 10 ^ 6⟩ exactJ exactI = .threw :=
  C266_refuses _ _ 0 100 (by norm_num) rfl rfl rfl rfl 20 rfl exactJ exactI (fun _ _ => rfl)
    (Or.inr (Or.inr (Or.inr (by norm_num))))

/-- Hypotheses of `C267_violated_cut`. -/
example : ∃ (c : Cheby V2) (psi : ℝ → V2), c.order = 100 ∧ Solves (projection upper) psi ∧ psi 0 ≠ 0 ∧
    ∃ σ', c.applyIn false (fun v => ‖v‖) 1 2 3 4 0 (fun _ => psi 0) = some σ' ∧
      1 / 300 * ‖psi 0‖ ≤ ‖σ' 0 - psi (0 + 1)‖ := by
  obtain ⟨c, -, h1, -, -, psi, h2, h3, h4⟩ := C267_violated_cut lower upper lower_norm upper_norm lower_upper exactJ exactI
    (fun _ _ _ _ => rfl) (fun _ _ => rfl) (fun _ _ => rfl) true (1 / 10 ^ 6) (by norm_num) 100 (by norm_num) id
    (fun x hx => hx.ne')
  obtain ⟨σ', s1, -, s2⟩ := h4 1 2 3 4 0 different (fun _ => psi 0) rfl
  exact ⟨c, psi, h1, h2, h3, σ', s1, s2⟩

/-- In imaginary time, with a given number of terms. -/
noncomputable def cooling (forward : Bool) : Given :=
  ⟨((0 : ℝ) : ℂ), ((1 : ℝ) : ℂ), 1, forward, true, some 7, none, 1 / 10 ^ 6⟩

theorem cooling_setup (forward : Bool) (H : V2 →ₗ[ℂ] V2) :
    ∃ c : Cheby V2, setup (fun x => H x) (cooling forward) exactJ exactI = .val c ∧ c.order = 7 :=
  setup_intro (fun x => H x) (cooling forward) exactJ exactI _ _ 7 7 one_ne_zero rfl rfl rfl (by norm_num) rfl
    (by unfold chebyOrder; rfl) (Or.inl rfl) le_rfl

/-- Hypotheses of `C268_scaled_partial`. -/
example : ∃ (c : Cheby V2) (psi : ℝ → V2), Cools (projection upper) psi ∧ psi 0 = lower + upper ∧
    ∃ σ' m, c.applyIn true (fun v => ‖v‖) 1 2 3 4 0 (fun _ => psi 0) = some σ' ∧ 2 ≤ m ∧ m ≤ 7 := by
  obtain ⟨c, hc, h7⟩ := cooling_setup false (projection upper)
  obtain ⟨psi, hp, h0⟩ := solution_exists (projection upper) (projection_hermitian upper) (-1) (lower + upper)
  have hp' : Cools (projection upper) psi := fun t => by
    have := hp t
    rwa [neg_one_smul] at this
  obtain ⟨σ', m, s1, s2, s3, -⟩ := C268_scaled_partial (projection upper) (projection_hermitian upper) 0 1 (by norm_num)
    (by norm_num) (projection_within upper upper_norm 0 le_rfl) (cooling false) rfl rfl rfl rfl exactJ exactI
    (fun _ _ _ _ => rfl) c hc (by omega) psi hp' 0 (fun v => ‖v‖) 1 2 3 4 0 different (fun _ => psi 0) rfl
  exact ⟨c, psi, hp', h0, σ', m, s1, s2, by omega⟩

/-- Hypotheses of `C268_violated_factor`. -/
example : ∃ (c : Cheby V2) (σ' : Store V2),
    c.applyIn true (fun v => ‖v‖) 1 2 3 4 0 (fun _ => lower) = some σ' ∧ ‖σ' 0‖ ≤ 2 / 3 * ‖lower‖ := by
  obtain ⟨c, hc, h7⟩ := cooling_setup true 0
  obtain ⟨-, σ', s1, s2⟩ := C268_violated_factor (cooling true) rfl rfl rfl rfl rfl exactJ exactI (fun _ _ _ _ => rfl) c hc
    (by omega) lower (fun v => ‖v‖) 1 2 3 4 0 different (fun _ => lower) rfl
  exact ⟨c, σ', s1, s2⟩

end QDng.Chexp.Examples
