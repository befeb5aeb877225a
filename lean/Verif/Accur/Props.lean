import Verif.Accur.Split

/-
Property C271: accuracy of the split operator propagator.
-/

namespace QDng.Accur

open QDng.Chexp QDng.Deriv QDng.Spo QDng.Common

theorem bounds_nonneg {s : Space} (h : s.Ok) {mass : Fin s.d → ℝ} {a b : ℝ} {v : s.Pt → ℝ}
    (ha : ∀ q : s.Pt, |∑ i, wavenum s q i ^ 2 / (2 * mass i)| ≤ a) (hb : ∀ x, |v x| ≤ b) : 0 ≤ a ∧ 0 ≤ b := by
  have q0 : s.Pt := fun i => ⟨0, by have := (h i).1; omega⟩
  exact ⟨(abs_nonneg _).trans (ha q0), (abs_nonneg _).trans (hb q0)⟩

theorem normOf_le {s : Space} (h : s.Ok) {φ ψ : s.Wf} {e : ℝ}
    (hle : ‖(WithLp.toLp 2 φ : G s)‖ ≤ e * ‖(WithLp.toLp 2 ψ : G s)‖) : normOf s φ ≤ e * normOf s ψ := by
  rw [normOf_eq h, normOf_eq h]
  have := mul_le_mul_of_nonneg_left hle (Real.sqrt_nonneg (∏ i, spacing s i))
  linarith

/-- The Schrödinger equation on the grid has a solution for each initial wave function. -/
theorem solution_grid {s : Space} (h : s.Ok) {mass : Fin s.d → ℝ} {T : s.Wf → s.Wf} (hT : IsKinetic s mass T)
    (v : s.Pt → ℝ) (ψ : s.Wf) : ∃ psi : ℝ → s.Wf, SolvesOn s T v psi ∧ psi 0 = ψ := by
  obtain ⟨psi, h1, h2⟩ := solution_exists (ham hT.1 v) (ham_hermitian h hT v) (-Complex.I) (WithLp.toLp 2 ψ)
  refine ⟨fun t => (psi t).ofLp, fun t x => ?_, ?_⟩
  · have h3 := (PiLp.continuousLinearEquiv 2 ℝ (fun _ : s.Pt => ℂ)).toContinuousLinearMap.hasFDerivAt.comp_hasDerivAt t (h1 t)
    have h4 := hasDerivAt_pi.1 h3 x
    refine HasDerivAt.congr_deriv h4 ?_
    show (-Complex.I • ham hT.1 v (psi t)).ofLp x = _
    simp only [ham, LinearMap.add_apply, PiLp.smul_apply, PiLp.add_apply, smul_eq_mul]
    rfl
  · show (psi 0).ofLp = ψ
    rw [h2]

/-- C271: one step of the split operator propagator gives the solution of the Schrödinger equation one time step
later, up to a third of the cube of the time step times the sum of the largest kinetic and the largest potential energy.
A negative `dt` is a step backward. -/
theorem C271_step {s : Space} (h : s.Ok) (mass : Fin s.d → ℝ) (t : KinOp s) (hc : KinOp.create s mass = .ok t)
    (dt : ℝ) (p : Pot s) (i : Option (Pot s)) (n : Int) (ψ0 : s.Wf) (T : s.Wf → s.Wf) (hT : IsKinetic s mass T)
    (tmax vmax : ℝ) (ha : ∀ q : s.Pt, |∑ j, wavenum s q j ^ 2 / (2 * mass j)| ≤ tmax) (hb : ∀ x, |total p i n x| ≤ vmax)
    (psi : ℝ → s.Wf) (hp : SolvesOn s T (total p i n) psi) (τ : ℝ) :
    ∃ (o o' : Spo s) (φ : s.Wf),
      ((Spo.new s).setExponent (-Complex.I * dt)).init (single t p i) n (.one ψ0) = .ok o ∧
      o.apply n (.one (psi τ)) = .val (o', .one φ) ∧
      normOf s (φ - psi (τ + dt)) ≤ (|dt| * (tmax + vmax)) ^ 3 / 3 * normOf s (psi τ) := by
  obtain ⟨o, K, h1, hK, h2⟩ := C163_step h mass t hc (-Complex.I * dt) p i n ψ0
  obtain ⟨o', h3⟩ := h2 (psi τ)
  obtain ⟨a0, b0⟩ := bounds_nonneg h ha hb
  refine ⟨o, o', _, h1, h3, normOf_le h ?_⟩
  exact split_error h hT dt tmax vmax hK a0 b0 ha (total p i n) hb _ (solves_of hT.1 _ psi hp) τ

theorem apply_static {s : Space} {k : s.Pt → ℝ} {c : ℂ} {p : Pot s} {i : Option (Pot s)} {m : Int} {o : Spo s}
    (h : Ready k c p i m o) (ht : o.timeDep = false) (n : Int)
    (ψ : s.Wf) : o.apply n (.one ψ) = .val (o, .one (strang (kinStep (expElements k c)) c (total p i m) ψ)) := by
  unfold Spo.apply
  rw [if_neg (by simp [h.clock]), if_neg (by simp [ht])]
  simp only [h.coupling, Bool.false_eq_true, if_false]
  exact uncoupled_eq h ψ

/-- C271: over any number of steps with operators that do not depend on time the errors add up, whatever the clock
shows. -/
theorem C271_many {s : Space} (h : s.Ok) (mass : Fin s.d → ℝ) (t : KinOp s) (hc : KinOp.create s mass = .ok t)
    (dt : ℝ) (p : Pot s) (i : Option (Pot s)) (hp1 : p.timeDep = false) (hi1 : ∀ q, i = some q → q.timeDep = false)
    (n : Int) (ψ0 : s.Wf) (T : s.Wf → s.Wf) (hT : IsKinetic s mass T)
    (tmax vmax : ℝ) (ha : ∀ q : s.Pt, |∑ j, wavenum s q j ^ 2 / (2 * mass j)| ≤ tmax) (hb : ∀ x, |total p i n x| ≤ vmax)
    (psi : ℝ → s.Wf) (hp : SolvesOn s T (total p i n) psi)
    (o : ℕ → Spo s) (clock : ℕ → Int) (φ : ℕ → s.Wf)
    (ho : ((Spo.new s).setExponent (-Complex.I * dt)).init (single t p i) n (.one ψ0) = .ok (o 0)) (h0 : φ 0 = psi 0)
    (hrun : ∀ k, (o k).apply (clock k) (.one (φ k)) = .val (o (k + 1), .one (φ (k + 1)))) (N : ℕ) :
    normOf s (φ N - psi (N * dt)) ≤ N * ((|dt| * (tmax + vmax)) ^ 3 / 3) * normOf s (psi 0) := by
  obtain ⟨o1, h1, h2, -⟩ := init_single h hc (-Complex.I * dt) p i n ψ0
  rw [ho, Out.ok.injEq] at h1
  have hK := kinStep_spec h hc (-Complex.I * dt)
  obtain ⟨a0, b0⟩ := bounds_nonneg h ha hb
  have htd : o1.timeDep = false := by
    rw [h2.timeDep, hp1]
    cases i with
    | none => rfl
    | some q => simp [hi1 q rfl]
  have hall : ∀ k, o k = o1 ∧ φ (k + 1) = strang (kinStep (expElements (kinE s mass) (-Complex.I * dt)))
      (-Complex.I * dt) (total p i n) (φ k) := by
    intro k
    induction k with
    | zero =>
      have h3 := hrun 0
      rw [h1, apply_static h2 htd] at h3
      simp only [Ans.val.injEq, Prod.mk.injEq, Psi.one.injEq] at h3
      exact ⟨h1, h3.2.symm⟩
    | succ k ih =>
      have h3 := hrun k
      rw [ih.1, apply_static h2 htd] at h3
      simp only [Ans.val.injEq, Prod.mk.injEq, Psi.one.injEq] at h3
      have h4 := hrun (k + 1)
      rw [← h3.1, apply_static h2 htd] at h4
      simp only [Ans.val.injEq, Prod.mk.injEq, Psi.one.injEq] at h4
      exact ⟨h3.1.symm, h4.2.symm⟩
  have he : 0 ≤ (|dt| * (tmax + vmax)) ^ 3 / 3 := by positivity
  have e1 := expo_pot (total p i n) dt vmax b0 hb
  have e2 := expo_kin h hT dt tmax hK a0 ha
  have hle : ∀ k, ‖(WithLp.toLp 2 (φ k) : G s)‖ ≤ ‖(WithLp.toLp 2 (psi 0) : G s)‖ := by
    intro k
    induction k with
    | zero => rw [h0]
    | succ k ih =>
      rw [(hall k).2]
      exact ((e1.e0 _).trans ((e2.e0 _).trans (e1.e0 (WithLp.toLp 2 (φ k))))).trans ih
  have hmany := many_steps (ham hT.1 (total p i n)) (ham_hermitian h hT _) dt _ he _ (solves_of hT.1 _ psi hp)
    (fun k => (WithLp.toLp 2 (φ k) : G s)) (by rw [h0]) (fun k chi hq hk => by
      have h5 := split_error h hT dt tmax vmax hK a0 b0 ha (total p i n) hb chi hq (k * dt)
      rw [hk] at h5
      rw [(hall k).2]
      exact h5) N
  refine normOf_le h (hmany.trans ?_)
  have hsum : ∑ k ∈ Finset.range N, ‖(WithLp.toLp 2 (φ k) : G s)‖ ≤ N * ‖(WithLp.toLp 2 (psi 0) : G s)‖ := by
    refine (Finset.sum_le_sum (fun k _ => hle k)).trans (le_of_eq ?_)
    rw [Finset.sum_const, Finset.card_range, nsmul_eq_mul]
  have := mul_le_mul_of_nonneg_left hsum he
  linarith

/-- The bound of `C271_many` in terms of the total time: of second order in the number of steps. -/
theorem second_order (τ a : ℝ) (N : ℕ) (hN : N ≠ 0) :
    (N : ℝ) * ((|τ / N| * a) ^ 3 / 3) = (|τ| * a) ^ 3 / (3 * N ^ 2) := by
  have : (0 : ℝ) < N := by positivity
  rw [abs_div, abs_of_pos this]
  field_simp

end QDng.Accur
