import Verif.Propa.RK4Props
import Verif.Chexp.Lemmas

/-
Properties C269 and C270: accuracy and stability of the Runge-Kutta propagator.
-/

namespace QDng.Accur

open QDng.Propa QDng.Chexp QDng.Ops

variable {V : Type} [NormedAddCommGroup V] [InnerProductSpace ℂ V] [FiniteDimensional ℂ V]

/-! ### Numbers -/

/-- The first `n` terms of the exponential series on the imaginary axis. -/
noncomputable def etail (n : ℕ) (x : ℝ) : ℂ :=
  Complex.exp (Complex.I * x) - ∑ k ∈ Finset.range n, (Complex.I * x) ^ k / (k.factorial : ℂ)

theorem etail_deriv (n : ℕ) (x : ℝ) : HasDerivAt (etail (n + 1)) (Complex.I * etail n x) x := by
  have h1 : HasDerivAt (fun u : ℝ => Complex.I * (u : ℂ)) Complex.I x := by
    simpa using (Complex.ofRealCLM.hasDerivAt (x := x)).const_mul Complex.I
  have h2 : ∀ k ∈ Finset.range (n + 1), HasDerivAt (fun u : ℝ => (Complex.I * (u : ℂ)) ^ k / (k.factorial : ℂ))
      ((k : ℂ) * (Complex.I * x) ^ (k - 1) * Complex.I / (k.factorial : ℂ)) x := fun k _ =>
    (h1.fun_pow k).div_const _
  have h3 := h1.cexp.sub (HasDerivAt.fun_sum h2)
  have e : Complex.exp (Complex.I * x) * Complex.I - ∑ k ∈ Finset.range (n + 1),
      (k : ℂ) * (Complex.I * x) ^ (k - 1) * Complex.I / (k.factorial : ℂ) = Complex.I * etail n x := by
    rw [Finset.sum_range_succ']
    unfold etail
    rw [mul_sub, Finset.mul_sum, Nat.cast_zero, zero_mul, zero_mul, zero_div, add_zero, mul_comm Complex.I (Complex.exp _)]
    congr 1
    refine Finset.sum_congr rfl (fun k _ => ?_)
    rw [Nat.add_sub_cancel, Nat.factorial_succ]
    have hk : ((k.factorial : ℕ) : ℂ) ≠ 0 := by exact_mod_cast Nat.factorial_ne_zero k
    have hk1 : (k : ℂ) + 1 ≠ 0 := by exact_mod_cast Nat.succ_ne_zero k
    push_cast
    field_simp
  rw [e] at h3
  exact h3

theorem etail_pos (n : ℕ) : ∀ x : ℝ, 0 ≤ x → ‖etail n x‖ ≤ x ^ n / n.factorial := by
  induction n with
  | zero =>
    intro x _
    unfold etail
    rw [Finset.range_zero, Finset.sum_empty, sub_zero, mul_comm, Complex.norm_exp_ofReal_mul_I]
    simp
  | succ n ih =>
    intro x hx
    have hB : ∀ u : ℝ, HasDerivAt (fun u : ℝ => u ^ (n + 1) / ((n + 1).factorial : ℝ)) (u ^ n / (n.factorial : ℝ)) u := by
      intro u
      have := (hasDerivAt_pow (n + 1) u).div_const ((n + 1).factorial : ℝ)
      have e : ((n + 1 : ℕ) : ℝ) * u ^ (n + 1 - 1) / ((n + 1).factorial : ℝ) = u ^ n / (n.factorial : ℝ) := by
        rw [Nat.add_sub_cancel, Nat.factorial_succ]
        have hk : ((n.factorial : ℕ) : ℝ) ≠ 0 := by exact_mod_cast Nat.factorial_ne_zero n
        push_cast
        field_simp
      rw [e] at this
      exact this
    have h0 : ‖etail (n + 1) 0‖ ≤ (0 : ℝ) ^ (n + 1) / ((n + 1).factorial : ℝ) := by
      unfold etail
      rw [Finset.sum_range_succ']
      simp
    exact image_norm_le_of_norm_deriv_right_le_deriv_boundary
      (f := etail (n + 1)) (f' := fun u => Complex.I * etail n u) (a := 0) (b := x)
      (B := fun u => u ^ (n + 1) / ((n + 1).factorial : ℝ)) (B' := fun u => u ^ n / (n.factorial : ℝ))
      (fun u _ => (etail_deriv n u).continuousAt.continuousWithinAt) (fun u _ => (etail_deriv n u).hasDerivWithinAt)
      h0 hB
      (fun u hu => by
        rw [norm_mul, Complex.norm_I, one_mul]
        exact ih u hu.1) ⟨hx, le_rfl⟩

theorem etail_le (n : ℕ) (x : ℝ) : ‖etail n x‖ ≤ |x| ^ n / n.factorial := by
  rcases le_total 0 x with h | h
  · rw [abs_of_nonneg h]
    exact etail_pos n x h
  · rw [abs_of_nonpos h]
    refine le_trans (le_of_eq ?_) (etail_pos n (-x) (by linarith))
    have : etail n (-x) = (starRingEnd ℂ) (etail n x) := by
      unfold etail
      rw [map_sub, map_sum, ← Complex.exp_conj]
      simp only [map_mul, map_div₀, map_pow, Complex.conj_I, Complex.conj_ofReal, map_natCast]
      push_cast
      simp only [mul_neg, neg_mul]
    rw [this, Complex.norm_conj]

/-- The size of the Taylor polynomial of degree four on the imaginary axis. -/
theorem taylor_norm (x : ℝ) : ‖∑ k ∈ Finset.range 5, (Complex.I * x) ^ k / (k.factorial : ℂ)‖ ^ 2 =
    1 - x ^ 6 / 72 + x ^ 8 / 576 := by
  have e : ∑ k ∈ Finset.range 5, (Complex.I * (x : ℂ)) ^ k / (k.factorial : ℂ) =
      ((1 - x ^ 2 / 2 + x ^ 4 / 24 : ℝ) : ℂ) + ((x - x ^ 3 / 6 : ℝ) : ℂ) * Complex.I := by
    have i2 : Complex.I ^ 2 = -1 := Complex.I_sq
    have i3 : Complex.I ^ 3 = -Complex.I := by rw [pow_succ, i2]; ring
    have i4 : Complex.I ^ 4 = 1 := Complex.I_pow_four
    simp only [Finset.sum_range_succ, Finset.sum_range_zero, mul_pow, i2, i3, i4, Nat.factorial]
    push_cast
    ring
  rw [e, ← Complex.normSq_eq_norm_sq, Complex.normSq_add_mul_I]
  ring

/-! ### Wave functions -/

theorem taylor4_component {n : ℕ} (H : V →ₗ[ℂ] V) (b : OrthonormalBasis (Fin n) ℂ V) (l : Fin n → ℝ)
    (hl : ∀ i, H (b i) = (l i : ℂ) • b i) (c : ℂ) (v : V) (i : Fin n) :
    inner ℂ (b i) (taylor4 c H v) =
      (∑ k ∈ Finset.range 5, (c * l i) ^ k / (k.factorial : ℂ)) * inner ℂ (b i) v := by
  have hpow : ∀ (k : ℕ) j, (H ^ k) (b j) = ((l j : ℂ) ^ k) • b j := by
    intro k
    induction k with
    | zero => intro j; simp
    | succ k ih =>
      intro j
      rw [pow_succ, Module.End.mul_apply, hl, map_smul, ih, smul_smul, pow_succ, mul_comm]
  have hP : ∀ k : ℕ, inner ℂ (b i) ((H ^ k) v) = (l i : ℂ) ^ k * inner ℂ (b i) v := by
    intro k
    conv_lhs => rw [← b.sum_repr' v]
    rw [map_sum]
    simp only [map_smul, hpow, smul_smul]
    rw [b.orthonormal.inner_right_fintype, mul_comm]
  unfold taylor4
  rw [inner_sum, Finset.sum_mul]
  refine Finset.sum_congr rfl (fun k _ => ?_)
  rw [inner_smul_right, hP, mul_pow]
  ring

/-- The Runge-Kutta propagator set up for a time step: exponent `-i dt` forward, `i dt` backward. -/
def Direction (r : RK4 V) (s : ℝ) : Prop := r.dt ≠ 0 ∧ r.exponent = -Complex.I * s

theorem arg_eq (l s : ℝ) : -Complex.I * (s : ℂ) * (l : ℂ) = Complex.I * ((-(l * s) : ℝ) : ℂ) := by
  push_cast
  ring

theorem taylor4_error (H : V →ₗ[ℂ] V) (hH : Hermitian H) (w : ℝ) (hw : Within H (-w) w) (s : ℝ)
    (psi : ℝ → V) (hp : Solves H psi) (t : ℝ) :
    ‖taylor4 (-Complex.I * s) H (psi t) - psi (t + s)‖ ≤ (w * |s|) ^ 5 / 120 * ‖psi t‖ := by
  obtain ⟨n, b, l, hl⟩ := eigenbasis H hH
  have hwl : ∀ i, |l i| ≤ w := fun i => by
    obtain ⟨a1, a2⟩ := within_eigen H b l hl _ _ hw i
    exact abs_le.2 ⟨a1, a2⟩
  rcases isEmpty_or_nonempty (Fin n) with hn | ⟨⟨i0⟩⟩
  · have hz : ∀ v : V, v = 0 := fun v => by
      rw [← b.sum_repr' v]
      exact Finset.sum_of_isEmpty _
    rw [hz (psi t), hz (taylor4 _ H 0 - _), norm_zero, mul_zero]
  have hw0 : 0 ≤ w := (abs_nonneg _).trans (hwl i0)
  refine norm_le_of_components b _ _ _ (by positivity) (fun i => ?_)
  rw [inner_sub_right, taylor4_component H b l hl, solution_component H hH b l hl (-Complex.I) psi hp, ← sub_mul, norm_mul]
  refine mul_le_mul_of_nonneg_right ?_ (norm_nonneg _)
  have h := etail_le 5 (-(l i * s))
  unfold etail at h
  rw [← arg_eq] at h
  rw [show -Complex.I * (l i : ℂ) * (s : ℂ) = -Complex.I * (s : ℂ) * (l i : ℂ) by ring, ← norm_neg, neg_sub]
  refine h.trans ?_
  rw [abs_neg, abs_mul, show ((Nat.factorial 5 : ℕ) : ℝ) = 120 by norm_num [Nat.factorial]]
  gcongr
  exact hwl i

theorem taylor4_contracts (H : V →ₗ[ℂ] V) (hH : Hermitian H) (w : ℝ) (hw : Within H (-w) w) (s : ℝ)
    (hs : (w * s) ^ 2 ≤ 8) (v : V) : ‖taylor4 (-Complex.I * s) H v‖ ≤ ‖v‖ := by
  obtain ⟨n, b, l, hl⟩ := eigenbasis H hH
  have := norm_le_of_components b (taylor4 (-Complex.I * s) H v) v 1 zero_le_one (fun i => ?_)
  · rwa [one_mul] at this
  rw [taylor4_component H b l hl, norm_mul]
  refine mul_le_mul_of_nonneg_right ?_ (norm_nonneg _)
  refine (sq_le_sq₀ (norm_nonneg _) zero_le_one).1 ?_
  rw [arg_eq, taylor_norm, one_pow]
  obtain ⟨a1, a2⟩ := within_eigen H b l hl _ _ hw i
  have h1 : (l i * s) ^ 2 ≤ 8 := by
    refine le_trans ?_ hs
    rw [mul_pow, mul_pow]
    exact mul_le_mul_of_nonneg_right (sq_le_sq.2 (by rw [abs_of_nonneg (by linarith : (0:ℝ) ≤ w)]; exact abs_le.2 ⟨a1, a2⟩)) (sq_nonneg s)
  have h2 : 0 ≤ ((l i * s) ^ 2) ^ 3 := by positivity
  have e6 : (-(l i * s)) ^ 6 = ((l i * s) ^ 2) ^ 3 := by ring
  have e8 : (-(l i * s)) ^ 8 = ((l i * s) ^ 2) ^ 3 * (l i * s) ^ 2 := by ring
  rw [e6, e8]
  have := mul_le_mul_of_nonneg_left h1 h2
  linarith

/-- Solutions keep their norm, and so do differences of solutions. -/
theorem solution_norm (H : V →ₗ[ℂ] V) (hH : Hermitian H) (psi phi : ℝ → V) (hp : Solves H psi) (hq : Solves H phi)
    (t s : ℝ) : ‖psi (t + s) - phi (t + s)‖ ≤ ‖psi t - phi t‖ := by
  obtain ⟨n, b, l, hl⟩ := eigenbasis H hH
  have := norm_le_of_components b (psi (t + s) - phi (t + s)) (psi t - phi t) 1 zero_le_one (fun i => ?_)
  · rwa [one_mul] at this
  rw [inner_sub_right, inner_sub_right, solution_component H hH b l hl _ psi hp,
    solution_component H hH b l hl _ phi hq, ← mul_sub, norm_mul]
  refine mul_le_mul_of_nonneg_right (le_of_eq ?_) (norm_nonneg _)
  rw [Complex.norm_exp]
  simp

/-- The errors of many steps add up. -/
theorem many_steps (H : V →ₗ[ℂ] V) (hH : Hermitian H) (s e : ℝ) (he : 0 ≤ e) (psi : ℝ → V) (hp : Solves H psi)
    (chi : ℕ → V) (h0 : chi 0 = psi 0)
    (hstep : ∀ (n : ℕ) (phi : ℝ → V), Solves H phi → phi (n * s) = chi n →
      ‖chi (n + 1) - phi (n * s + s)‖ ≤ e * ‖chi n‖) (n : ℕ) :
    ‖chi n - psi (n * s)‖ ≤ e * ∑ k ∈ Finset.range n, ‖chi k‖ := by
  induction n with
  | zero => simp [h0]
  | succ n ih =>
    obtain ⟨phi, hq, hphi0⟩ := solution_exists H hH (-Complex.I) (chi n)
    have hq' : Solves H (fun t => phi (t - n * s)) := fun t => by
      have := (hq (t - n * s)).scomp t ((hasDerivAt_id t).sub_const (n * s))
      have e2 : (1 : ℝ) • (-Complex.I • H (phi (t - n * s))) = -Complex.I • H (phi (t - n * s)) := one_smul _ _
      exact e2 ▸ this
    have h1 := hstep n _ hq' (by simp [hphi0])
    have h2 := solution_norm H hH _ psi hq' hp (n * s) s
    rw [sub_self, hphi0] at h2
    rw [Finset.sum_range_succ, mul_add]
    have e1 : ((n + 1 : ℕ) : ℝ) * s = n * s + s := by push_cast; ring
    rw [e1]
    calc ‖chi (n + 1) - psi (n * s + s)‖
        ≤ ‖chi (n + 1) - phi (n * s + s - n * s)‖ + ‖phi (n * s + s - n * s) - psi (n * s + s)‖ :=
          norm_sub_le_norm_sub_add_norm_sub _ _ _
      _ ≤ e * ‖chi n‖ + ‖chi n - psi (n * s)‖ := add_le_add h1 h2
      _ ≤ _ := by linarith

/-! ### C269: accuracy -/

/-- C269: one step of the Runge-Kutta propagator gives the solution of the Schrödinger equation one time step `s`
later (`s = dt` forward, `s = -dt` backward) up to the fifth power of the time step times the largest energy,
divided by 120. -/
theorem C269_step (r : RK4 V) (H : V →ₗ[ℂ] V) (hr : ∀ x, r.h x = H x) (s : ℝ) (hd : Direction r s)
    (hH : Hermitian H) (w : ℝ) (hw : Within H (-w) w) (psi : ℝ → V) (hp : Solves H psi) (t : ℝ)
    (b1 b2 b3 b4 p : ℕ) (hn : [p, b1, b2, b3, b4].Nodup) (σ : Store V) (hσ : σ p = psi t) :
    ‖r.applyIn b1 b2 b3 b4 p σ p - psi (t + s)‖ ≤ (w * |s|) ^ 5 / 120 * ‖psi t‖ := by
  obtain ⟨h1, -⟩ := C32_in_place_partial r H hr hd.1 b1 b2 b3 b4 p hn σ
  rw [h1, hd.2, hσ]
  exact taylor4_error H hH w hw s psi hp t

omit [FiniteDimensional ℂ V] in
theorem iterate_value (r : RK4 V) (H : V →ₗ[ℂ] V) (hr : ∀ x, r.h x = H x) (hdt : r.dt ≠ 0)
    (b1 b2 b3 b4 p : ℕ) (hn : [p, b1, b2, b3, b4].Nodup) (σ : Store V) (n : ℕ) :
    ((r.applyIn b1 b2 b3 b4 p)^[n + 1] σ) p = taylor4 r.exponent H (((r.applyIn b1 b2 b3 b4 p)^[n] σ) p) := by
  rw [Function.iterate_succ_apply']
  exact (C32_in_place_partial r H hr hdt b1 b2 b3 b4 p hn _).1

/-- C269: over `n` steps the errors add up, if the time step times the largest energy is at most the square root of
eight. -/
theorem C269_many (r : RK4 V) (H : V →ₗ[ℂ] V) (hr : ∀ x, r.h x = H x) (s : ℝ) (hd : Direction r s)
    (hH : Hermitian H) (w : ℝ) (hw0 : 0 ≤ w) (hw : Within H (-w) w) (hs : (w * s) ^ 2 ≤ 8) (psi : ℝ → V) (hp : Solves H psi)
    (b1 b2 b3 b4 p : ℕ) (hn : [p, b1, b2, b3, b4].Nodup) (σ : Store V) (hσ : σ p = psi 0) (n : ℕ) :
    ‖((r.applyIn b1 b2 b3 b4 p)^[n] σ) p - psi (n * s)‖ ≤ n * ((w * |s|) ^ 5 / 120) * ‖psi 0‖ := by
  have hle : ∀ k, ‖((r.applyIn b1 b2 b3 b4 p)^[k] σ) p‖ ≤ ‖psi 0‖ := by
    intro k
    induction k with
    | zero => exact le_of_eq (by rw [Function.iterate_zero_apply, hσ])
    | succ k ih =>
      rw [iterate_value r H hr hd.1 b1 b2 b3 b4 p hn, hd.2]
      exact (taylor4_contracts H hH w hw s hs _).trans ih
  have he : 0 ≤ (w * |s|) ^ 5 / 120 := by positivity
  have h := many_steps H hH s _ he psi hp (fun k => ((r.applyIn b1 b2 b3 b4 p)^[k] σ) p)
    (by rw [Function.iterate_zero_apply, hσ]) (fun k phi hq hk => by
      rw [iterate_value r H hr hd.1 b1 b2 b3 b4 p hn, hd.2, ← hk]
      exact taylor4_error H hH w hw s phi hq (k * s)) n
  refine h.trans ?_
  have hsum : ∑ k ∈ Finset.range n, ‖((r.applyIn b1 b2 b3 b4 p)^[k] σ) p‖ ≤ n * ‖psi 0‖ := by
    refine (Finset.sum_le_sum (fun k _ => hle k)).trans (le_of_eq ?_)
    rw [Finset.sum_const, Finset.card_range, nsmul_eq_mul]
  have := mul_le_mul_of_nonneg_left hsum he
  linarith

/-! ### C270: the norm -/

/-- C270: the norm never grows if the time step times the largest energy is at most the square root of eight.
Missing: larger time steps, see `C270_violated_growth`; conservation of the norm, see `C270_violated_loss`. -/
theorem C270_bounded_partial (r : RK4 V) (H : V →ₗ[ℂ] V) (hr : ∀ x, r.h x = H x) (s : ℝ) (hd : Direction r s)
    (hH : Hermitian H) (w : ℝ) (hw : Within H (-w) w) (hs : (w * s) ^ 2 ≤ 8)
    (b1 b2 b3 b4 p : ℕ) (hn : [p, b1, b2, b3, b4].Nodup) (σ : Store V) :
    ‖r.applyIn b1 b2 b3 b4 p σ p‖ ≤ ‖σ p‖ := by
  obtain ⟨h1, -⟩ := C32_in_place_partial r H hr hd.1 b1 b2 b3 b4 p hn σ
  rw [h1, hd.2]
  exact taylor4_contracts H hH w hw s hs _

omit [FiniteDimensional ℂ V] in
theorem eigen_step (r : RK4 V) (H : V →ₗ[ℂ] V) (hr : ∀ x, r.h x = H x) (s : ℝ) (hd : Direction r s)
    (b1 b2 b3 b4 p : ℕ) (hn : [p, b1, b2, b3, b4].Nodup) (E : ℝ) (v : V) (hv : H v = (E : ℂ) • v) (σ : Store V)
    (z : ℂ) (hσ : σ p = z • v) :
    r.applyIn b1 b2 b3 b4 p σ p =
      (∑ k ∈ Finset.range 5, (Complex.I * ((-(E * s) : ℝ) : ℂ)) ^ k / (k.factorial : ℂ)) • (z • v) := by
  obtain ⟨h1, -⟩ := C32_in_place_partial r H hr hd.1 b1 b2 b3 b4 p hn σ
  have hpow : ∀ k : ℕ, (H ^ k) (z • v) = ((E : ℂ) ^ k) • (z • v) := by
    intro k
    induction k with
    | zero => simp
    | succ k ih =>
      rw [pow_succ', Module.End.mul_apply, ih, map_smul, map_smul, hv, smul_smul, smul_smul, smul_smul]
      congr 1
      ring
  rw [h1, hσ]
  unfold taylor4
  rw [Finset.sum_smul]
  refine Finset.sum_congr rfl (fun k _ => ?_)
  rw [hpow, hd.2, smul_smul, ← arg_eq, mul_pow]
  congr 1
  ring

omit [FiniteDimensional ℂ V] in
/-- C270 does not hold for larger time steps: the norm of every eigenstate whose energy times the time step is beyond
the square root of eight grows with each step by a fixed factor, over all limits. -/
theorem C270_violated_growth (r : RK4 V) (H : V →ₗ[ℂ] V) (hr : ∀ x, r.h x = H x) (s : ℝ) (hd : Direction r s)
    (E : ℝ) (hE : 8 < (E * s) ^ 2) (v : V) (hv : H v = (E : ℂ) • v) (hv0 : v ≠ 0)
    (b1 b2 b3 b4 p : ℕ) (hn : [p, b1, b2, b3, b4].Nodup) (σ : Store V) (hσ : σ p = v) :
    ∀ C : ℝ, ∃ n : ℕ, C < ‖((r.applyIn b1 b2 b3 b4 p)^[n] σ) p‖ := by
  set R := ∑ k ∈ Finset.range 5, (Complex.I * ((-(E * s) : ℝ) : ℂ)) ^ k / (k.factorial : ℂ) with hR
  have hgrow : 1 < ‖R‖ := by
    have h1 := taylor_norm (-(E * s))
    have e6 : (-(E * s)) ^ 6 = ((E * s) ^ 2) ^ 3 := by ring
    have e8 : (-(E * s)) ^ 8 = ((E * s) ^ 2) ^ 3 * (E * s) ^ 2 := by ring
    rw [e6, e8] at h1
    have h2 : 0 < ((E * s) ^ 2) ^ 3 := by positivity
    have h3 := mul_lt_mul_of_pos_left hE h2
    have h4 : 1 < ‖R‖ ^ 2 := by rw [hR, h1]; linarith
    by_contra hle
    have := pow_le_one₀ (norm_nonneg R) (not_lt.1 hle) (n := 2)
    linarith
  have hval : ∀ n, ((r.applyIn b1 b2 b3 b4 p)^[n] σ) p = (R ^ n) • v := by
    intro n
    induction n with
    | zero => rw [Function.iterate_zero_apply, hσ, pow_zero, one_smul]
    | succ n ih =>
      rw [Function.iterate_succ_apply', eigen_step r H hr s hd b1 b2 b3 b4 p hn E v hv _ _ ih, smul_smul, ← hR, pow_succ']
  intro C
  have hvpos : 0 < ‖v‖ := norm_pos_iff.2 hv0
  obtain ⟨n, hn2⟩ := pow_unbounded_of_one_lt (C / ‖v‖) hgrow
  refine ⟨n, ?_⟩
  rw [hval, norm_smul, norm_pow]
  rwa [div_lt_iff₀ hvpos] at hn2

omit [FiniteDimensional ℂ V] in
/-- C270: the norm is not conserved either: an eigenstate with an energy that is not zero, and not beyond the limit, loses
norm in each step. -/
theorem C270_violated_loss (r : RK4 V) (H : V →ₗ[ℂ] V) (hr : ∀ x, r.h x = H x) (s : ℝ) (hd : Direction r s)
    (E : ℝ) (hE0 : E * s ≠ 0) (hE : (E * s) ^ 2 < 8) (v : V) (hv : H v = (E : ℂ) • v) (hv0 : v ≠ 0)
    (b1 b2 b3 b4 p : ℕ) (hn : [p, b1, b2, b3, b4].Nodup) (σ : Store V) (hσ : σ p = v) :
    ‖r.applyIn b1 b2 b3 b4 p σ p‖ < ‖v‖ := by
  rw [eigen_step r H hr s hd b1 b2 b3 b4 p hn E v hv σ 1 (by rw [hσ, one_smul]), one_smul, norm_smul]
  refine mul_lt_of_lt_one_left (norm_pos_iff.2 hv0) ?_
  have h1 := taylor_norm (-(E * s))
  have e6 : (-(E * s)) ^ 6 = ((E * s) ^ 2) ^ 3 := by ring
  have e8 : (-(E * s)) ^ 8 = ((E * s) ^ 2) ^ 3 * (E * s) ^ 2 := by ring
  rw [e6, e8] at h1
  have h2 : 0 < ((E * s) ^ 2) ^ 3 := by positivity
  have h3 := mul_lt_mul_of_pos_left hE h2
  by_contra hle
  have := one_le_pow₀ (not_lt.1 hle) (n := 2)
  linarith

end QDng.Accur
