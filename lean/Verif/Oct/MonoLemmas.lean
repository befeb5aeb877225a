import Verif.Oct.ChainLemmas

/-
Lemmas for the theorems about the gain of an iteration.
-/

namespace QDng.Oct

open Spec

noncomputable section

variable {V : Type} [NormedAddCommGroup V] [InnerProductSpace ℂ V]

/-- A change of the field changes a squared overlap at least by the first order term. -/
theorem norm_sq_step (τ m e : ℂ) (θ : ℝ) :
    ‖τ‖ ^ 2 - 2 * θ * ((starRingEnd ℂ) τ * m).im - 2 * (‖τ‖ * ‖e‖) ≤ ‖τ + (Complex.I * θ) * m + e‖ ^ 2 := by
  have h1 : -(‖τ‖ * ‖e‖) ≤ ((starRingEnd ℂ) τ * e).re := by
    have h := Complex.abs_re_le_norm ((starRingEnd ℂ) τ * e)
    rw [norm_mul, RCLike.norm_conj] at h
    exact (abs_le.1 h).1
  rw [← Complex.normSq_eq_norm_sq, ← Complex.normSq_eq_norm_sq, Complex.normSq_apply, Complex.normSq_apply]
  simp only [Complex.mul_re, Complex.mul_im, Complex.conj_re, Complex.conj_im, Complex.add_re, Complex.add_im,
    Complex.I_re, Complex.I_im, Complex.ofReal_re, Complex.ofReal_im] at h1 ⊢
  nlinarith [mul_self_nonneg (-θ * m.im + e.re), mul_self_nonneg (θ * m.re + e.im)]

/-- The gain of a change of the field in the direction of the correction. -/
theorem gain_nonneg (n im dt K sh al : ℝ) (hn : 0 ≤ n) (hsh : 0 ≤ sh) (hal : 0 < al)
    (hK : K * sh ≤ al * dt) :
    0 ≤ -(dt * (-(sh / (al * n) * im))) * im - n * K * (-(sh / (al * n) * im)) ^ 2 := by
  rcases hn.eq_or_lt with rfl | hn
  · simp
  · have : -(dt * (-(sh / (al * n) * im))) * im - n * K * (-(sh / (al * n) * im)) ^ 2 =
        sh * im ^ 2 * (al * dt - K * sh) / (al ^ 2 * n) := by
      field_simp
    rw [this]
    have h : 0 ≤ al * dt - K * sh := by linarith
    positivity

theorem Spec.Responds.bwd_norm {c : Setup V} {K d : ℝ} (h : Responds c K d) (s : Nat) (e : ℝ) (x : V) :
    ‖c.bwd s (fun _ => e) x‖ = ‖x‖ := by
  have h1 := h.unitary s e x x
  rw [inner_self_eq_norm_sq_to_K, inner_self_eq_norm_sq_to_K] at h1
  have h2 : ‖c.bwd s (fun _ => e) x‖ ^ 2 = ‖x‖ ^ 2 := by
    have := congrArg Complex.re h1
    simpa [← Complex.ofReal_pow] using this
  exact (sq_eq_sq₀ (norm_nonneg _) (norm_nonneg _)).1 h2

theorem Spec.Responds.undo {c : Setup V} {K d : ℝ} (h : Responds c K d) (s : Nat) (e : ℝ) (x : V) :
    c.bwd s (fun _ => e) (c.fwd s (fun _ => e) x) = x := by
  have h1 := h.answer s e e x
  simp only [sub_self, Complex.ofReal_zero, mul_zero, zero_smul, add_zero, abs_zero] at h1
  have h2 : ‖c.bwd s (fun _ => e) (c.fwd s (fun _ => e) x) - x‖ ≤ 0 := by simpa using h1
  exact sub_eq_zero.1 (norm_le_zero_iff.1 h2)

theorem stepF_none {c : Setup V} (hg : c.gobbler = none) (f : Fields) (s : Nat) (x : V) (hf : ∀ l, f l s = f 0 s) :
    stepF c f s x = c.fwd s (fun _ => f 0 s) x := by
  rw [stepF_eq]
  unfold absorb
  rw [hg, show (fun l => f l s) = fun _ => f 0 s from funext hf]

theorem stepB_none {c : Setup V} (hg : c.gobbler = none) (f : Fields) (s : Nat) (x : V) (hf : ∀ l, f l s = f 0 s) :
    stepB c f s x = c.bwd s (fun _ => f 0 s) x := by
  rw [stepB_eq]
  unfold absorb
  rw [hg, show (fun l => f l s) = fun _ => f 0 s from funext hf]

theorem evolve_norm {c : Setup V} {K d : ℝ} (h : Responds c K d) (hg : c.gobbler = none) (f : Fields)
    (hf : ∀ l s, s < c.steps → f l s = f 0 s) (x : V) (n : Nat) (hn : n ≤ c.steps) : ‖evolve c f x n‖ = ‖x‖ := by
  induction n with
  | zero => rfl
  | succ n ih =>
    rw [evolve_succ, stepF_none hg f n _ fun l => hf l n (by omega), h.norm, ih (by omega)]

theorem Back.norm {c : Setup V} {K d : ℝ} (h : Responds c K d) (hg : c.gobbler = none) {f : Fields} {last : Nat → V}
    {chi : Buf V} (hb : Back c f last chi) (hf : ∀ l s, s < c.steps → f l s = f 0 s) (t s : Nat) (hs : s ≤ c.steps) :
    ‖chi t s‖ = ‖last t‖ := by
  obtain ⟨k, hk⟩ := Nat.exists_eq_add_of_le hs
  induction k generalizing s with
  | zero =>
    obtain rfl : s = c.steps := by omega
    rw [hb.last]
  | succ k ih =>
    rw [hb.step t s (by omega), stepB_none hg f s _ fun l => hf l s (by omega), h.bwd_norm, ih (s + 1) (by omega) (by omega)]

/-- With the old field the overlap does not change. -/
theorem Back.overlap {c : Setup V} {K d : ℝ} (h : Responds c K d) (hg : c.gobbler = none) {f : Fields} {last : Nat → V}
    {chi : Buf V} (hb : Back c f last chi) (hf : ∀ l s, s < c.steps → f l s = f 0 s) (x : V) (t s : Nat)
    (hs : s ≤ c.steps) : (inner ℂ (chi t s) (evolve c f x s) : ℂ) = inner ℂ (last t) (evolve c f x c.steps) := by
  obtain ⟨k, hk⟩ := Nat.exists_eq_add_of_le hs
  induction k generalizing s with
  | zero =>
    obtain rfl : s = c.steps := by omega
    rw [hb.last]
  | succ k ih =>
    rw [← ih (s + 1) (by omega) (by omega), hb.step t s (by omega), stepB_none hg f s _ fun l => hf l s (by omega),
      evolve_succ, stepF_none hg f s _ fun l => hf l s (by omega)]
    rw [← h.unitary s (f 0 s) (chi t (s + 1)), h.undo]

/-- The overlap behind a step with the new field. -/
theorem tau_step {c : Setup V} {K d : ℝ} (h : Responds c K d) (hg : c.gobbler = none) {f g : Fields} {last : Nat → V}
    {chi : Buf V} (hb : Back c f last chi) (hf : ∀ l s, s < c.steps → f l s = f 0 s)
    (hg' : ∀ l s, s < c.steps → g l s = g 0 s) (x : V) (t s : Nat) (hs : s < c.steps) :
    ∃ e : ℂ, (inner ℂ (chi t (s + 1)) (evolve c g x (s + 1)) : ℂ) = inner ℂ (chi t s) (evolve c g x s) +
        (Complex.I * ((c.dt * (g 0 s - f 0 s) : ℝ) : ℂ)) * inner ℂ (chi t s) (c.mu (evolve c g x s)) + e ∧
      ‖e‖ ≤ ‖last t‖ * ((K * (g 0 s - f 0 s) ^ 2 + d * |g 0 s - f 0 s|) * ‖x‖) := by
  set y := evolve c g x s with hy
  set r := c.bwd s (fun _ => f 0 s) (c.fwd s (fun _ => g 0 s) y) -
    (y + (Complex.I * c.dt * (g 0 s - f 0 s : ℝ)) • c.mu y) with hr
  refine ⟨inner ℂ (chi t s) r, ?_, ?_⟩
  · have h1 : (inner ℂ (chi t (s + 1)) (evolve c g x (s + 1)) : ℂ) =
        inner ℂ (chi t s) (c.bwd s (fun _ => f 0 s) (c.fwd s (fun _ => g 0 s) y)) := by
      rw [evolve_succ, stepF_none hg g s _ fun l => hg' l s hs, ← h.unitary s (f 0 s) (chi t (s + 1)),
        hb.step t s hs, stepB_none hg f s _ fun l => hf l s hs]
    rw [h1, show c.bwd s (fun _ => f 0 s) (c.fwd s (fun _ => g 0 s) y) =
        y + (Complex.I * c.dt * (g 0 s - f 0 s : ℝ)) • c.mu y + r by rw [hr]; abel,
      inner_add_right, inner_add_right, inner_smul_right, Complex.ofReal_mul, mul_assoc Complex.I]
  · refine (norm_inner_le_norm _ _).trans ?_
    rw [hb.norm h hg hf t s (by omega)]
    refine mul_le_mul_of_nonneg_left ?_ (norm_nonneg _)
    have := h.answer s (f 0 s) (g 0 s) y
    rw [show ‖y‖ = ‖x‖ from evolve_norm h hg g hg' x s (by omega)] at this
    exact this

/-- The error of a step for wave functions of norm at most one. -/
theorem err_le {a b q : ℝ} (ha : 0 ≤ a) (ha1 : a ≤ 1) (hb : 0 ≤ b) (hb1 : b ≤ 1) (hq : 0 ≤ q * b) (e : ℝ)
    (h : e ≤ a * (q * b)) (he : 0 ≤ e) : e ≤ |q| := by
  have h1 : a * (q * b) ≤ q * b := by nlinarith
  have h2 : q * b ≤ |q| * b := mul_le_mul_of_nonneg_right (le_abs_self q) hb
  have h3 : |q| * b ≤ |q| := by nlinarith [abs_nonneg q]
  linarith

/-- Summation over the time steps. -/
theorem telescope (F : Nat → ℝ) (w : Nat → ℝ) (n : Nat) (h : ∀ s, s < n → F s - w s ≤ F (s + 1)) :
    F 0 - ∑ s ∈ Finset.range n, w s ≤ F n := by
  induction n with
  | zero => simp
  | succ n ih =>
    rw [Finset.sum_range_succ]
    have h1 := ih fun s hs => h s (by omega)
    have h2 := h n (by omega)
    linarith

end

end QDng.Oct
