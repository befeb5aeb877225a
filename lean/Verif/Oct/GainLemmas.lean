import Verif.Oct.MonoLemmas

/-
The gain of an iteration.
-/

namespace QDng.Oct

open Spec

noncomputable section

variable {V : Type} [NormedAddCommGroup V] [InnerProductSpace ℂ V]

/-- The correction at a time step. -/
def imAt (c : Setup V) (psi : Nat → V) (chi : Buf V) (g : Fields) (s : Nat) : ℝ :=
  calcCorr c (fun t => evolve c g (psi t) s) fun t => chi t s

theorem tau_step1 {c : Setup V} {K d : ℝ} (h : Responds c K d) (hK : 0 ≤ K) (hd : 0 ≤ d) (hg : c.gobbler = none)
    {f g : Fields} {last : Nat → V}
    {chi : Buf V} (hb : Back c f last chi) (hf : ∀ l s, s < c.steps → f l s = f 0 s)
    (hg' : ∀ l s, s < c.steps → g l s = g 0 s) (x : V) (t s : Nat) (hs : s < c.steps) (hx : ‖x‖ ≤ 1) (hl : ‖last t‖ ≤ 1) :
    ∃ e : ℂ, (inner ℂ (chi t (s + 1)) (evolve c g x (s + 1)) : ℂ) = inner ℂ (chi t s) (evolve c g x s) +
        (Complex.I * ((c.dt * (g 0 s - f 0 s) : ℝ) : ℂ)) * inner ℂ (chi t s) (c.mu (evolve c g x s)) + e ∧
      ‖e‖ ≤ K * (g 0 s - f 0 s) ^ 2 + d * |g 0 s - f 0 s| := by
  obtain ⟨e, h1, h2⟩ := tau_step h hg hb hf hg' x t s hs
  refine ⟨e, h1, h2.trans ?_⟩
  have hq : 0 ≤ K * (g 0 s - f 0 s) ^ 2 + d * |g 0 s - f 0 s| := by positivity
  calc ‖last t‖ * ((K * (g 0 s - f 0 s) ^ 2 + d * |g 0 s - f 0 s|) * ‖x‖)
      ≤ 1 * ((K * (g 0 s - f 0 s) ^ 2 + d * |g 0 s - f 0 s|) * 1) := by gcongr
    _ = _ := by ring

theorem tau_le {c : Setup V} {K d : ℝ} (h : Responds c K d) (hg : c.gobbler = none)
    {f g : Fields} {last : Nat → V}
    {chi : Buf V} (hb : Back c f last chi) (hf : ∀ l s, s < c.steps → f l s = f 0 s)
    (hg' : ∀ l s, s < c.steps → g l s = g 0 s) (x : V) (t s : Nat) (hs : s ≤ c.steps) (hx : ‖x‖ ≤ 1) (hl : ‖last t‖ ≤ 1) :
    ‖(inner ℂ (chi t s) (evolve c g x s) : ℂ)‖ ≤ 1 := by
  refine (norm_inner_le_norm _ _).trans ?_
  rw [hb.norm h hg hf t s hs, evolve_norm h hg g hg' x s hs]
  nlinarith [norm_nonneg x, norm_nonneg (last t)]

/-- The sum of the squares of the overlaps. -/
theorem gain_square {c : Setup V} {K d : ℝ} (h : Responds c K d) (hK : 0 ≤ K) (hd : 0 ≤ d) (hg : c.gobbler = none)
    (hp : c.phase = false) {f g : Fields} {psi last : Nat → V} {chi : Buf V} (hb : Back c f last chi)
    (hf : ∀ l s, s < c.steps → f l s = f 0 s) (hg' : ∀ l s, s < c.steps → g l s = g 0 s)
    (hx : ∀ t, t < c.ntargets → ‖psi t‖ ≤ 1) (hl : ∀ t, t < c.ntargets → ‖last t‖ ≤ 1) :
    (∑ t ∈ Finset.range c.ntargets, ‖(inner ℂ (last t) (evolve c f (psi t) c.steps) : ℂ)‖ ^ 2) -
        (∑ s ∈ Finset.range c.steps, (2 * (c.dt * (g 0 s - f 0 s)) * imAt c psi chi g s +
          2 * c.ntargets * (K * (g 0 s - f 0 s) ^ 2 + d * |g 0 s - f 0 s|))) ≤
      ∑ t ∈ Finset.range c.ntargets, ‖(inner ℂ (last t) (evolve c g (psi t) c.steps) : ℂ)‖ ^ 2 := by
  have ht := telescope (fun s => ∑ t ∈ Finset.range c.ntargets, ‖(inner ℂ (chi t s) (evolve c g (psi t) s) : ℂ)‖ ^ 2)
    (fun s => 2 * (c.dt * (g 0 s - f 0 s)) * imAt c psi chi g s +
      2 * c.ntargets * (K * (g 0 s - f 0 s) ^ 2 + d * |g 0 s - f 0 s|)) c.steps (by
    intro s hs
    show _ - (_ * calcCorr c _ _ + _) ≤ _
    unfold calcCorr
    rw [corrLoop_eq, Finset.mul_sum,
      show (2 * c.ntargets * (K * (g 0 s - f 0 s) ^ 2 + d * |g 0 s - f 0 s|) : ℝ) =
        ∑ _t ∈ Finset.range c.ntargets, 2 * (K * (g 0 s - f 0 s) ^ 2 + d * |g 0 s - f 0 s|) by
        rw [Finset.sum_const, Finset.card_range, nsmul_eq_mul]; ring,
      ← Finset.sum_add_distrib, ← Finset.sum_sub_distrib]
    refine Finset.sum_le_sum fun t ht => ?_
    have ht := Finset.mem_range.1 ht
    obtain ⟨e, h1, h2⟩ := tau_step1 h hK hd hg hb hf hg' (psi t) t s hs (hx t ht) (hl t ht)
    rw [h1]
    refine le_trans ?_ (norm_sq_step _ _ _ _)
    have h3 := tau_le h hg hb hf hg' (psi t) t s (by omega) (hx t ht) (hl t ht)
    rw [hp, if_neg (by decide), inner_conj_symm]
    have h4 : ‖(inner ℂ (chi t s) (evolve c g (psi t) s) : ℂ)‖ * ‖e‖ ≤
        K * (g 0 s - f 0 s) ^ 2 + d * |g 0 s - f 0 s| := by nlinarith [norm_nonneg e]
    linarith)
  have h0 : ∀ t, (inner ℂ (chi t 0) (evolve c g (psi t) 0) : ℂ) = inner ℂ (last t) (evolve c f (psi t) c.steps) :=
    fun t => hb.overlap h hg hf (psi t) t 0 (Nat.zero_le _)
  simp only [h0, hb.last] at ht
  exact ht

/-- The sum of the real parts of the overlaps. -/
theorem gain_real {c : Setup V} {K d : ℝ} (h : Responds c K d) (hK : 0 ≤ K) (hd : 0 ≤ d) (hg : c.gobbler = none)
    (hp : c.phase = true) {f g : Fields} {psi last : Nat → V} {chi : Buf V} (hb : Back c f last chi)
    (hf : ∀ l s, s < c.steps → f l s = f 0 s) (hg' : ∀ l s, s < c.steps → g l s = g 0 s)
    (hx : ∀ t, t < c.ntargets → ‖psi t‖ ≤ 1) (hl : ∀ t, t < c.ntargets → ‖last t‖ ≤ 1) :
    (∑ t ∈ Finset.range c.ntargets, (inner ℂ (last t) (evolve c f (psi t) c.steps) : ℂ).re) -
        (∑ s ∈ Finset.range c.steps, ((c.dt * (g 0 s - f 0 s)) * imAt c psi chi g s +
          c.ntargets * (K * (g 0 s - f 0 s) ^ 2 + d * |g 0 s - f 0 s|))) ≤
      ∑ t ∈ Finset.range c.ntargets, (inner ℂ (last t) (evolve c g (psi t) c.steps) : ℂ).re := by
  have ht := telescope (fun s => ∑ t ∈ Finset.range c.ntargets, (inner ℂ (chi t s) (evolve c g (psi t) s) : ℂ).re)
    (fun s => (c.dt * (g 0 s - f 0 s)) * imAt c psi chi g s +
      c.ntargets * (K * (g 0 s - f 0 s) ^ 2 + d * |g 0 s - f 0 s|)) c.steps (by
    intro s hs
    show _ - (_ * calcCorr c _ _ + _) ≤ _
    unfold calcCorr
    rw [corrLoop_eq, Finset.mul_sum,
      show (c.ntargets * (K * (g 0 s - f 0 s) ^ 2 + d * |g 0 s - f 0 s|) : ℝ) =
        ∑ _t ∈ Finset.range c.ntargets, (K * (g 0 s - f 0 s) ^ 2 + d * |g 0 s - f 0 s|) by
        rw [Finset.sum_const, Finset.card_range, nsmul_eq_mul],
      ← Finset.sum_add_distrib, ← Finset.sum_sub_distrib]
    refine Finset.sum_le_sum fun t ht => ?_
    have ht := Finset.mem_range.1 ht
    obtain ⟨e, h1, h2⟩ := tau_step1 h hK hd hg hb hf hg' (psi t) t s hs (hx t ht) (hl t ht)
    rw [h1, hp, if_pos rfl]
    have h3 := (abs_le.1 ((Complex.abs_re_le_norm e).trans h2)).1
    simp only [Complex.mul_re, Complex.mul_im, Complex.add_re, 
      Complex.I_re, Complex.I_im, Complex.ofReal_re, Complex.ofReal_im]
    linarith)
  have h0 : ∀ t, (inner ℂ (chi t 0) (evolve c g (psi t) 0) : ℂ) = inner ℂ (last t) (evolve c f (psi t) c.steps) :=
    fun t => hb.overlap h hg hf (psi t) t 0 (Nat.zero_le _)
  simp only [h0, hb.last] at ht
  exact ht

/-- The change of the field of an iteration of Krotov. -/
theorem krotov_change {c : Setup V} (hm : c.method = .krotov) {lb psi chi lf0 lf phii}
    (h : Forth c lb psi chi lf0 lf phii) (s : Nat) (hs : s < c.steps) :
    lf 0 s - lb 0 s = -(c.shape s / (c.alpha * c.ntargets) * imAt c psi chi lf s) := by
  rw [h.field 0 s hs]
  unfold newField imAt
  rw [hm]
  ring

theorem krotov_sum {c : Setup V} {K d k : ℝ} (hm : c.method = .krotov) {lb psi chi lf0 lf phii}
    (h : Forth c lb psi chi lf0 lf phii) (hal : 0 < c.alpha) (hsh : ∀ s, s < c.steps → 0 ≤ c.shape s)
    (hK : ∀ s, s < c.steps → (K + k) * c.shape s ≤ c.alpha * c.dt) :
    (∑ s ∈ Finset.range c.steps, ((c.dt * (lf 0 s - lb 0 s)) * imAt c psi chi lf s +
          c.ntargets * (K * (lf 0 s - lb 0 s) ^ 2 + d * |lf 0 s - lb 0 s|))) ≤
      c.ntargets * d * (∑ s ∈ Finset.range c.steps, |lf 0 s - lb 0 s|) -
        c.ntargets * k * ∑ s ∈ Finset.range c.steps, (lf 0 s - lb 0 s) ^ 2 := by
  rw [Finset.mul_sum, Finset.mul_sum, ← Finset.sum_sub_distrib]
  refine Finset.sum_le_sum fun s hs => ?_
  have hs := Finset.mem_range.1 hs
  have h1 := gain_nonneg c.ntargets (imAt c psi chi lf s) c.dt (K + k) (c.shape s) c.alpha (Nat.cast_nonneg _) (hsh s hs)
    hal (hK s hs)
  rw [← krotov_change hm h s hs] at h1
  nlinarith

end

end QDng.Oct
