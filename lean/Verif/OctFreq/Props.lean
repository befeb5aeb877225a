import Mathlib.Analysis.InnerProductSpace.PiL2
import Verif.OctFreq.RunLemmas

/-
Properties of the frequency shaping method of the optimal control program.
-/

namespace QDng.OctFreq

open QDng.Oct QDng.Oct.Spec

noncomputable section

variable {V : Type} [NormedAddCommGroup V] [InnerProductSpace ℂ V]

/-- The report and the laser file of a run: the guess and one line for each iteration. -/
def lines (c : Setup V) (mask : Nat → ℝ) (psiI psiT : Nat → V) (series : Nat → Nat → V) (guess : Fields) (buf0 : Buf V) :
    List (Line V) :=
  (freqRun c mask psiI psiT series guess buf0).guess :: (freqRun c mask psiI psiT series guess buf0).lines

/-! ### C240 -/

/-- Shaping multiplies each component of the spectrum with the mask, in both fields and for all lasers; whether the
storages of the two fields are exchanged makes no difference, and values behind the last time step are kept. -/
theorem C240_both_fields (N : Nat) (hN : 0 < N) (mask : Nat → ℝ) (st : FSt V) (l : Nat) :
    (∀ k, k ≤ N / 2 → Spec.spectrum N ((shapeOld N mask st).lb l) k = mask k * Spec.spectrum N (st.lb 0) k) ∧
    (∀ k, k ≤ N / 2 → Spec.spectrum N ((shapeOld N mask st).lf l) k = mask k * Spec.spectrum N (st.lb 0) k) ∧
    ∀ p, N ≤ p → (shapeOld N mask st).lb l p = st.lb 0 p ∧ (shapeOld N mask st).lf l p = st.lb 0 p := by
  obtain ⟨e1, e2, _⟩ := shapeOld_eq N mask st
  refine ⟨fun k hk => ?_, fun k hk => ?_, fun p hp => ⟨?_, ?_⟩⟩
  · rw [spectrum_eq, spectrum_eq, e2 l, filtered_spectrum hN mask _ _ k hk]
  · rw [spectrum_eq, spectrum_eq, e1 l, filtered_spectrum hN mask _ _ k hk]
  · rw [e2 l]; exact if_neg (by omega)
  · rw [e1 l]; exact if_neg (by omega)

/-- A spectrum belongs to one field only. -/
theorem C240_unique (N : Nat) (x y : Nat → ℝ)
    (h : ∀ k, k ≤ N / 2 → Spec.spectrum N x k = Spec.spectrum N y k) (j : Nat) (hj : j < N) : x j = y j := by
  have hN : 0 < N := by omega
  have hx := congrFun (filtered_one (N := N) (fun _ => 1) (fun _ _ => rfl) x) j
  have hy := congrFun (filtered_one (N := N) (fun _ => 1) (fun _ _ => rfl) y) j
  rw [← hx, ← hy]
  unfold filtered
  rw [if_pos hj, if_pos hj]
  unfold c2r
  congr 1
  refine Finset.sum_congr rfl fun k hk => ?_
  have hk' := Finset.mem_range.1 hk
  congr 1
  unfold half
  have h' : ∀ k, k ≤ N / 2 → r2c N x k = r2c N y k := fun k hk => by rw [← spectrum_eq, ← spectrum_eq, h k hk]
  split
  · next h1 => dsimp only; rw [h' k h1]
  · next h1 => dsimp only; rw [h' (N - k) (by omega)]

/-- Each iteration of a run starts from the field of the previous line of the report with the mask applied to its
spectrum: at time steps where the shape is zero the new field is this one, all lasers get the same field, and the wave
functions reported are the initial ones propagated under the new field. -/
theorem C240_iteration (c : Setup V) (mask : Nat → ℝ) (psiI psiT : Nat → V) (series : Nat → Nat → V) (guess : Fields)
    (buf0 : Buf V) (hN : 0 < c.steps) (i : Nat) (a b : Line V)
    (ha : (lines c mask psiI psiT series guess buf0)[i]? = some a)
    (hb : (lines c mask psiI psiT series guess buf0)[i + 1]? = some b) :
    (∃ o : Nat → ℝ, (∀ k, k ≤ c.steps / 2 → Spec.spectrum c.steps o k = mask k * Spec.spectrum c.steps (a.fields 0) k) ∧
      ∀ l s, s < c.steps → c.shape s = 0 → b.fields l s = o s) ∧
    (∀ l p, c.steps ≤ p → b.fields l p = a.fields 0 p) ∧ (∀ l, b.fields l = b.fields 0) ∧
    ∀ t, b.phii t = evolve c b.fields (psiI t) c.steps := by
  obtain ⟨st, h1, h2⟩ := (run_lines c mask psiI psiT series guess buf0).1 i a b ha hb
  obtain ⟨f1, f2, _, f4, f5, f6, _⟩ := iterateFreq_spec c mask psiI (entered c psiI (targets c psiT series) st)
  have hbf : b.fields = (iterateFreq c mask psiI (entered c psiI (targets c psiT series) st)).lf := by rw [h2]; rfl
  have hbp : b.phii = (iterateFreq c mask psiI (entered c psiI (targets c psiT series) st)).phii := by rw [h2]; rfl
  rw [← hbf] at f2 f5 f6
  rw [← hbp] at f2
  refine ⟨⟨masked c mask (entered c psiI (targets c psiT series) st), fun k hk => ?_, fun l s hs h0 => ?_⟩,
    fun l p hp => ?_, fun l => ?_, f2⟩
  · rw [spectrum_eq, spectrum_eq]
    unfold masked
    rw [filtered_spectrum hN mask _ _ k hk]
    show _ * r2c c.steps (st.lb 0) k = _
    rw [h1]
  · rw [f5 l s hs, h0, zero_div, zero_mul, sub_zero]
  · rw [f6 l p hp]
    show st.lb 0 p = _
    rw [h1]
  · funext p
    by_cases hp : p < c.steps
    · rw [f5 l p hp, f5 0 p hp]
    · rw [f6 l p (by omega), f6 0 p (by omega)]

/-! ### C241 -/

/-- With a mask of ones the method is Krotov's method: the fields, the yields, the objectives, the number of iterations
and the final field are the same.  For targets given as wave functions the propagator has to be reversible. -/
theorem C241_krotov (c : Setup V) (mask : Nat → ℝ) (psiI psiT : Nat → V) (series : Nat → Nat → V) (guess : Fields)
    (buf0 : Buf V) (hk : c.method = .krotov) (hmask : ∀ k, k ≤ c.steps / 2 → mask k = 1)
    (hguess : ∀ l, guess l = guess 0) (hr : c.operators = true ∨ Spec.Reversible c) :
    (freqRun c mask psiI psiT series guess buf0).guess = (run c psiI psiT series guess buf0).guess ∧
    (freqRun c mask psiI psiT series guess buf0).lines.map Spec.shown =
      (run c psiI psiT series guess buf0).lines.map Spec.shown ∧
    (freqRun c mask psiI psiT series guess buf0).final = (run c psiI psiT series guess buf0).final ∧
    (freqRun c mask psiI psiT series guess buf0).converged = (run c psiI psiT series guess buf0).converged := by
  obtain ⟨h1, h2, _⟩ := start_fields c psiI psiT series guess buf0
  have hrel : Rel c (start c psiI psiT series guess buf0).2
      { (start c psiI psiT series guess buf0).2 with crossed := none } := by
    refine ⟨rfl, rfl, fun l => ?_, fun l p _ => ?_⟩
    · rw [h1]; exact hguess l
    · rw [h1, h2, hguess l]
  have h := rel_mainLoop c mask psiI (targets c psiT series) c.iterations true 1 (1, 1, 1) _ _ hk hmask hr hrel
  refine ⟨rfl, h.1, congrFun h.2.1 0, ?_⟩
  unfold freqRun run
  dsimp only
  congr 1
  rw [h.2.2]

/-! ### C242 -/

theorem r2c_sub (N : Nat) (x y : Nat → ℝ) (k : Nat) : r2c N (fun s => x s - y s) k = r2c N x k - r2c N y k := by
  unfold r2c
  rw [← Finset.sum_sub_distrib]
  refine Finset.sum_congr rfl fun j _ => ?_
  push_cast
  ring

theorem r2c_add (N : Nat) (x y : Nat → ℝ) (k : Nat) : r2c N (fun s => x s + y s) k = r2c N x k + r2c N y k := by
  unfold r2c
  rw [← Finset.sum_add_distrib]
  refine Finset.sum_congr rfl fun j _ => ?_
  push_cast
  ring

theorem r2c_smul (N : Nat) (a : ℝ) (x : Nat → ℝ) (k : Nat) : r2c N (fun s => a * x s) k = a * r2c N x k := by
  unfold r2c
  rw [Finset.mul_sum]
  refine Finset.sum_congr rfl fun j _ => ?_
  push_cast
  ring

/-- What is in the new field, by components of the spectrum, for a constant shape and targets given as wave functions:
`o` is the field behind the mask, `chi` the target propagated backward under it. -/
theorem C242_spectrum_partial (c : Setup V) (mask : Nat → ℝ) (psiI psiT : Nat → V) (series : Nat → Nat → V)
    (guess : Fields) (buf0 : Buf V) (hN : 0 < c.steps) (hr : Spec.Reversible c) (ho : c.operators = false)
    (hm : c.moving = false) (σ : ℝ) (hσ : ∀ s, s < c.steps → c.shape s = σ) (i : Nat) (a b : Line V)
    (ha : (lines c mask psiI psiT series guess buf0)[i]? = some a)
    (hb : (lines c mask psiI psiT series guess buf0)[i + 1]? = some b) :
    ∃ o chi, (∀ k, k ≤ c.steps / 2 → Spec.spectrum c.steps o k = mask k * Spec.spectrum c.steps (a.fields 0) k) ∧
      Spec.Backward c o psiT chi ∧
      ∀ l k, k ≤ c.steps / 2 → Spec.spectrum c.steps (b.fields l) k =
        mask k * Spec.spectrum c.steps (a.fields 0) k - (σ / (c.alpha * c.ntargets) : ℝ) *
          (Spec.spectrum c.steps (fun s => Spec.corr c (fun t => evolve c b.fields (psiI t) s) fun t => chi t s) k +
            (1 - mask k) * Spec.spectrum c.steps
              (fun s => Spec.corr c (fun t => evolve1 c o (psiI t) s) fun t => chi t s) k) := by
  obtain ⟨st, h1, h2⟩ := (run_lines c mask psiI psiT series guess buf0).1 i a b ha hb
  have htg : targets c psiT series = psiT := by unfold targets; simp [hm]
  rw [htg] at h2
  obtain ⟨_, _, _, _, f5, _, _⟩ := iterateFreq_spec c mask psiI (entered c psiI psiT st)
  obtain ⟨b1, b2⟩ := synced_back c mask (entered c psiI psiT st) ho hm
  have hphit : (entered c psiI psiT st).phit = psiT := by unfold entered; simp [ho]
  have hbf : b.fields = (iterateFreq c mask psiI (entered c psiI psiT st)).lf := by rw [h2]; rfl
  rw [← hbf] at f5
  obtain ⟨E, hE⟩ : ∃ E, E = entered c psiI psiT st := ⟨_, rfl⟩
  rw [← hE] at f5 b1 b2 hphit
  have hE0 : E.lb 0 = a.fields 0 := by rw [hE]; show st.lb 0 = _; rw [h1]
  have hEp : E.phii = psiI := by rw [hE]; rfl
  have hsp : ∀ k, k ≤ c.steps / 2 → Spec.spectrum c.steps (masked c mask E) k =
      mask k * Spec.spectrum c.steps (a.fields 0) k := fun k hk => by
    rw [spectrum_eq, spectrum_eq]
    unfold masked
    rw [filtered_spectrum hN mask _ _ k hk, hE0]
  refine ⟨masked c mask E, (synced c mask E).buf, hsp, ⟨fun t => ?_, fun t s hs => ?_⟩, fun l k hk => ?_⟩
  · rw [b1.last, hphit]
  · rw [b1.step t s hs, stepB_eq]
  · have hcs : ∀ s, s < c.steps → corrShaped c mask E s =
        Spec.corr c (fun t => evolve1 c (masked c mask E) (psiI t) s) fun t => (synced c mask E).buf t s := by
      intro s hs
      unfold corrShaped
      rw [corr_eq]
      congr 1
      · funext t; rw [hEp]; rfl
      · funext t
        rw [if_neg (by simp [hm])]
        unfold phitAt
        rw [if_neg (by simp [hm]), b2, evolve_back hr b1 t s hs.le]
    have hval : ∀ s, s < c.steps → b.fields l s = masked c mask E s - (σ / (c.alpha * c.ntargets)) *
        (Spec.corr c (fun t => evolve c b.fields (psiI t) s) (fun t => (synced c mask E).buf t s) +
          bandStop c.steps mask (fun s => Spec.corr c (fun t => evolve1 c (masked c mask E) (psiI t) s)
            fun t => (synced c mask E).buf t s) s) := by
      intro s hs
      rw [f5 l s hs, hσ s hs, corr_eq, bandStop_congr c.steps mask _ _ hcs s hs]
    rw [← hsp k hk]
    simp only [spectrum_eq]
    rw [r2c_congr c.steps _ _ hval, r2c_sub, r2c_smul, r2c_add]
    have hbs := filtered_spectrum hN (fun k => 1 - mask k)
      (fun s => Spec.corr c (fun t => evolve1 c (masked c mask E) (psiI t) s) fun t => (synced c mask E).buf t s)
      (fun s => Spec.corr c (fun t => evolve1 c (masked c mask E) (psiI t) s) fun t => (synced c mask E).buf t s) k hk
    have : bandStop c.steps mask
        (fun s => Spec.corr c (fun t => evolve1 c (masked c mask E) (psiI t) s) fun t => (synced c mask E).buf t s) =
        filtered c.steps (fun k => (1 - mask k) / c.steps)
        (fun s => Spec.corr c (fun t => evolve1 c (masked c mask E) (psiI t) s) fun t => (synced c mask E).buf t s)
        (fun s => Spec.corr c (fun t => evolve1 c (masked c mask E) (psiI t) s) fun t => (synced c mask E).buf t s) := rfl
    rw [this, hbs]
    push_cast
    rfl

/-- The correction field has the wrong sign: when the correlation is the same with the shaped and with the new field
(here: a propagator that does not depend on the field), a component that the mask blocks is not removed from the
change of the field, the change has twice of it. -/
theorem C242_violated_doubled (c : Setup V) (mask : Nat → ℝ) (psiI psiT : Nat → V) (series : Nat → Nat → V)
    (guess : Fields) (buf0 : Buf V) (hN : 0 < c.steps) (hr : Spec.Reversible c) (ho : c.operators = false)
    (hm : c.moving = false) (σ : ℝ) (hσ : ∀ s, s < c.steps → c.shape s = σ)
    (hfree : ∀ s e e' (x : V), c.fwd s e x = c.fwd s e' x) (i : Nat) (a b : Line V)
    (ha : (lines c mask psiI psiT series guess buf0)[i]? = some a)
    (hb : (lines c mask psiI psiT series guess buf0)[i + 1]? = some b) :
    ∃ o chi, Spec.Backward c o psiT chi ∧ ∀ l k, k ≤ c.steps / 2 → mask k = 0 →
      Spec.spectrum c.steps (b.fields l) k = -2 * (σ / (c.alpha * c.ntargets) : ℝ) * Spec.spectrum c.steps
        (fun s => Spec.corr c (fun t => evolve c b.fields (psiI t) s) fun t => chi t s) k := by
  obtain ⟨o, chi, _, h2, h3⟩ := C242_spectrum_partial c mask psiI psiT series guess buf0 hN hr ho hm σ hσ i a b ha hb
  refine ⟨o, chi, h2, fun l k hk h0 => ?_⟩
  have he : ∀ s t, evolve1 c o (psiI t) s = evolve c b.fields (psiI t) s := by
    intro s t
    induction s with
    | zero => rfl
    | succ s ih =>
      unfold evolve1 at ih ⊢
      rw [evolve, evolve, ih, hfree s _ (fun l => b.fields l s)]
  rw [h3 l k hk, h0]
  simp only [he]
  push_cast
  ring

/-- A set-up with one target, for the examples: nothing happens in the field free steps, the dipole operator is one. -/
def still (N : Nat) : Setup ℂ where
  steps := N
  dt := 1
  method := .krotov
  operators := false
  phase := true
  moving := false
  ntargets := 1
  alpha := 1
  shape := fun _ => 1
  iterations := 1
  convergence := 0
  fwd := fun _ _ x => x
  bwd := fun _ _ x => x
  gobbler := none
  mu := fun x => x
  target := fun _ x => x

theorem still_reversible (N : Nat) : Spec.Reversible (still N) := ⟨rfl, fun _ _ _ => rfl⟩

theorem still_evolve (N : Nat) (f : Fields) (x : ℂ) (s : Nat) : evolve (still N) f x s = x := by
  induction s with
  | zero => rfl
  | succ s ih => rw [evolve, ih]; rfl

theorem one_line (c : Setup V) (hi : c.iterations = 1) (hc : c.convergence < 1) (mask : Nat → ℝ) (psiI psiT : Nat → V)
    (series : Nat → Nat → V) (guess : Fields) (buf0 : Buf V) :
    ∃ b, (freqRun c mask psiI psiT series guess buf0).lines = [b] ∧
      (freqRun c mask psiI psiT series guess buf0).final = b.fields 0 := by
  have h : ∃ b, (freqRun c mask psiI psiT series guess buf0).lines = [b] := by
    unfold freqRun
    dsimp only
    rw [hi, freqMainLoop, if_pos hc]
    exact ⟨_, rfl⟩
  obtain ⟨b, hb⟩ := h
  refine ⟨b, hb, ?_⟩
  exact (run_lines c mask psiI psiT series guess buf0).2 b (by rw [hb]; rfl)

/-- A run that writes a field with a component the mask blocks: the mean value of the field, for any number of time
steps and any mask that blocks it. -/
theorem C242_violated_run (N : Nat) (hN : 0 < N) (mask : Nat → ℝ) (h0 : mask 0 = 0) (guess : Fields) (buf0 : Buf ℂ) :
    Spec.spectrum N (freqRun (still N) mask (fun _ => 1) (fun _ => Complex.I) (fun _ _ => 0) guess buf0).final 0 =
      2 * N := by
  obtain ⟨b, hb, hf⟩ := one_line (still N) rfl (by show (0 : ℝ) < 1; norm_num) mask (fun _ => 1) (fun _ => Complex.I)
    (fun _ _ => 0) guess buf0
  obtain ⟨o, chi, hB, hD⟩ := C242_violated_doubled (still N) mask (fun _ => 1) (fun _ => Complex.I) (fun _ _ => 0) guess buf0
    hN (still_reversible N) rfl rfl 1 (fun _ _ => rfl) (fun _ _ _ _ => rfl) 0 _ b rfl (by
      unfold lines; rw [hb]; rfl)
  rw [hf]
  have h := hD 0 0 (Nat.zero_le _) h0
  have hchi : ∀ t s, s ≤ N → chi t s = Complex.I := by
    intro t s hs
    obtain ⟨k, hk⟩ := Nat.exists_eq_add_of_le hs
    induction k generalizing s with
    | zero =>
      obtain rfl : s = N := by omega
      exact hB.last t
    | succ k ih =>
      rw [hB.step t s (show s < N by omega)]
      exact ih (s + 1) (by omega) (by omega)
  have hc : ∀ s, s < N → Spec.corr (still N) (fun t => evolve (still N) b.fields 1 s) (fun t => chi t s) = -1 := by
    intro s hs
    unfold Spec.corr
    show ∑ t ∈ Finset.range 1, (if true = true then (inner ℂ (chi t s) (evolve (still N) b.fields 1 s) : ℂ) else _).im = _
    rw [Finset.sum_range_one, if_pos rfl, still_evolve, hchi 0 s hs.le]
    simp
  have h' : Spec.spectrum N (b.fields 0) 0 = -2 * ((1 / (1 * (1 : Nat)) : ℝ) : ℂ) * Spec.spectrum N
    (fun s => Spec.corr (still N) (fun t => evolve (still N) b.fields 1 s) fun t => chi t s) 0 := h
  rw [h', spectrum_eq, r2c_congr N _ (fun _ => -1) hc]
  unfold r2c
  rw [Finset.sum_congr rfl fun j _ => by rw [tw_zero, mul_one], Finset.sum_const, Finset.card_range]
  push_cast
  rw [nsmul_eq_mul]
  ring

/-! ### C243 -/

/-- If the propagator is reversible and nothing is absorbed, or if the targets are operators, the yield in each line is
that of the final wave functions and the targets given. -/
theorem C243_yield_partial (c : Setup V) (mask : Nat → ℝ) (psiI psiT : Nat → V) (series : Nat → Nat → V) (guess : Fields)
    (buf0 : Buf V) (hr : c.operators = true ∨ Spec.Reversible c) (i : Nat) (b : Line V)
    (hb : (lines c mask psiI psiT series guess buf0)[i]? = some b) :
    b.yield = Oct.Spec.yield c b.phii (targets c psiT series) := by
  cases i with
  | zero =>
    have : b = (start c psiI psiT series guess buf0).1 := by
      have : some (start c psiI psiT series guess buf0).1 = some b := hb
      exact (Option.some.inj this).symm
    rw [this]
    exact report_yield c _ _
  | succ i =>
    obtain ⟨a, ha⟩ : ∃ a, (lines c mask psiI psiT series guess buf0)[i]? = some a := by
      have := (List.getElem?_eq_some_iff.1 hb).1
      exact ⟨_, List.getElem?_eq_getElem (by omega)⟩
    obtain ⟨st, _, h2⟩ := (run_lines c mask psiI psiT series guess buf0).1 i a b ha hb
    have hy : b.yield = Oct.Spec.yield c b.phii (freqIteration c mask psiI (targets c psiT series) st).phit := by
      rw [h2]; exact report_yield c _ _
    rw [hy]
    refine yield_congr c _ _ _ fun ho t => ?_
    rcases hr with hr | hr
    · rw [ho] at hr; cases hr
    · exact reported_target c mask psiI (targets c psiT series) st hr ho t

/-- Two level system, for the examples. -/
abbrev C2 := EuclideanSpace ℂ (Fin 2)

def vec (a b : ℂ) : C2 := WithLp.toLp 2 ![a, b]

theorem vec_inner (a b c d : ℂ) : (inner ℂ (vec a b) (vec c d) : ℂ) = c * (starRingEnd ℂ) a + d * (starRingEnd ℂ) b := by
  rw [PiLp.inner_apply, Fin.sum_univ_two]
  rfl

/-- Absorbs the second level and normalises. -/
def absorb2 (x : C2) : C2 := vec (x.ofLp 0 / ‖x.ofLp 0‖) 0

/-- A set-up with a gobbler. -/
def leaky (N : Nat) : Setup C2 where
  steps := N
  dt := 1
  method := .krotov
  operators := false
  phase := false
  moving := false
  ntargets := 1
  alpha := 1
  shape := fun _ => 1
  iterations := 1
  convergence := 0
  fwd := fun _ _ x => x
  bwd := fun _ _ x => x
  gobbler := some absorb2
  mu := fun x => x
  target := fun _ x => x

theorem absorb2_vec (r : ℝ) (hr : 0 < r) (b : ℂ) : absorb2 (vec r b) = vec 1 0 := by
  unfold absorb2
  have h : (vec r b).ofLp 0 = (r : ℂ) := rfl
  rw [h, Complex.norm_real, Real.norm_of_nonneg hr.le, div_self (Complex.ofReal_ne_zero.2 hr.ne')]

theorem leaky_evolve (N : Nat) (f : Fields) (s : Nat) : evolve (leaky N) f (vec 1 0) s = vec 1 0 := by
  induction s with
  | zero => rfl
  | succ s ih =>
    rw [evolve, ih]
    have := absorb2_vec 1 one_pos 0
    rw [Complex.ofReal_one] at this
    exact this

/-- With a gobbler the report is not about the target: here it says that the target is reached, while the overlap with
the target given is 9/25, for any number of time steps, any mask and any guess. -/
theorem C243_violated_gobbler (N : Nat) (hN : 0 < N) (mask : Nat → ℝ) (guess : Fields) (buf0 : Buf C2) :
    ∃ b, (lines (leaky N) mask (fun _ => vec 1 0) (fun _ => vec (3 / 5 : ℝ) (4 / 5 : ℝ)) (fun _ _ => vec 0 0) guess buf0)[1]? =
        some b ∧ b.yield = 1 ∧
      Oct.Spec.yield (leaky N) b.phii
        (targets (leaky N) (fun _ => vec (3 / 5 : ℝ) (4 / 5 : ℝ)) fun _ _ => vec 0 0) = 9 / 25 := by
  obtain ⟨b, hb, hf⟩ := one_line (leaky N) rfl (by show (0 : ℝ) < 1; norm_num) mask (fun _ => vec 1 0)
    (fun _ => vec (3 / 5 : ℝ) (4 / 5 : ℝ)) (fun _ _ => vec 0 0) guess buf0
  have hb1 : (lines (leaky N) mask (fun _ => vec 1 0) (fun _ => vec (3 / 5 : ℝ) (4 / 5 : ℝ)) (fun _ _ => vec 0 0) guess
      buf0)[1]? = some b := by
    unfold lines; rw [hb]; rfl
  have hphii := (C240_iteration (leaky N) mask (fun _ => vec 1 0) (fun _ => vec (3 / 5 : ℝ) (4 / 5 : ℝ)) (fun _ _ => vec 0 0)
    guess buf0 hN 0 _ b rfl hb1).2.2.2
  have hp : ∀ t, b.phii t = vec 1 0 := fun t => by rw [hphii t, leaky_evolve]
  have htg : targets (leaky N) (fun _ => vec (3 / 5 : ℝ) (4 / 5 : ℝ)) (fun _ _ => vec 0 0) =
      fun _ => vec (3 / 5 : ℝ) (4 / 5 : ℝ) := rfl
  refine ⟨b, hb1, ?_, ?_⟩
  · obtain ⟨st, _, h2⟩ := (run_lines (leaky N) mask (fun _ => vec 1 0) (fun _ => vec (3 / 5 : ℝ) (4 / 5 : ℝ))
      (fun _ _ => vec 0 0) guess buf0).1 0 _ b rfl hb1
    have hy : b.yield = Oct.Spec.yield (leaky N) b.phii
        (freqIteration (leaky N) mask (fun _ => vec 1 0) (targets (leaky N) (fun _ => vec (3 / 5 : ℝ) (4 / 5 : ℝ))
          fun _ _ => vec 0 0) st).phit := by rw [h2]; exact report_yield _ _ _
    have ht : ∀ t, (freqIteration (leaky N) mask (fun _ => vec 1 0) (targets (leaky N) (fun _ => vec (3 / 5 : ℝ) (4 / 5 : ℝ))
          fun _ _ => vec 0 0) st).phit t = vec 1 0 := by
      intro t
      rw [(freqIteration_eq _ mask _ _ st).2.2.2.2.1, (iterateFreq_spec _ mask _ _).2.2.1 t]
      obtain ⟨b1, b2⟩ := synced_back (leaky N) mask (entered (leaky N) (fun _ => vec 1 0)
        (targets (leaky N) (fun _ => vec (3 / 5 : ℝ) (4 / 5 : ℝ)) fun _ _ => vec 0 0) st) rfl rfl
      generalize synced (leaky N) mask (entered (leaky N) (fun _ => vec 1 0)
        (targets (leaky N) (fun _ => vec (3 / 5 : ℝ) (4 / 5 : ℝ)) fun _ _ => vec 0 0) st) = S at b1 b2 ⊢
      rw [b2 t]
      have hchi : ∀ k s, N = s + k → S.buf t s = vec (3 / 5 : ℝ) (4 / 5 : ℝ) ∨ S.buf t s = vec 1 0 := by
        intro k
        induction k with
        | zero =>
          intro s hs
          obtain rfl : s = N := by omega
          exact .inl (b1.last t)
        | succ k ih =>
          intro s hs
          right
          rw [b1.step t s (show s < N by omega)]
          rcases ih (s + 1) (by omega) with h | h
          · rw [h]; exact absorb2_vec (3 / 5) (by norm_num) _
          · rw [h]
            have := absorb2_vec 1 one_pos 0
            rw [Complex.ofReal_one] at this
            exact this
      have h0 : S.buf t 0 = vec 1 0 := by
        rw [b1.step t 0 hN]
        rcases hchi (N - 1) 1 (by omega) with h | h
        · rw [h]; exact absorb2_vec (3 / 5) (by norm_num) _
        · rw [h]
          have := absorb2_vec 1 one_pos 0
          rw [Complex.ofReal_one] at this
          exact this
      rw [h0]
      exact leaky_evolve N _ _
    rw [hy]
    unfold Oct.Spec.yield
    show (∑ t ∈ Finset.range 1, _) = _
    rw [Finset.sum_range_one, hp 0, ht 0, vec_inner]
    norm_num
  · rw [htg]
    unfold Oct.Spec.yield
    show (∑ t ∈ Finset.range 1, _) = _
    rw [Finset.sum_range_one, hp 0, vec_inner]
    norm_num

/-! ### The hypotheses can be met -/

/-- A propagator that depends on the field. -/
def turning (N : Nat) : Setup ℂ :=
  { still N with
    iterations := 3
    fwd := fun _ e x => Complex.exp (Complex.I * (e 0 : ℝ)) * x
    bwd := fun _ e x => Complex.exp (-(Complex.I * (e 0 : ℝ))) * x }

theorem turning_reversible (N : Nat) : Spec.Reversible (turning N) := by
  refine ⟨rfl, fun s e x => ?_⟩
  show Complex.exp _ * (Complex.exp _ * x) = x
  rw [← mul_assoc, ← Complex.exp_add, add_neg_cancel, Complex.exp_zero, one_mul]

/-- C240: there is an iteration of a run, with a mask that is neither zero nor one. -/
example : ∃ a b, (lines (still 4) (fun k => 1 / (k + 1)) (fun _ => 1) (fun _ => Complex.I) (fun _ _ => 0)
    (fun _ p => p) (fun _ _ => 0))[0]? = some a ∧ (lines (still 4) (fun k => 1 / (k + 1)) (fun _ => 1) (fun _ => Complex.I)
    (fun _ _ => 0) (fun _ p => p) (fun _ _ => 0))[0 + 1]? = some b ∧ 0 < (still 4).steps := by
  obtain ⟨b, hb, _⟩ := one_line (still 4) rfl (by show (0 : ℝ) < 1; norm_num) (fun k => 1 / (k + 1)) (fun _ => 1)
    (fun _ => Complex.I) (fun _ _ => 0) (fun _ p => p) (fun _ _ => 0)
  exact ⟨_, b, rfl, by unfold lines; rw [hb]; rfl, by decide⟩

/-- C240: two fields with the same spectrum. -/
example : ∀ j, j < 4 → (fun j : Nat => (j : ℝ)) j = (fun j : Nat => if j < 4 then (j : ℝ) else 0) j :=
  C240_unique 4 _ _ fun k _ => Finset.sum_congr rfl fun j hj => by
    dsimp only
    rw [if_pos (Finset.mem_range.1 hj)]

/-- C241: three iterations with a propagator that depends on the field. -/
example (guess : Nat → ℝ) (N : Nat) (buf0 : Buf ℂ) :
    (freqRun (turning N) (fun _ => 1) (fun _ => 1) (fun _ => Complex.I) (fun _ _ => 0) (fun _ => guess) buf0).final =
      (run (turning N) (fun _ => 1) (fun _ => Complex.I) (fun _ _ => 0) (fun _ => guess) buf0).final :=
  (C241_krotov (turning N) (fun _ => 1) _ _ _ (fun _ => guess) buf0 rfl (fun _ _ => rfl) (fun _ => rfl)
    (.inr (turning_reversible N))).2.2.1

/-- C242, C243: a run with a propagator that depends on the field and a constant shape. -/
example (N : Nat) : Spec.Reversible (turning N) ∧ (turning N).operators = false ∧ (turning N).moving = false ∧
    ∀ s, (turning N).shape s = 1 := ⟨turning_reversible N, rfl, rfl, fun _ => rfl⟩

end

end QDng.OctFreq
