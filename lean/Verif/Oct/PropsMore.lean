import Verif.Oct.Props

/-
Further properties of the optimal control program.
-/

namespace QDng.Oct

open Spec

noncomputable section

variable {V : Type} [NormedAddCommGroup V] [InnerProductSpace ℂ V]

/-! ### The zero reference method -/

/-- The field of an iteration of the method rabitz and what it adds to the laser objective. -/
theorem rabitz_term (n sh al im E : ℝ) (hal : 0 < al) (hE : E = -1 * sh / (al * n) * im) :
    -1 / n * im * E = al * E ^ 2 / sh := by
  by_cases hs : sh = 0
  · subst hs; simp [hE]
  by_cases hn : n = 0
  · subst hn; simp [hE]
  · rw [hE]; field_simp

theorem rabitz_gain (n sh al im E E' dt K d k : ℝ) (hal : 0 < al) (hsh : 0 ≤ sh) (hn : 0 ≤ n)
    (hE' : E' = -1 * sh / (al * n) * im) (hE : ∃ i, E = -1 * sh / (al * n) * i) (hK : (2 * K + k) * sh ≤ al * dt) :
    2 * (dt * (E' - E)) * im + 2 * n * (K * (E' - E) ^ 2 + d * |E' - E|) + n * dt * (al * E' ^ 2 / sh - al * E ^ 2 / sh) ≤
      2 * n * d * |E' - E| - n * k * (E' - E) ^ 2 := by
  rcases hsh.eq_or_lt with rfl | hsh
  · obtain ⟨i, hE⟩ := hE
    have h1 : E' = 0 := by rw [hE']; simp
    have h2 : E = 0 := by rw [hE]; simp
    rw [h1, h2]; simp
  rcases hn.eq_or_lt with rfl | hn
  · obtain ⟨i, hE⟩ := hE
    have h1 : E' = 0 := by rw [hE']; simp
    have h2 : E = 0 := by rw [hE]; simp
    rw [h1, h2]; simp
  · have him : im = -(al * n * E' / sh) := by rw [hE']; field_simp
    have h1 : 2 * (dt * (E' - E)) * im + n * dt * (al * E' ^ 2 / sh - al * E ^ 2 / sh) =
        -(n * (al * dt / sh) * (E' - E) ^ 2) := by
      rw [him]; field_simp; ring
    have h2 : 2 * K + k ≤ al * dt / sh := by rw [le_div_iff₀ hsh]; exact hK
    have h3 : n * (2 * K + k) * (E' - E) ^ 2 ≤ n * (al * dt / sh) * (E' - E) ^ 2 := by gcongr
    linarith

theorem line_report (c : Setup V) (psiI psiT : Nat → V) (series : Nat → Nat → V) (guess : Fields) (buf0 : Buf V)
    (hs : 0 < c.steps) (i : Nat) (a : Line V)
    (h : ((run c psiI psiT series guess buf0).guess :: (run c psiI psiT series guess buf0).lines)[i]? = some a) :
    ∃ st wt, a = report c st wt := by
  cases i with
  | zero =>
    rw [List.getElem?_cons_zero, Option.some.injEq] at h
    subst h
    exact ⟨_, _, rfl⟩
  | succ i =>
    obtain ⟨p, hp⟩ : ∃ p, ((run c psiI psiT series guess buf0).guess ::
        (run c psiI psiT series guess buf0).lines)[i]? = some p := by
      have := (List.getElem?_eq_some_iff.1 h).1
      exact ⟨_, List.getElem?_eq_getElem (by omega)⟩
    obtain ⟨st, st', _, _, h3, _⟩ := (run_follows c psiI psiT series guess buf0 hs).1 i p a hp h
    exact ⟨_, _, h3⟩

theorem report_objective (c : Setup V) (st : St V) (wt : Nat → V) (ho : c.operators = false) (hp : c.phase = false) :
    (report c st wt).objective = (report c st wt).yield - (report c st wt).laserObj := by
  rw [report_yield]
  show (ovSum c st.phii wt c.ntargets).re - st.obj = _ - st.obj
  rw [ovSum_eq]
  unfold Spec.yield
  simp only [ho, hp, Bool.false_eq_true, if_false]
  rw [← Complex.ofReal_sum, Complex.ofReal_re]
  congr 1
  exact Finset.sum_congr rfl fun t _ => (sq _).symm

/-- C126: the method with zero reference field (rabitz), targets that are wave functions, no phase: from the first
iteration on, the yield minus `n` times the laser objective does not fall, if `2 K * shape <= alpha * dt`; `n` is the
number of targets. -/
theorem C126_rabitz (c : Setup V) (psiI psiT : Nat → V) (series : Nat → Nat → V) (guess : Fields) (buf0 : Buf V)
    (K d k : ℝ) (h : Proper c psiI guess K d) (hm : c.method = .rabitz) (ho : c.operators = false) (hp : c.phase = false)
    (hT : ∀ t, t < c.ntargets → ‖psiT t‖ ≤ 1) (hK : ∀ s, s < c.steps → (2 * K + k) * c.shape s ≤ c.alpha * c.dt)
    (i : Nat) (a b : Line V) (ha : (run c psiI psiT series guess buf0).lines[i]? = some a)
    (hb : (run c psiI psiT series guess buf0).lines[i + 1]? = some b) :
    a.yield - c.ntargets * a.laserObj + c.ntargets * k * (∑ s ∈ Finset.range c.steps, (b.fields 0 s - a.fields 0 s) ^ 2) -
      2 * c.ntargets * d * (∑ s ∈ Finset.range c.steps, |b.fields 0 s - a.fields 0 s|) ≤
      b.yield - c.ntargets * b.laserObj := by
  obtain ⟨p, hpp⟩ : ∃ p, ((run c psiI psiT series guess buf0).guess ::
      (run c psiI psiT series guess buf0).lines)[i]? = some p := by
    have := (List.getElem?_eq_some_iff.1 ha).1
    exact ⟨_, List.getElem?_eq_getElem (by simp only [List.length_cons]; omega)⟩
  obtain ⟨_, _, _, _, chi0, g5, g6, g7⟩ :=
    consecutive_spec c psiI psiT series guess buf0 h.steps h.fixed h.same p a ⟨i, hpp, ha⟩
  obtain ⟨h1, h2, h3, h4, chi, h5, h6, h7⟩ :=
    consecutive_spec c psiI psiT series guess buf0 h.steps h.fixed h.same a b ⟨i + 1, ha, hb⟩
  have hne : c.method ≠ .rabitzfb := by rw [hm]; decide
  have hlast : lastOf c psiI psiT a.fields = psiT := by unfold lastOf; rw [ho]; rfl
  rw [hlast] at h5
  have hgain := gain_square h.responds h.second h.first h.gobbler hp h5 h1 h2 h.initial hT
  have fa : ∀ s, s < c.steps → a.fields 0 s = -1 * c.shape s / (c.alpha * c.ntargets) * imAt c psiI chi0 a.fields s := by
    intro s hs
    rw [g6.field 0 s hs]; unfold newField imAt; rw [hm]
  have fb : ∀ s, s < c.steps → b.fields 0 s = -1 * c.shape s / (c.alpha * c.ntargets) * imAt c psiI chi b.fields s := by
    intro s hs
    rw [h6.field 0 s hs]; unfold newField imAt; rw [hm]
  have la : a.laserObj = (∑ s ∈ Finset.range c.steps, c.alpha * a.fields 0 s ^ 2 / c.shape s) * c.dt := by
    rw [g7 hne]
    congr 1
    refine Finset.sum_congr rfl fun s hs => ?_
    unfold objTerm
    rw [hm]
    exact rabitz_term _ _ _ _ _ h.alpha (fa s (Finset.mem_range.1 hs))
  have lb : b.laserObj = (∑ s ∈ Finset.range c.steps, c.alpha * b.fields 0 s ^ 2 / c.shape s) * c.dt := by
    rw [h7 hne]
    congr 1
    refine Finset.sum_congr rfl fun s hs => ?_
    unfold objTerm
    rw [hm]
    exact rabitz_term _ _ _ _ _ h.alpha (fb s (Finset.mem_range.1 hs))
  have hsum := Finset.sum_le_sum fun s (hs : s ∈ Finset.range c.steps) =>
    rabitz_gain c.ntargets (c.shape s) c.alpha (imAt c psiI chi b.fields s) (a.fields 0 s) (b.fields 0 s) c.dt K d k h.alpha
      (h.shape s (Finset.mem_range.1 hs)) (Nat.cast_nonneg _) (fb s (Finset.mem_range.1 hs))
      ⟨_, fa s (Finset.mem_range.1 hs)⟩ (hK s (Finset.mem_range.1 hs))
  rw [Finset.sum_add_distrib, Finset.sum_sub_distrib, ← Finset.mul_sum, ← Finset.mul_sum, ← Finset.mul_sum,
    Finset.sum_sub_distrib] at hsum
  rw [la, lb, h3, h4]
  unfold Spec.yield
  simp only [ho, hp, Bool.false_eq_true, if_false]
  simp only [norm_inner_symm (evolve c _ _ _)]
  linarith

/-- C126: with one target this is the objective of the report. -/
theorem C126_rabitz_objective (c : Setup V) (psiI psiT : Nat → V) (series : Nat → Nat → V) (guess : Fields)
    (buf0 : Buf V) (K d : ℝ) (h : Proper c psiI guess K d) (hm : c.method = .rabitz) (ho : c.operators = false)
    (hp : c.phase = false) (hn : c.ntargets = 1) (hT : ‖psiT 0‖ ≤ 1)
    (hK : ∀ s, s < c.steps → 2 * K * c.shape s ≤ c.alpha * c.dt)
    (i : Nat) (a b : Line V) (ha : (run c psiI psiT series guess buf0).lines[i]? = some a)
    (hb : (run c psiI psiT series guess buf0).lines[i + 1]? = some b) :
    a.objective - 2 * d * (∑ s ∈ Finset.range c.steps, |b.fields 0 s - a.fields 0 s|) ≤ b.objective := by
  have h1 := C126_rabitz c psiI psiT series guess buf0 K d 0 h hm ho hp
    (fun t ht => by rw [hn, Nat.lt_one_iff] at ht; rw [ht]; exact hT) (fun s hs => by rw [add_zero]; exact hK s hs)
    i a b ha hb
  obtain ⟨st, wt, e1⟩ := line_report c psiI psiT series guess buf0 h.steps (i + 1) a ha
  obtain ⟨st', wt', e2⟩ := line_report c psiI psiT series guess buf0 h.steps (i + 2) b hb
  have o1 := report_objective c st wt ho hp
  have o2 := report_objective c st' wt' ho hp
  rw [← e1] at o1
  rw [← e2] at o2
  rw [hn] at h1
  simp only [Nat.cast_one, mul_zero, zero_mul, one_mul, add_zero, mul_one] at h1
  rw [o1, o2]
  exact h1

example (steps iterations : Nat) (hs : 0 < steps) (U : Qubit ≃ₗᵢ[ℂ] Qubit) (buf0 : Buf Qubit) (i : Nat) (a b : Line Qubit) :
    let r := run (kicked U flip .rabitz false false steps iterations 5 fun _ x => x) (fun _ => level 0) (fun _ => level 1)
      (fun _ _ => 0) (fun _ _ => 1) buf0
    r.lines[i]? = some a → r.lines[i + 1]? = some b → a.objective ≤ b.objective := by
  intro r h1 h2
  have h := C126_rabitz_objective _ (fun _ => level 0) (fun _ => level 1) (fun _ _ => 0) (fun _ _ => 1) buf0 (5 / 2) 0
    (kicked_proper .rabitz false false steps iterations hs 5 (by norm_num) (fun _ x => x) U) rfl rfl rfl rfl
    (level_norm 1).le (fun s _ => by show 2 * (5 / 2) * (1 : ℝ) ≤ 5 * 1; norm_num) i a b h1 h2
  simp only [mul_zero, zero_mul, sub_zero] at h
  exact h

/-! ### Moving targets -/

/-- C127: with moving targets the correction does not use them: the propagation of the guess overwrites the series that
has been read.  Krotov with a Hermitian coupling then never changes the field, whatever the targets are. -/
theorem C127_moving_violated (c : Setup V) (psiI psiT : Nat → V) (series : Nat → Nat → V) (guess : Fields)
    (buf0 : Buf V) (hs : 0 < c.steps) (hm : c.method = .krotov) (hmv : c.moving = true) (ho : c.operators = false)
    (hmu : ∀ x, (inner ℂ x (c.mu x) : ℂ).im = 0) (hgu : ∀ l s, s < c.steps → guess l s = guess 0 s) :
    ∀ a ∈ (run c psiI psiT series guess buf0).lines, ∀ l s, s < c.steps → a.fields l s = guess l s := by
  have hz : ∀ w : Nat → V, calcCorr c w w = 0 := by
    intro w
    unfold calcCorr
    rw [corrLoop_eq]
    refine Finset.sum_eq_zero fun t _ => ?_
    split
    · exact hmu _
    · rw [Complex.mul_im, hmu, mul_zero, zero_add, show (inner ℂ (w t) (w t) : ℂ).im = 0 from inner_self_im (𝕜 := ℂ) (w t), zero_mul]
  obtain ⟨g1, g2, _, _, _, g6⟩ := start_fields c psiI psiT series guess buf0
  have h := mainLoop_chain c psiI (targets c psiT series) hs c.iterations true 1 (1, 1, 1)
    (start c psiI psiT series guess buf0).2 ⟨fun _ h => absurd h (by decide), fun _ h => absurd h (by decide)⟩
    (fun st => (∀ t p, p ≤ c.steps → st.buf t p = evolve c guess (psiI t) p) ∧
      ∀ l s, s < c.steps → st.lb l s = guess l s) ⟨g6, fun l s _ => by rw [g1]⟩
    (fun _ line => ∀ l s, s < c.steps → line.fields l s = guess l s) (by
    intro first st _ hP
    obtain ⟨S, hS⟩ : ∃ S, S = ({ st with phii := psiI, phit := targets c psiT series, obj := 0 } : St V) := ⟨_, rfl⟩
    have hne : c.method ≠ .rabitzfb := by rw [hm]; decide
    have hit : iteration c psiI (targets c psiT series) first st =
        { iterate c psiI S with obj := (iterate c psiI S).obj * c.dt } := by
      rw [hS]
      simp only [iteration, if_neg hne, if_neg (fun h : c.method = .rabitzfb ∧ first = false => hne h.1), ho,
        Bool.false_eq_true, if_false]
    have hsync : syncTarget c S = S := by
      unfold syncTarget
      simp only [ho, hmv, Bool.false_eq_true, if_false, if_true]
    obtain ⟨hf, k2, k3, _, _⟩ := iterate_forth c psiI S
    rw [hsync] at hf k3
    have hb : ∀ t p, p ≤ c.steps → S.buf t p = evolve c guess (psiI t) p := by rw [hS]; exact hP.1
    have hl : ∀ l s, s < c.steps → S.lb l s = guess l s := by rw [hS]; exact hP.2
    have hkey : ∀ s, s < c.steps → ∀ l, (iterate c psiI S).lf l s = guess l s := by
      intro s
      induction s using Nat.strong_induction_on with
      | _ s ih =>
        intro hsl l
        rw [hf.field l s hsl]
        have h1 : calcCorr c (fun t => evolve c (iterate c psiI S).lf (psiI t) s) (fun t => S.buf t s) = 0 := by
          rw [← hz fun t => evolve c guess (psiI t) s]
          exact calcCorr_congr c
            (fun t => evolve_congr c _ _ _ _ fun l p hp => ih p hp (by omega) l) fun t => hb t s (by omega)
        rw [h1]
        unfold newField
        rw [hm]
        show S.lb 0 s - _ * 0 = _
        rw [mul_zero, sub_zero, hl 0 s hsl, hgu l s hsl]
    intro st'
    have e1 : st'.lf = (iterate c psiI S).lf := by
      show (iteration c psiI (targets c psiT series) first st).lf = _
      rw [hit]
    have e2 : st'.buf = (iterate c psiI S).buf := by
      show (iteration c psiI (targets c psiT series) first st).buf = _
      rw [hit]
    refine ⟨fun l s hsl => ?_, fun t p hp => ?_, fun l s hsl => ?_⟩
    · show st'.lf l s = _
      rw [e1]
      exact hkey s hsl l
    · show st'.buf t p = _
      rw [e2, k3]
      exact hb t p hp
    · show st'.lf l s = _
      rw [e1]
      exact hkey s hsl l)
  intro a ha
  obtain ⟨_, _, h2⟩ := h a ha
  exact h2

/-- The theorem is about runs that exist: the two level system, with a series as target. -/
example (steps iterations : Nat) (hs : 0 < steps) (U : Qubit ≃ₗᵢ[ℂ] Qubit) (buf0 : Buf Qubit)
    (series : Nat → Nat → Qubit) :
    let c := { kicked U flip .krotov false false steps iterations 3 (fun _ x => x) with moving := true }
    ∀ a ∈ (run c (fun _ => level 0) (fun _ => level 1) series (fun _ _ => 1) buf0).lines,
      ∀ l s, s < steps → a.fields l s = 1 := by
  intro c
  exact C127_moving_violated c _ _ series (fun _ _ => 1) buf0 hs rfl rfl rfl (fun x => by
    have h := flip_symm x x
    have h2 : (inner ℂ x (flip x) : ℂ) = (starRingEnd ℂ) (inner ℂ x (flip x)) := by
      conv_lhs => rw [← h]
      exact (inner_conj_symm _ _).symm
    exact Complex.conj_eq_iff_im.1 h2.symm) fun _ _ _ => rfl

end

end QDng.Oct
