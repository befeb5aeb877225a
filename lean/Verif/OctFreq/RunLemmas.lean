import Verif.Oct.Props
import Verif.OctFreq.Lemmas
import Verif.OctFreq.Spec

/-
Lemmas about the main loop of the frequency shaping method and its comparison with Krotov's method.
-/

namespace QDng.OctFreq

open QDng.Oct QDng.Oct.Spec

noncomputable section

variable {V : Type} [NormedAddCommGroup V] [InnerProductSpace ℂ V]

theorem spectrum_eq (N : Nat) (x : Nat → ℝ) (k : Nat) : Spec.spectrum N x k = r2c N x k := by
  unfold Spec.spectrum r2c tw
  refine Finset.sum_congr rfl fun j _ => ?_
  rw [← Complex.exp_nat_mul]
  congr 2
  push_cast
  ring

theorem corrLoop_eq (c : Setup V) (wi wt : Nat → V) (n : Nat) :
    corrLoop c wi wt n = ∑ t ∈ Finset.range n, (if c.phase then (inner ℂ (wt t) (c.mu (wi t)) : ℂ)
      else (inner ℂ (wi t) (wt t) : ℂ) * inner ℂ (wt t) (c.mu (wi t))).im := by
  induction n with
  | zero => rfl
  | succ n ih => rw [corrLoop, Finset.sum_range_succ, ih]

theorem corr_eq (c : Setup V) (wi wt : Nat → V) : calcCorr c wi wt = Spec.corr c wi wt := corrLoop_eq c wi wt _

/-- The lines of the main loop. -/
theorem mainLoop_lines (c : Setup V) (mask : Nat → ℝ) (psiI psiT : Nat → V) (k : Nat) (delta : ℝ) (d : ℝ × ℝ × ℝ)
    (st : FSt V) (prev : Line V) (hp : prev.fields = st.lb) :
    (∀ i a b, (prev :: (freqMainLoop c mask psiI psiT k delta d st).1)[i]? = some a →
      (prev :: (freqMainLoop c mask psiI psiT k delta d st).1)[i + 1]? = some b →
      ∃ s : FSt V, s.lb = a.fields ∧ b = report c (freqIteration c mask psiI psiT s).toSt
        (freqIteration c mask psiI psiT s).phit) ∧
    ∀ x, (prev :: (freqMainLoop c mask psiI psiT k delta d st).1).getLast? = some x →
      (freqMainLoop c mask psiI psiT k delta d st).2.1.lb = x.fields := by
  induction k generalizing delta d st prev with
  | zero =>
    refine ⟨fun i a b _ hb => ?_, fun x hx => ?_⟩
    · simp [freqMainLoop] at hb
    · simp [freqMainLoop] at hx
      rw [← hx, hp]; rfl
  | succ k ih =>
    rw [freqMainLoop]
    by_cases hd : delta > c.convergence
    · rw [if_pos hd]
      dsimp only
      obtain ⟨S, hS⟩ : ∃ S, S = freqIteration c mask psiI psiT st := ⟨_, rfl⟩
      rw [← hS]
      have h := ih (abs (0 + abs (d.2.1 - d.2.2) + abs (d.2.2 - abs (report c S.toSt S.phit).yield)))
        (d.2.1, d.2.2, abs (report c S.toSt S.phit).yield) (exchange S) (report c S.toSt S.phit) rfl
      refine ⟨fun i a b ha hb => ?_, fun x hx => ?_⟩
      · cases i with
        | zero =>
          simp only [List.getElem?_cons_zero, Option.some.injEq, Nat.zero_add, List.getElem?_cons_succ] at ha hb
          refine ⟨st, ?_, ?_⟩
          · rw [← ha, hp]
          · rw [← hb, hS]
        | succ i => exact h.1 i a b ha hb
      · rw [List.getLast?_cons_cons] at hx
        exact h.2 x hx
    · rw [if_neg hd]
      refine ⟨fun i a b _ hb => ?_, fun x hx => ?_⟩
      · simp at hb
      · simp at hx
        rw [← hx, hp]

theorem run_lines (c : Setup V) (mask : Nat → ℝ) (psiI psiT : Nat → V) (series : Nat → Nat → V) (guess : Fields)
    (buf0 : Buf V) :
    (∀ i a b, ((freqRun c mask psiI psiT series guess buf0).guess :: (freqRun c mask psiI psiT series guess buf0).lines)[i]? =
        some a →
      ((freqRun c mask psiI psiT series guess buf0).guess :: (freqRun c mask psiI psiT series guess buf0).lines)[i + 1]? =
        some b →
      ∃ s : FSt V, s.lb = a.fields ∧ b = report c (freqIteration c mask psiI (targets c psiT series) s).toSt
        (freqIteration c mask psiI (targets c psiT series) s).phit) ∧
    ∀ x, ((freqRun c mask psiI psiT series guess buf0).guess :: (freqRun c mask psiI psiT series guess buf0).lines).getLast? =
        some x → (freqRun c mask psiI psiT series guess buf0).final = x.fields 0 := by
  obtain ⟨h1, _, h3, _⟩ := start_fields c psiI psiT series guess buf0
  have h := mainLoop_lines c mask psiI (targets c psiT series) c.iterations 1 (1, 1, 1)
    { (start c psiI psiT series guess buf0).2 with crossed := none } (start c psiI psiT series guess buf0).1
    (h3.trans h1.symm)
  exact ⟨h.1, fun x hx => congrFun (h.2 x hx) 0⟩

/-- The state `IterateFreq` is called with. -/
def entered (c : Setup V) (psiI psiT : Nat → V) (st : FSt V) : FSt V :=
  { st with phii := psiI, phit := if c.operators then psiI else psiT, obj := 0 }

theorem freqIteration_eq (c : Setup V) (mask : Nat → ℝ) (psiI psiT : Nat → V) (st : FSt V) :
    (freqIteration c mask psiI psiT st).lf = (iterateFreq c mask psiI (entered c psiI psiT st)).lf ∧
    (freqIteration c mask psiI psiT st).lb = (iterateFreq c mask psiI (entered c psiI psiT st)).lb ∧
    (freqIteration c mask psiI psiT st).buf = (iterateFreq c mask psiI (entered c psiI psiT st)).buf ∧
    (freqIteration c mask psiI psiT st).phii = (iterateFreq c mask psiI (entered c psiI psiT st)).phii ∧
    (freqIteration c mask psiI psiT st).phit = (iterateFreq c mask psiI (entered c psiI psiT st)).phit ∧
    (freqIteration c mask psiI psiT st).obj = (iterateFreq c mask psiI (entered c psiI psiT st)).obj * c.dt :=
  ⟨rfl, rfl, rfl, rfl, rfl, rfl⟩

/-- The targets propagated backward. -/
theorem synced_back (c : Setup V) (mask : Nat → ℝ) (st : FSt V) (ho : c.operators = false) (hm : c.moving = false) :
    Back c (fun _ => masked c mask st) st.phit (synced c mask st).buf ∧
    ∀ t, (synced c mask st).phit t = (synced c mask st).buf t 0 := by
  obtain ⟨_, e2, e3, _, _, e6⟩ := shapeOld_eq c.steps mask st
  have hlb : (shapeOld c.steps mask st).lb = fun _ => masked c mask st := funext e2
  have he : synced c mask st = { (shapeOld c.steps mask st).toSt with
      phit := (propagateBackward c (shapeOld c.steps mask st).lb (shapeOld c.steps mask st).phit
        (shapeOld c.steps mask st).buf).1
      buf := (propagateBackward c (shapeOld c.steps mask st).lb (shapeOld c.steps mask st).phit
        (shapeOld c.steps mask st).buf).2 } := by
    unfold synced syncTarget
    simp [ho, hm]
  rw [he]
  dsimp only
  rw [hlb, e6, e3]
  refine ⟨propagateBackward_spec c _ _ _, fun t => ?_⟩
  exact (backwardLoop_spec c _ c.steps st.phit (setBuf st.buf c.steps st.phit) (fun t => by simp [setBuf])).1 t

/-- Forward along a way that was gone backward. -/
theorem evolve_back {c : Setup V} (hr : Spec.Reversible c) {f : Fields} {last : Nat → V} {chi : Buf V}
    (h : Back c f last chi) (t s : Nat) (hs : s ≤ c.steps) : evolve c f (chi t 0) s = chi t s := by
  induction s with
  | zero => rfl
  | succ s ih =>
    rw [evolve_succ, ih (by omega), h.step t s (by omega)]
    unfold stepF stepB
    rw [hr.nogobbler]
    exact hr.undo s _ _

theorem phitAt_moving (c : Setup V) (hm : c.moving = true) (hg : c.gobbler = none) (f : Fields) (x : V) (n : Nat) :
    phitAt c f x n = x := by
  unfold phitAt
  rw [if_pos hm, hg]
  exact congrFun (Function.iterate_id n) x

theorem synced_moving (c : Setup V) (mask : Nat → ℝ) (st : FSt V) (ho : c.operators = false) (hm : c.moving = true) :
    (synced c mask st).phit = st.phit ∧ (synced c mask st).buf = st.buf := by
  obtain ⟨_, _, e3, _, _, e6⟩ := shapeOld_eq c.steps mask st
  have he : synced c mask st = (shapeOld c.steps mask st).toSt := by
    unfold synced syncTarget
    simp [ho, hm]
  rw [he]
  exact ⟨e6, e3⟩

/-- The targets the report is about. -/
theorem reported_target (c : Setup V) (mask : Nat → ℝ) (psiI psiT : Nat → V) (st : FSt V) (hr : Spec.Reversible c)
    (ho : c.operators = false) (t : Nat) : (freqIteration c mask psiI psiT st).phit t = psiT t := by
  rw [(freqIteration_eq c mask psiI psiT st).2.2.2.2.1,
    (iterateFreq_spec c mask psiI (entered c psiI psiT st)).2.2.1 t]
  have hphit : (entered c psiI psiT st).phit = psiT := by unfold entered; simp [ho]
  cases hm : c.moving
  · obtain ⟨h1, h2⟩ := synced_back c mask (entered c psiI psiT st) ho hm
    unfold phitAt
    rw [if_neg (by simp [hm]), h2, evolve_back hr h1 t c.steps le_rfl, h1.last, hphit]
  · rw [phitAt_moving c hm hr.nogobbler, (synced_moving c mask _ ho hm).1, hphit]

/-! ### A mask of ones -/

theorem ovSum_congr (c : Setup V) (wi wt wt' : Nat → V) (h : c.operators = false → ∀ t, wt t = wt' t) (n : Nat) :
    ovSum c wi wt n = ovSum c wi wt' n := by
  induction n with
  | zero => rfl
  | succ n ih =>
    rw [ovSum, ovSum, ih]
    congr 1
    cases ho : c.operators
    · rw [h ho n]
    · rfl

theorem report_congr (c : Setup V) (s s' : St V) (wt wt' : Nat → V) (h1 : s.phii = s'.phii) (h2 : s.lf = s'.lf)
    (h3 : s.obj = s'.obj) (h : c.operators = false → ∀ t, wt t = wt' t) :
    Spec.shown (report c s wt) = Spec.shown (report c s' wt') := by
  unfold Spec.shown report
  dsimp only
  rw [h1, h2, h3, ovSum_congr c s'.phii wt wt' h]

theorem sync_congr (c : Setup V) (s s' : St V) (h1 : s.lb = s'.lb) (h2 : s.phit = s'.phit) (h3 : s.buf = s'.buf) :
    (syncTarget c s).buf = (syncTarget c s').buf := by
  unfold syncTarget
  cases c.operators
  · cases c.moving
    · simp only [Bool.false_eq_true, if_false]
      rw [h1, h2, h3]
    · simp only [Bool.false_eq_true, if_false, if_true]
      exact h3
  · simp only [if_true]
    rw [h1, h2, h3]

theorem krotov_phit (c : Setup V) (psiI psiT : Nat → V) (first : Bool) (st : St V) (hk : c.method = .krotov)
    (ho : c.operators = false) (t : Nat) : (iteration c psiI psiT first st).phit t = psiT t := by
  unfold iteration
  simp only [hk, ho, reduceCtorEq, false_and, if_false, Bool.false_eq_true]
  have h := (iterate_forth c psiI { st with phii := psiI, phit := psiT, obj := 0 }).2.2.2.1
  rw [h]
  cases hm : c.moving
  · rw [if_neg (by simp)]
    have he : (syncTarget c { st with phii := psiI, phit := psiT, obj := 0 }).buf =
        (propagateBackward c st.lb psiT st.buf).2 := by
      unfold syncTarget
      simp [ho, hm]
    rw [he]
    exact (propagateBackward_spec c st.lb psiT st.buf).last t
  · rw [if_pos rfl]
    have he : syncTarget c { st with phii := psiI, phit := psiT, obj := 0 } =
        { st with phii := psiI, phit := psiT, obj := 0 } := by
      unfold syncTarget
      simp [ho, hm]
    rw [he]

/-- States of the two methods that belong together. -/
structure Rel (c : Setup V) (st : St V) (fs : FSt V) : Prop where
  lb : fs.lb = st.lb
  buf : fs.buf = st.buf
  same : ∀ l, st.lb l = st.lb 0
  tail : ∀ l p, c.steps ≤ p → st.lf l p = st.lb 0 p

/-- One iteration of both methods. -/
theorem rel_iteration (c : Setup V) (mask : Nat → ℝ) (psiI psiT : Nat → V) (first : Bool) (st : St V) (fs : FSt V)
    (hk : c.method = .krotov) (hmask : ∀ k, k ≤ c.steps / 2 → mask k = 1) (h : Rel c st fs) :
    (freqIteration c mask psiI psiT fs).lf = (iteration c psiI psiT first st).lf ∧
    (freqIteration c mask psiI psiT fs).lb = (iteration c psiI psiT first st).lb ∧
    (freqIteration c mask psiI psiT fs).buf = (iteration c psiI psiT first st).buf ∧
    (freqIteration c mask psiI psiT fs).phii = (iteration c psiI psiT first st).phii ∧
    (freqIteration c mask psiI psiT fs).obj = (iteration c psiI psiT first st).obj ∧
    (∀ l, (iteration c psiI psiT first st).lf l = (iteration c psiI psiT first st).lf 0) ∧
    (∀ l p, c.steps ≤ p → (iteration c psiI psiT first st).lf l p = st.lb 0 p) ∧
    (iteration c psiI psiT first st).lb = st.lb := by
  obtain ⟨E, hE⟩ : ∃ E : St V, E = { st with phii := psiI, phit := if c.operators then psiI else psiT, obj := 0 } :=
    ⟨_, rfl⟩
  have hit : iteration c psiI psiT first st = { iterate c psiI E with obj := (iterate c psiI E).obj * c.dt } := by
    rw [hE]
    unfold iteration
    simp [hk]
  have hElb : E.lb = st.lb := by rw [hE]
  have hElf : E.lf = st.lf := by rw [hE]
  have hEob : E.obj = 0 := by rw [hE]
  obtain ⟨k1, k2, k3, _, k5⟩ := iterate_forth c psiI E
  obtain ⟨f1, f2, _, f4, f5, f6, f7⟩ := iterateFreq_spec c mask psiI (entered c psiI psiT fs)
  obtain ⟨q1, q2, q3, q4, _, q6⟩ := freqIteration_eq c mask psiI psiT fs
  have hmk : masked c mask (entered c psiI psiT fs) = st.lb 0 := by
    unfold masked
    rw [filtered_one mask hmask]
    show fs.lb 0 = _
    rw [h.lb]
  have hbs : ∀ g s, s < c.steps → bandStop c.steps mask g s = 0 := fun g s hs =>
    filtered_zero (fun k => 1 - mask k) (fun k hk => by simp [hmask k hk]) g g s hs
  have hsb : (synced c mask (entered c psiI psiT fs)).buf = (syncTarget c E).buf := by
    obtain ⟨_, e2, e3, _, _, e6⟩ := shapeOld_eq c.steps mask (entered c psiI psiT fs)
    refine sync_congr c _ _ ?_ ?_ ?_
    · funext l
      show (shapeOld c.steps mask (entered c psiI psiT fs)).lb l = _
      rw [e2 l, hElb, h.same l]
      exact hmk
    · show (shapeOld c.steps mask (entered c psiI psiT fs)).phit = _
      rw [e6, hE]; rfl
    · show (shapeOld c.steps mask (entered c psiI psiT fs)).buf = _
      rw [e3, hE]
      exact h.buf
  have hF : Forth c E.lb psiI (syncTarget c E).buf E.lf (iterateFreq c mask psiI (entered c psiI psiT fs)).lf
      (iterateFreq c mask psiI (entered c psiI psiT fs)).phii := by
    refine ⟨f2, fun l s hs => ?_, fun l s hs => ?_⟩
    · rw [f5 l s hs, hbs _ s hs, add_zero, hmk, hsb, hElb]
      unfold newField
      rw [hk]
    · rw [f6 l s hs, hElf, h.tail l s hs]
      show fs.lb 0 s = _
      rw [h.lb]
  obtain ⟨u1, u2⟩ := hF.unique k1 fun _ _ _ => rfl
  have hrest : ∀ l p, c.steps ≤ p → (iterate c psiI E).lf l p = st.lb 0 p := fun l p hp => by
    rw [k1.rest l p hp, hElf, h.tail l p hp]
  rw [hit]
  dsimp only
  refine ⟨q1.trans u1, ?_, ?_, q4.trans u2, ?_, fun l => ?_, hrest, k2.trans hElb⟩
  · rw [q2, k2, hElb]
    funext l
    rw [f1 l, hmk, h.same l]
  · rw [q3, f4, hsb, k3]
  · rw [q6, f7, k5, u1, hsb, hEob]
    congr 2
    refine Finset.sum_congr rfl fun s _ => ?_
    unfold objTerm freqObj
    rw [hk]
  · funext p
    by_cases hp : p < c.steps
    · rw [k1.field l p hp, k1.field 0 p hp]
    · rw [hrest l p (by omega), hrest 0 p (by omega)]

theorem rel_mainLoop (c : Setup V) (mask : Nat → ℝ) (psiI psiT : Nat → V) (k : Nat) (first : Bool) (delta : ℝ)
    (d : ℝ × ℝ × ℝ) (st : St V) (fs : FSt V) (hk : c.method = .krotov) (hmask : ∀ k, k ≤ c.steps / 2 → mask k = 1)
    (hr : c.operators = true ∨ Spec.Reversible c) (h : Rel c st fs) :
    (freqMainLoop c mask psiI psiT k delta d fs).1.map Spec.shown =
      (mainLoop c psiI psiT k first delta d st).1.map Spec.shown ∧
    (freqMainLoop c mask psiI psiT k delta d fs).2.1.lb = (mainLoop c psiI psiT k first delta d st).2.1.lb ∧
    (freqMainLoop c mask psiI psiT k delta d fs).2.2 = (mainLoop c psiI psiT k first delta d st).2.2 := by
  induction k generalizing first delta d st fs with
  | zero => exact ⟨rfl, h.lb, rfl⟩
  | succ k ih =>
    rw [freqMainLoop, mainLoop]
    by_cases hd : delta > c.convergence
    · rw [if_pos hd, if_pos hd]
      dsimp only
      obtain ⟨r1, r2, r3, r4, r5, r6, r7, r8⟩ := rel_iteration c mask psiI psiT first st fs hk hmask h
      have hrep : Spec.shown (report c (freqIteration c mask psiI psiT fs).toSt (freqIteration c mask psiI psiT fs).phit) =
          Spec.shown (report c (iteration c psiI psiT first st) (iteration c psiI psiT first st).phit) := by
        refine report_congr c _ _ _ _ r4 r1 r5 fun ho t => ?_
        rcases hr with hr | hr
        · rw [ho] at hr; cases hr
        · rw [reported_target c mask psiI psiT fs hr ho t, krotov_phit c psiI psiT first st hk ho t]
      have hy : (report c (freqIteration c mask psiI psiT fs).toSt (freqIteration c mask psiI psiT fs).phit).yield =
          (report c (iteration c psiI psiT first st) (iteration c psiI psiT first st).phit).yield :=
        congrArg Spec.Shown.yield hrep
      rw [hy]
      have hrel : Rel c { iteration c psiI psiT first st with
          lf := (iteration c psiI psiT first st).lb, lb := (iteration c psiI psiT first st).lf }
          (exchange (freqIteration c mask psiI psiT fs)) := by
        refine ⟨r1, r3, r6, fun l p hp => ?_⟩
        show (iteration c psiI psiT first st).lb l p = (iteration c psiI psiT first st).lf 0 p
        rw [r8, r7 0 p hp, h.same l]
      have hi := fun dl => ih false dl (d.2.1, d.2.2, abs (report c (iteration c psiI psiT first st)
        (iteration c psiI psiT first st).phit).yield) _ _ hrel
      refine ⟨?_, (hi _).2.1, (hi _).2.2⟩
      rw [List.map_cons, List.map_cons, hrep, (hi _).1]
    · rw [if_neg hd, if_neg hd]
      exact ⟨rfl, h.lb, rfl⟩

end

end QDng.OctFreq
