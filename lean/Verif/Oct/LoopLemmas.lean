import Verif.Oct.Lemmas

/-
Lemmas about the feedback method and about the main loop.
-/

namespace QDng.Oct

open Spec

noncomputable section

variable {V : Type} [NormedAddCommGroup V] [InnerProductSpace ℂ V]

/-- The backward loop of the feedback method. -/
theorem fbBackLoop_spec (c : Setup V) (n : Nat) (st : St V) :
    (fbBackLoop c n st).lb = st.lb ∧ (fbBackLoop c n st).phii = st.phii ∧
    (∀ l p, n ≤ p → (fbBackLoop c n st).lf l p = st.lf l p) ∧
    (∀ t p, n < p → (fbBackLoop c n st).buf t p = st.buf t p) ∧
    (∀ t, setBuf (fbBackLoop c n st).buf 0 (fbBackLoop c n st).phit t n = st.phit t) ∧
    ∀ t s, s < n → setBuf (fbBackLoop c n st).buf 0 (fbBackLoop c n st).phit t s =
      stepB c st.lb s (setBuf (fbBackLoop c n st).buf 0 (fbBackLoop c n st).phit t (s + 1)) := by
  induction n generalizing st with
  | zero =>
    exact ⟨rfl, rfl, fun _ _ _ => rfl, fun _ _ _ => rfl, fun _ => rfl, fun _ _ h => absurd h (Nat.not_lt_zero _)⟩
  | succ n ih =>
    obtain ⟨h1, h2, h3, h4, h5, h6⟩ := ih (fbBackPass c n st)
    have h0 : fbBackLoop c (n + 1) st = fbBackLoop c n (fbBackPass c n st) := rfl
    rw [h0]
    have hn : ∀ t, setBuf (fbBackLoop c n (fbBackPass c n st)).buf 0 (fbBackLoop c n (fbBackPass c n st)).phit t (n + 1) =
        st.phit t := by
      intro t
      unfold setBuf
      rw [if_neg (by omega), h4 t (n + 1) (Nat.lt_succ_self n)]
      show setBuf st.buf (n + 1) st.phit t (n + 1) = _
      simp [setBuf]
    refine ⟨h1, h2, fun l p hp => ?_, fun t p hp => ?_, hn, fun t s hs => ?_⟩
    · rw [h3 l p (by omega)]
      show setField _ n _ l p = _
      unfold setField
      rw [if_neg (by omega)]
    · rw [h4 t p (by omega)]
      show setBuf st.buf (n + 1) st.phit t p = _
      unfold setBuf
      rw [if_neg (by omega)]
    · rcases Nat.lt_succ_iff_lt_or_eq.1 hs with h | rfl
      · exact h6 t s h
      · rw [hn, h5]
        rfl

theorem fbLoop_succ (c : Setup V) (k s : Nat) (st : St V) :
    fbLoop c (k + 1) s st = fbPass c (s + k) (fbLoop c k s st) := by
  induction k generalizing s st with
  | zero => rfl
  | succ k ih =>
    rw [fbLoop, ih, show s + 1 + k = s + (k + 1) by omega]
    rfl

theorem fbLoop_keeps (c : Setup V) (k : Nat) (st : St V) :
    (fbLoop c k 0 st).lb = st.lb ∧ (∀ t p, k ≤ p → (fbLoop c k 0 st).buf t p = st.buf t p) ∧
    (fbLoop c k 0 st).phit = st.phit ∧ (∀ l p, k ≤ p → (fbLoop c k 0 st).lf l p = st.lf l p) ∧
    (0 < k → ∀ t, (fbLoop c k 0 st).buf t 0 = st.phii t) := by
  induction k with
  | zero => exact ⟨rfl, fun _ _ _ => rfl, rfl, fun _ _ _ => rfl, fun h => absurd h (Nat.lt_irrefl _)⟩
  | succ k ih =>
    rw [fbLoop_succ]
    refine ⟨ih.1, fun t p hp => ?_, ih.2.2.1, fun l p hp => ?_, fun _ t => ?_⟩
    · show setBuf _ (0 + k) _ t p = _
      unfold setBuf
      rw [if_neg (by omega)]
      exact ih.2.1 t p (by omega)
    · show setField _ (0 + k) _ l p = _
      unfold setField
      rw [if_neg (by omega)]
      exact ih.2.2.2.1 l p (by omega)
    · show setBuf _ (0 + k) _ t 0 = _
      unfold setBuf
      by_cases hk : k = 0
      · subst hk
        rw [if_pos rfl]
        rfl
      · rw [if_neg (by omega)]
        exact ih.2.2.2.2 (by omega) t

theorem fbLoop_stable (c : Setup V) (st : St V) (j k : Nat) (hjk : j ≤ k) (l p : Nat) (hp : p < j) :
    (fbLoop c k 0 st).lf l p = (fbLoop c j 0 st).lf l p := by
  obtain ⟨d, rfl⟩ := Nat.exists_eq_add_of_le hjk
  induction d with
  | zero => rfl
  | succ d ih =>
    rw [show j + (d + 1) = j + d + 1 by omega, fbLoop_succ, ← ih (by omega)]
    show setField _ (0 + (j + d)) _ l p = _
    unfold setField
    rw [if_neg (by omega)]

theorem fbLoop_phii (c : Setup V) (st : St V) (n j : Nat) (hj : j ≤ n) (t : Nat) :
    (fbLoop c j 0 st).phii t = evolve c (fbLoop c n 0 st).lf (st.phii t) j := by
  induction j with
  | zero => rfl
  | succ j ih =>
    rw [evolve_succ, ← ih (by omega)]
    have h : (fbLoop c (j + 1) 0 st).phii t =
        stepF c (fbLoop c (j + 1) 0 st).lf j ((fbLoop c j 0 st).phii t) := by
      rw [fbLoop_succ, Nat.zero_add]
      rfl
    rw [h]
    exact stepF_congr c _ _ j (fun l => (fbLoop_stable c st (j + 1) n hj l j (Nat.lt_succ_self j)).symm) _

theorem fbLoop_forth (c : Setup V) (st : St V) :
    Forth c st.lb st.phii st.buf st.lf (fbLoop c c.steps 0 st).lf (fbLoop c c.steps 0 st).phii := by
  refine ⟨fun t => fbLoop_phii c st c.steps c.steps le_rfl t, fun l s hs => ?_,
    fun l s hs => (fbLoop_keeps c c.steps st).2.2.2.1 l s hs⟩
  rw [fbLoop_stable c st (s + 1) c.steps hs l s (Nat.lt_succ_self s)]
  have h : (fbLoop c (s + 1) 0 st).lf l s = newField c s (fbLoop c s 0 st).lb
      (calcCorr c (fbLoop c s 0 st).phii fun t => (fbLoop c s 0 st).buf t s) := by
    rw [fbLoop_succ, Nat.zero_add]
    show setField _ s _ l s = _
    unfold setField
    rw [if_pos rfl]
  rw [h, (fbLoop_keeps c s st).1]
  congr 1
  exact calcCorr_congr c (fun t => fbLoop_phii c st c.steps s (by omega) t) fun t => (fbLoop_keeps c s st).2.1 t s le_rfl

/-- The initial wave functions of the feedback method are those at the begin of the buffer. -/
def fbInit (c : Setup V) (first : Bool) (st : St V) : Nat → V := if first then st.phii else fun t => st.buf t 0

/-- The wave functions which the feedback method propagates backward. -/
def fbLast (c : Setup V) (first : Bool) (st : St V) : Nat → V :=
  if c.operators then fun t => c.target t (fbInit c first st t) else st.phit

theorem iterateFB_spec (c : Setup V) (first : Bool) (st : St V) :
    (∃ chi, Back c st.lb (fbLast c first st) chi ∧
      Forth c st.lb (fbInit c first st) chi st.lf (iterateFB c first st).lf (iterateFB c first st).phii) ∧
    (iterateFB c first st).lb = st.lb ∧ (∀ t, (iterateFB c first st).phit t = fbLast c first st t) ∧
    (0 < c.steps → ∀ t, (iterateFB c first st).buf t 0 = fbInit c first st t) := by
  obtain ⟨S1, hS1⟩ : ∃ S, S = (if first then
      let r := propagateForward c st.lf st.phii st.buf
      { st with phii := r.1, buf := r.2 } else st : St V) := ⟨_, rfl⟩
  have a1 : S1.lb = st.lb ∧ S1.lf = st.lf ∧ S1.phit = st.phit ∧ ∀ t, S1.buf t 0 = fbInit c first st t := by
    rw [hS1]
    cases first
    · exact ⟨rfl, rfl, rfl, fun t => rfl⟩
    · exact ⟨rfl, rfl, rfl, fun t => (propagateForward_spec c st.lf st.phii st.buf).2 t 0 (Nat.zero_le _)⟩
  obtain ⟨S2, hS2⟩ : ∃ S, S = (if c.operators then
      { S1 with phii := fun t => S1.buf t 0, phit := fun t => c.target t (S1.buf t 0) }
      else { S1 with phii := fun t => S1.buf t 0 } : St V) := ⟨_, rfl⟩
  have a2 : S2.lb = st.lb ∧ S2.lf = st.lf ∧ (∀ t, S2.phii t = fbInit c first st t) ∧
      ∀ t, S2.phit t = fbLast c first st t := by
    rw [hS2]
    unfold fbLast
    cases c.operators
    · exact ⟨a1.1, a1.2.1, a1.2.2.2, fun t => congrFun a1.2.2.1 t⟩
    · refine ⟨a1.1, a1.2.1, a1.2.2.2, fun t => ?_⟩
      simp only [if_true, a1.2.2.2 t]
  obtain ⟨S3, hS3⟩ : ∃ S, S = fbBackLoop c c.steps S2 := ⟨_, rfl⟩
  obtain ⟨S4, hS4⟩ : ∃ S, S = (⟨S3.lf, S3.lb, setBuf S3.buf 0 S3.phit, S3.obj, S3.phii,
      fun t => setBuf S3.buf 0 S3.phit t c.steps⟩ : St V) := ⟨_, rfl⟩
  have hfin : iterateFB c first st = { fbLoop c c.steps 0 S4 with
      buf := setBuf (fbLoop c c.steps 0 S4).buf c.steps (fbLoop c c.steps 0 S4).phii } := by
    rw [hS4, hS3, hS2, hS1]
    unfold iterateFB
    cases c.operators <;> rfl
  obtain ⟨b1, b2, b3, _, b5, b6⟩ := fbBackLoop_spec c c.steps S2
  rw [← hS3] at b1 b2 b3 b5 b6
  have c1 : S4.lb = st.lb := by rw [hS4]; exact b1.trans a2.1
  have c2 : S4.phii = fbInit c first st := by rw [hS4]; exact b2.trans (funext a2.2.2.1)
  have c3 : S4.buf = setBuf S3.buf 0 S3.phit := by rw [hS4]
  have c4 : S4.phit = fun t => setBuf S3.buf 0 S3.phit t c.steps := by rw [hS4]
  have c5 : ∀ l p, c.steps ≤ p → S4.lf l p = st.lf l p := by
    intro l p hp
    have : S4.lf = S3.lf := by rw [hS4]
    rw [this, b3 l p hp, a2.2.1]
  have hf := fbLoop_forth c S4
  have hk := fbLoop_keeps c c.steps S4
  rw [hfin]
  refine ⟨⟨setBuf S3.buf 0 S3.phit, ⟨fun t => (b5 t).trans (a2.2.2.2 t), fun t s hs => by rw [← a2.1]; exact b6 t s hs⟩,
    ?_⟩, hk.1.trans c1, fun t => ?_, fun hs t => ?_⟩
  · rw [c1, c2, c3] at hf
    exact ⟨hf.phii, hf.field, fun l s hs => (hf.rest l s hs).trans (c5 l s hs)⟩
  · show (fbLoop c c.steps 0 S4).phit t = _
    rw [hk.2.2.1, c4]
    exact (b5 t).trans (a2.2.2.2 t)
  · show setBuf _ c.steps _ t 0 = _
    unfold setBuf
    rw [if_neg (by omega), hk.2.2.2.2 hs t, c2]

/-- The wave functions that are propagated backward in an iteration without moving targets. -/
def lastOf (c : Setup V) (psiI psiT : Nat → V) (lb : Fields) : Nat → V :=
  if c.operators then
    if c.method = .rabitzfb then fun t => c.target t (psiI t)
    else fun t => c.target t (evolve c lb (psiI t) c.steps)
  else psiT

/-- What holds before every iteration. -/
structure Before (c : Setup V) (psiI psiT : Nat → V) (first : Bool) (st : St V) : Prop where
  buf : c.method = .rabitzfb → first = false → ∀ t, st.buf t 0 = psiI t
  phit : c.method = .rabitzfb → first = false → c.operators = false → ∀ t, st.phit t = psiT t

/-- What an iteration does. -/
structure After (c : Setup V) (psiI psiT : Nat → V) (st st' : St V) : Prop where
  lb : st'.lb = st.lb
  phii : ∀ t, st'.phii t = evolve c st'.lf (psiI t) c.steps
  phit : c.operators = false → ∀ t, st'.phit t = psiT t
  rest : ∀ l s, c.steps ≤ s → st'.lf l s = st.lf l s
  same : ∀ l s, s < c.steps → st'.lf l s = st'.lf 0 s
  work : c.moving = false ∨ c.method = .rabitzfb → ∃ chi, Back c st.lb (lastOf c psiI psiT st.lb) chi ∧
    Forth c st.lb psiI chi st.lf st'.lf st'.phii ∧
    (c.method ≠ .rabitzfb → st'.obj = (∑ s ∈ Finset.range c.steps, objTerm c s
      (calcCorr c (fun t => evolve c st'.lf (psiI t) s) fun t => chi t s) (st'.lf 0 s)) * c.dt)

theorem Forth.same {c : Setup V} {lb lf0 lf : Fields} {psi p : Nat → V} {chi : Buf V}
    (h : Forth c lb psi chi lf0 lf p) (l s : Nat) (hs : s < c.steps) : lf l s = lf 0 s := by
  rw [h.field l s hs, h.field 0 s hs]

theorem syncTarget_spec (c : Setup V) (psiI psiT : Nat → V) (st : St V) (hm : c.method ≠ .rabitzfb)
    (ht : st.phit = if c.operators then psiI else psiT) (hmv : c.moving = false ∨ c.operators = true) :
    Back c st.lb (lastOf c psiI psiT st.lb) (syncTarget c st).buf := by
  unfold syncTarget lastOf
  cases ho : c.operators
  · have hv : c.moving = false := by
      rcases hmv with h | h
      · exact h
      · rw [ho] at h; exact absurd h (by decide)
    rw [ho] at ht
    simp only [hv, Bool.false_eq_true, if_false] at ht ⊢
    rw [← ht]
    exact propagateBackward_spec c st.lb st.phit st.buf
  · rw [ho] at ht
    simp only [if_true, if_neg hm] at ht ⊢
    have h := propagateBackward_spec c st.lb (fun t => c.target t ((propagateForward c st.lb st.phit st.buf).1 t))
      (propagateForward c st.lb st.phit st.buf).2
    have h2 : (fun t => c.target t ((propagateForward c st.lb st.phit st.buf).1 t)) =
        fun t => c.target t (evolve c st.lb (psiI t) c.steps) := by
      funext t
      rw [(propagateForward_spec c st.lb st.phit st.buf).1 t, ht]
    rw [h2] at h ⊢
    exact h

theorem iteration_spec (c : Setup V) (psiI psiT : Nat → V) (first : Bool) (st : St V) (hs : 0 < c.steps)
    (hb : Before c psiI psiT first st) :
    After c psiI psiT st (iteration c psiI psiT first st) ∧
    ∀ st', st'.buf = (iteration c psiI psiT first st).buf → st'.phit = (iteration c psiI psiT first st).phit →
      Before c psiI psiT false st' := by
  by_cases hm : c.method = .rabitzfb
  · -- the feedback method
    obtain ⟨S, hS⟩ : ∃ S, S = ({ (if c.method = .rabitzfb ∧ first = false then st
        else { st with phii := psiI, phit := if c.operators then psiI else psiT }) with obj := 0 } : St V) := ⟨_, rfl⟩
    have hit : iteration c psiI psiT first st = { iterateFB c first S with obj := (iterateFB c first S).obj * c.dt } := by
      rw [hS]
      simp only [iteration, if_pos hm]
    have hinit : ∀ t, fbInit c first S t = psiI t := by
      intro t
      unfold fbInit
      rw [hS]
      cases first
      · rw [if_neg (by decide), if_pos ⟨hm, rfl⟩]
        exact hb.buf hm rfl t
      · rw [if_pos rfl, if_neg (by simp)]
    have hlast : ∀ t, fbLast c first S t = lastOf c psiI psiT st.lb t := by
      intro t
      unfold fbLast lastOf
      cases ho : c.operators
      · simp only [Bool.false_eq_true, if_false]
        rw [hS]
        cases first
        · rw [if_pos ⟨hm, rfl⟩]; exact hb.phit hm rfl ho t
        · rw [if_neg (by simp)]; simp only [ho, Bool.false_eq_true, if_false]
      · simp only [if_true, if_pos hm]
        rw [hinit]
    have hlb : S.lb = st.lb := by rw [hS]; split <;> rfl
    have hlf : S.lf = st.lf := by rw [hS]; split <;> rfl
    obtain ⟨⟨chi, hback, hforth⟩, h2, h3, h4⟩ := iterateFB_spec c first S
    rw [hlb, show fbLast c first S = lastOf c psiI psiT st.lb from funext hlast] at hback
    rw [hlb, hlf, show fbInit c first S = psiI from funext hinit] at hforth
    have hph : c.operators = false → ∀ t, (iterateFB c first S).phit t = psiT t := by
      intro ho t
      rw [h3, hlast]
      unfold lastOf
      simp only [ho, Bool.false_eq_true, if_false]
    rw [hit]
    refine ⟨⟨h2.trans hlb, hforth.phii, hph, hforth.rest, hforth.same, fun _ => ⟨chi, hback, hforth, fun h => absurd hm h⟩⟩,
      fun st' h5 h6 => ⟨fun _ _ t => ?_, fun _ _ ho t => ?_⟩⟩
    · rw [h5]
      exact (h4 hs t).trans (hinit t)
    · rw [h6]
      exact hph ho t
  · obtain ⟨S, hS⟩ : ∃ S, S = ({ st with phii := psiI, phit := if c.operators then psiI else psiT, obj := 0 } : St V) :=
      ⟨_, rfl⟩
    have hit : iteration c psiI psiT first st = { iterate c psiI S with obj := (iterate c psiI S).obj * c.dt } := by
      rw [hS]
      simp only [iteration, if_neg hm, if_neg (fun h : c.method = .rabitzfb ∧ first = false => hm h.1)]
    obtain ⟨hforth, h2, h3, h4, h5⟩ := iterate_forth c psiI S
    have e1 : S.lb = st.lb := by rw [hS]
    have e2 : S.lf = st.lf := by rw [hS]
    have e3 : S.phit = if c.operators then psiI else psiT := by rw [hS]
    have e4 : S.obj = 0 := by rw [hS]
    rw [e1, e2] at hforth
    rw [e4, zero_add] at h5
    have hph : c.operators = false → ∀ t, (iterate c psiI S).phit t = psiT t := by
      intro ho t
      rw [h4]
      cases hv : c.moving
      · have := (syncTarget_spec c psiI psiT S hm e3 (.inl hv)).last t
        simp only [Bool.false_eq_true, if_false]
        rw [this]
        unfold lastOf
        simp only [ho, Bool.false_eq_true, if_false]
      · simp only [if_true]
        unfold syncTarget
        simp only [ho, hv, Bool.false_eq_true, if_false, if_true]
        rw [e3]
        simp only [ho, Bool.false_eq_true, if_false]
    rw [hit]
    refine ⟨⟨h2.trans e1, hforth.phii, hph, hforth.rest, hforth.same, fun hv => ?_⟩,
      fun st' _ _ => ⟨fun h => absurd h hm, fun h => absurd h hm⟩⟩
    have hv : c.moving = false := by
      rcases hv with h | h
      · exact h
      · exact absurd h hm
    refine ⟨(syncTarget c S).buf, ?_, hforth, fun _ => ?_⟩
    · have := syncTarget_spec c psiI psiT S hm e3 (.inl hv)
      rw [e1] at this
      exact this
    · show (iterate c psiI S).obj * c.dt = _
      rw [h5]

/-- The lines of the main loop: each comes from one iteration. -/
theorem mainLoop_chain (c : Setup V) (psiI psiT : Nat → V) (hs : 0 < c.steps) (k : Nat) (first : Bool) (delta : ℝ)
    (d : ℝ × ℝ × ℝ) (st : St V) (hb : Before c psiI psiT first st)
    (P : St V → Prop) (hP : P st)
    (Q : St V → Line V → Prop)
    (hstep : ∀ first st, Before c psiI psiT first st → P st →
      let st' := iteration c psiI psiT first st
      Q st (report c st' st'.phit) ∧ P { st' with lf := st'.lb, lb := st'.lf }) :
    ∀ line ∈ (mainLoop c psiI psiT k first delta d st).1, ∃ st, P st ∧ Q st line := by
  induction k generalizing first delta d st with
  | zero => intro line h; exact absurd h (List.not_mem_nil)
  | succ k ih =>
    unfold mainLoop
    split
    · intro line h
      have h1 := hstep first st hb hP
      rcases List.mem_cons.1 h with h | h
      · exact ⟨st, hP, h ▸ h1.1⟩
      · exact ih false _ _ { iteration c psiI psiT first st with
          lf := (iteration c psiI psiT first st).lb, lb := (iteration c psiI psiT first st).lf }
          ((iteration_spec c psiI psiT first st hs hb).2 _ rfl rfl) h1.2 line h
    · intro line h; exact absurd h (List.not_mem_nil)

end

end QDng.Oct
