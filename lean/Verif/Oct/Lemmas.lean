import Mathlib.Algebra.BigOperators.Intervals
import Mathlib.Tactic.Ring
import Verif.Oct.Spec

/-
Lemmas about the loops of the optimal control program.
-/

namespace QDng.Oct

open Spec

noncomputable section

variable {V : Type} [NormedAddCommGroup V] [InnerProductSpace ℂ V]

theorem stepF_eq (c : Setup V) (f : Fields) (s : Nat) (x : V) : stepF c f s x = absorb c (c.fwd s (fun l => f l s) x) := by
  unfold stepF absorb; cases c.gobbler <;> rfl

theorem stepB_eq (c : Setup V) (f : Fields) (s : Nat) (x : V) : stepB c f s x = absorb c (c.bwd s (fun l => f l s) x) := by
  unfold stepB absorb; cases c.gobbler <;> rfl

theorem stepF_congr (c : Setup V) (f g : Fields) (s : Nat) (h : ∀ l, f l s = g l s) (x : V) :
    stepF c f s x = stepF c g s x := by
  rw [stepF_eq, stepF_eq, show (fun l => f l s) = fun l => g l s from funext h]

theorem evolve_succ (c : Setup V) (f : Fields) (psi : V) (n : Nat) :
    evolve c f psi (n + 1) = stepF c f n (evolve c f psi n) := (stepF_eq c f n _).symm

theorem evolve_congr (c : Setup V) (f g : Fields) (psi : V) (n : Nat) (h : ∀ l s, s < n → f l s = g l s) :
    evolve c f psi n = evolve c g psi n := by
  induction n with
  | zero => rfl
  | succ n ih =>
    rw [evolve_succ, evolve_succ, ih fun l s hs => h l s (Nat.lt_succ_of_lt hs)]
    exact stepF_congr c f g n (fun l => h l n (Nat.lt_succ_self n)) _

/-- The loop of `PropagateForward`. -/
theorem forwardLoop_spec (c : Setup V) (f : Fields) (psi : Nat → V) (k s : Nat) (wf : Nat → V) (b : Buf V)
    (hwf : ∀ t, wf t = evolve c f (psi t) s) (hb : ∀ t p, p ≤ s → b t p = evolve c f (psi t) p) :
    (∀ t, (forwardLoop c f k s wf b).1 t = evolve c f (psi t) (s + k)) ∧
    (∀ t p, p ≤ s + k → (forwardLoop c f k s wf b).2 t p = evolve c f (psi t) p) ∧
    ∀ t p, s + k < p → (forwardLoop c f k s wf b).2 t p = b t p := by
  induction k generalizing s wf b with
  | zero => exact ⟨hwf, hb, fun _ _ _ => rfl⟩
  | succ k ih =>
    have h1 : ∀ t, stepF c f s (wf t) = evolve c f (psi t) (s + 1) := fun t => by rw [evolve_succ, hwf]
    have h := ih (s + 1) (fun t => stepF c f s (wf t)) (setBuf b (s + 1) fun t => stepF c f s (wf t)) h1 (by
      intro t p hp
      unfold setBuf
      by_cases h : p = s + 1
      · rw [if_pos h, h]; exact h1 t
      · rw [if_neg h]; exact hb t p (by omega))
    rw [show s + 1 + k = s + (k + 1) by omega] at h
    refine ⟨h.1, h.2.1, fun t p hp => ?_⟩
    rw [show (forwardLoop c f (k + 1) s wf b).2 t p = _ from h.2.2 t p hp]
    unfold setBuf
    rw [if_neg (by omega)]

theorem propagateForward_spec (c : Setup V) (f : Fields) (psi : Nat → V) (b : Buf V) :
    (∀ t, (propagateForward c f psi b).1 t = evolve c f (psi t) c.steps) ∧
    (∀ t p, p ≤ c.steps → (propagateForward c f psi b).2 t p = evolve c f (psi t) p) := by
  have h := forwardLoop_spec c f psi c.steps 0 psi (setBuf b 0 psi) (fun _ => rfl) (by
    intro t p hp
    obtain rfl : p = 0 := by omega
    rfl)
  rw [Nat.zero_add] at h
  exact ⟨h.1, h.2.1⟩

/-- The loop of `PropagateBackward`. -/
theorem backwardLoop_spec (c : Setup V) (f : Fields) (n : Nat) (wf : Nat → V) (b : Buf V) (hb : ∀ t, b t n = wf t) :
    (∀ t, (backwardLoop c f n wf b).1 t = (backwardLoop c f n wf b).2 t 0) ∧
    (∀ t p, n ≤ p → (backwardLoop c f n wf b).2 t p = b t p) ∧
    ∀ t s, s < n → (backwardLoop c f n wf b).2 t s = stepB c f s ((backwardLoop c f n wf b).2 t (s + 1)) := by
  induction n generalizing wf b with
  | zero => exact ⟨fun t => (hb t).symm, fun _ _ _ => rfl, fun _ _ h => absurd h (Nat.not_lt_zero _)⟩
  | succ n ih =>
    have h := ih (fun t => stepB c f n (wf t)) (setBuf b n fun t => stepB c f n (wf t)) (fun t => by simp [setBuf])
    refine ⟨h.1, fun t p hp => ?_, fun t s hs => ?_⟩
    · rw [show (backwardLoop c f (n + 1) wf b).2 t p = _ from h.2.1 t p (by omega)]
      unfold setBuf
      rw [if_neg (by omega)]
    · rcases Nat.lt_succ_iff_lt_or_eq.1 hs with h1 | rfl
      · exact h.2.2 t s h1
      · show (backwardLoop c f s (fun t => stepB c f s (wf t)) (setBuf b s fun t => stepB c f s (wf t))).2 t s =
          stepB c f s ((backwardLoop c f s (fun t => stepB c f s (wf t))
            (setBuf b s fun t => stepB c f s (wf t))).2 t (s + 1))
        rw [h.2.1 t s le_rfl, h.2.1 t (s + 1) (Nat.le_succ s)]
        unfold setBuf
        rw [if_pos rfl, if_neg (by omega), hb]

/-- `chi` is `last` propagated backward with the fields `f`: the value at each time step. -/
structure Back (c : Setup V) (f : Fields) (last : Nat → V) (chi : Buf V) : Prop where
  last : ∀ t, chi t c.steps = last t
  step : ∀ t s, s < c.steps → chi t s = stepB c f s (chi t (s + 1))

theorem propagateBackward_spec (c : Setup V) (f : Fields) (wf : Nat → V) (b : Buf V) :
    Back c f wf (propagateBackward c f wf b).2 := by
  have h := backwardLoop_spec c f c.steps wf (setBuf b c.steps wf) (fun t => by simp [setBuf])
  refine ⟨fun t => ?_, h.2.2⟩
  rw [show (propagateBackward c f wf b).2 t c.steps = _ from h.2.1 t c.steps le_rfl]
  simp [setBuf]

theorem Back.unique {c : Setup V} {f : Fields} {last : Nat → V} {x y : Buf V} (hx : Back c f last x)
    (hy : Back c f last y) (t s : Nat) (hs : s ≤ c.steps) : x t s = y t s := by
  obtain ⟨k, hk⟩ := Nat.exists_eq_add_of_le hs
  induction k generalizing s with
  | zero =>
    obtain rfl : s = c.steps := by omega
    rw [hx.last, hy.last]
  | succ k ih => rw [hx.step t s (by omega), hy.step t s (by omega), ih (s + 1) (by omega) (by omega)]

/-- The forward part of an iteration: the wave functions run under the fields they determine together with the
`chi` of the backward propagation. -/
structure Forth (c : Setup V) (lb : Fields) (psi : Nat → V) (chi : Buf V) (lf0 lf : Fields) (phii : Nat → V) : Prop where
  phii : ∀ t, phii t = evolve c lf (psi t) c.steps
  field : ∀ l s, s < c.steps → lf l s = newField c s lb (calcCorr c (fun t => evolve c lf (psi t) s) fun t => chi t s)
  rest : ∀ l s, c.steps ≤ s → lf l s = lf0 l s

theorem corrLoop_congr (c : Setup V) (wi wi' wt wt' : Nat → V) (hi : ∀ t, wi t = wi' t) (ht : ∀ t, wt t = wt' t)
    (n : Nat) : corrLoop c wi wt n = corrLoop c wi' wt' n := by
  rw [show wi = wi' from funext hi, show wt = wt' from funext ht]

theorem calcCorr_congr (c : Setup V) {wi wi' wt wt' : Nat → V} (hi : ∀ t, wi t = wi' t) (ht : ∀ t, wt t = wt' t) :
    calcCorr c wi wt = calcCorr c wi' wt' := corrLoop_congr c wi wi' wt wt' hi ht _

theorem Forth.unique {c : Setup V} {lb lf0 lf lf' : Fields} {psi p p' : Nat → V} {chi chi' : Buf V}
    (h : Forth c lb psi chi lf0 lf p) (h' : Forth c lb psi chi' lf0 lf' p')
    (hc : ∀ t s, s < c.steps → chi t s = chi' t s) : lf = lf' ∧ p = p' := by
  have hf : ∀ s l, lf l s = lf' l s := by
    intro s
    induction s using Nat.strong_induction_on with
    | _ s ih =>
      intro l
      by_cases hs : s < c.steps
      · rw [h.field l s hs, h'.field l s hs]
        congr 1
        exact calcCorr_congr c (fun t => evolve_congr c lf lf' (psi t) s fun l p hp => ih p hp l) fun t => hc t s hs
      · rw [h.rest l s (by omega), h'.rest l s (by omega)]
  have h1 : lf = lf' := funext fun l => funext fun s => hf s l
  refine ⟨h1, funext fun t => ?_⟩
  rw [h.phii, h'.phii, h1]

theorem iterateLoop_succ (c : Setup V) (k s : Nat) (st : St V) :
    iterateLoop c (k + 1) s st = iteratePass c (s + k) (iterateLoop c k s st) := by
  induction k generalizing s st with
  | zero => rfl
  | succ k ih =>
    rw [iterateLoop, ih, show s + 1 + k = s + (k + 1) by omega]
    rfl

theorem iterateLoop_keeps (c : Setup V) (k : Nat) (st : St V) :
    (iterateLoop c k 0 st).lb = st.lb ∧ (iterateLoop c k 0 st).buf = st.buf ∧
    (iterateLoop c k 0 st).phit = st.phit ∧ ∀ l p, k ≤ p → (iterateLoop c k 0 st).lf l p = st.lf l p := by
  induction k with
  | zero => exact ⟨rfl, rfl, rfl, fun _ _ _ => rfl⟩
  | succ k ih =>
    rw [iterateLoop_succ]
    refine ⟨ih.1, ih.2.1, ih.2.2.1, fun l p hp => ?_⟩
    show setField _ (0 + k) _ l p = _
    unfold setField
    rw [if_neg (by omega)]
    exact ih.2.2.2 l p (by omega)

theorem iterateLoop_stable (c : Setup V) (st : St V) (j k : Nat) (hjk : j ≤ k) (l p : Nat) (hp : p < j) :
    (iterateLoop c k 0 st).lf l p = (iterateLoop c j 0 st).lf l p := by
  obtain ⟨d, rfl⟩ := Nat.exists_eq_add_of_le hjk
  induction d with
  | zero => rfl
  | succ d ih =>
    rw [show j + (d + 1) = j + d + 1 by omega, iterateLoop_succ, ← ih (by omega)]
    show setField _ (0 + (j + d)) _ l p = _
    unfold setField
    rw [if_neg (by omega)]

theorem iterateLoop_phii (c : Setup V) (st : St V) (n j : Nat) (hj : j ≤ n) (t : Nat) :
    (iterateLoop c j 0 st).phii t = evolve c (iterateLoop c n 0 st).lf (st.phii t) j := by
  induction j with
  | zero => rfl
  | succ j ih =>
    rw [evolve_succ, ← ih (by omega)]
    have h : (iterateLoop c (j + 1) 0 st).phii t =
        stepF c (iterateLoop c (j + 1) 0 st).lf j ((iterateLoop c j 0 st).phii t) := by
      rw [iterateLoop_succ, Nat.zero_add]
      rfl
    rw [h]
    exact stepF_congr c _ _ j (fun l => (iterateLoop_stable c st (j + 1) n hj l j (Nat.lt_succ_self j)).symm) _

theorem iterateLoop_field (c : Setup V) (st : St V) (n j : Nat) (hj : j < n) (l : Nat) :
    (iterateLoop c n 0 st).lf l j = newField c j st.lb
      (calcCorr c (fun t => evolve c (iterateLoop c n 0 st).lf (st.phii t) j) fun t => st.buf t j) := by
  rw [iterateLoop_stable c st (j + 1) n hj l j (Nat.lt_succ_self j), iterateLoop_succ, Nat.zero_add]
  show setField _ j _ l j = _
  unfold setField
  rw [if_pos rfl, (iterateLoop_keeps c j st).1, (iterateLoop_keeps c j st).2.1]
  congr 1
  exact calcCorr_congr c (fun t => iterateLoop_phii c st n j (by omega) t) fun _ => rfl

theorem iterateLoop_obj (c : Setup V) (st : St V) (n : Nat) :
    (iterateLoop c n 0 st).obj = st.obj + ∑ s ∈ Finset.range n,
      objTerm c s (calcCorr c (fun t => evolve c (iterateLoop c n 0 st).lf (st.phii t) s) fun t => st.buf t s)
        ((iterateLoop c n 0 st).lf 0 s) := by
  have h : ∀ m, m ≤ n → (iterateLoop c m 0 st).obj = st.obj + ∑ s ∈ Finset.range m,
      objTerm c s (calcCorr c (fun t => evolve c (iterateLoop c n 0 st).lf (st.phii t) s) fun t => st.buf t s)
        ((iterateLoop c n 0 st).lf 0 s) := by
    intro m
    induction m with
    | zero => intro _; simp [iterateLoop]
    | succ m ih =>
      intro hm
      rw [Finset.sum_range_succ, ← add_assoc, ← ih (by omega), iterateLoop_succ, Nat.zero_add]
      show (iterateLoop c m 0 st).obj + objTerm c m _ (newField c m (iterateLoop c m 0 st).lb _) = _
      congr 1
      have h1 : calcCorr c (iterateLoop c m 0 st).phii (fun t => (iterateLoop c m 0 st).buf t m) =
          calcCorr c (fun t => evolve c (iterateLoop c n 0 st).lf (st.phii t) m) fun t => st.buf t m :=
        calcCorr_congr c (fun t => iterateLoop_phii c st n m (by omega) t) fun t => by
          rw [(iterateLoop_keeps c m st).2.1]
      rw [h1, iterateLoop_field c st n m (by omega) 0, (iterateLoop_keeps c m st).1]
  exact h n le_rfl

theorem iterateLoop_forth (c : Setup V) (st : St V) :
    Forth c st.lb st.phii st.buf st.lf (iterateLoop c c.steps 0 st).lf (iterateLoop c c.steps 0 st).phii :=
  ⟨fun t => iterateLoop_phii c st c.steps c.steps le_rfl t, fun l s hs => iterateLoop_field c st c.steps s hs l,
    fun l s hs => (iterateLoop_keeps c c.steps st).2.2.2 l s hs⟩

theorem iterate_forth (c : Setup V) (psiI : Nat → V) (st : St V) :
    Forth c st.lb psiI (syncTarget c st).buf st.lf (iterate c psiI st).lf (iterate c psiI st).phii ∧
    (iterate c psiI st).lb = st.lb ∧ (iterate c psiI st).buf = (syncTarget c st).buf ∧
    (iterate c psiI st).phit = (if c.moving then (syncTarget c st).phit else fun t => (syncTarget c st).buf t c.steps) ∧
    (iterate c psiI st).obj = st.obj + ∑ s ∈ Finset.range c.steps, objTerm c s
      (calcCorr c (fun t => evolve c (iterate c psiI st).lf (psiI t) s) fun t => (syncTarget c st).buf t s)
      ((iterate c psiI st).lf 0 s) := by
  have hlb : (syncTarget c st).lb = st.lb ∧ (syncTarget c st).lf = st.lf ∧ (syncTarget c st).obj = st.obj := by
    unfold syncTarget
    split
    · exact ⟨rfl, rfl, rfl⟩
    · split <;> exact ⟨rfl, rfl, rfl⟩
  obtain ⟨S, hS⟩ : ∃ S, S = { syncTarget c st with phii := psiI } := ⟨_, rfl⟩
  have h1 : S.lb = st.lb := by rw [hS]; exact hlb.1
  have h2 : S.lf = st.lf := by rw [hS]; exact hlb.2.1
  have h3 : S.obj = st.obj := by rw [hS]; exact hlb.2.2
  have h4 : S.buf = (syncTarget c st).buf := by rw [hS]
  have h5 : S.phii = psiI := by rw [hS]
  have h6 : S.phit = (syncTarget c st).phit := by rw [hS]
  have he : iterate c psiI st = if c.moving then iterateLoop c c.steps 0 S
      else { iterateLoop c c.steps 0 S with phit := fun t => (iterateLoop c c.steps 0 S).buf t c.steps } := by
    rw [hS]; rfl
  have h := iterateLoop_forth c S
  have ho := iterateLoop_obj c S c.steps
  have hk := iterateLoop_keeps c c.steps S
  rw [h1, h2, h4, h5] at h
  rw [h3, h4, h5] at ho
  rw [h1, h4, h6] at hk
  rw [he]
  cases c.moving
  · refine ⟨h, hk.1, hk.2.1, ?_, ho⟩
    simp only [Bool.false_eq_true, if_false]
    rw [hk.2.1]
  · exact ⟨h, hk.1, hk.2.1, hk.2.2.1, ho⟩

end

end QDng.Oct
