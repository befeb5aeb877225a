import Verif.Oct.Lemmas
import Verif.OctFreq.Dft

/-
Lemmas about the loops of the frequency shaping method.
-/

namespace QDng.OctFreq

open QDng.Oct QDng.Oct.Spec

noncomputable section

variable {V : Type} [NormedAddCommGroup V] [InnerProductSpace ℂ V]

theorem shapeOld_eq (N : Nat) (mask : Nat → ℝ) (st : FSt V) :
    (∀ l, (shapeOld N mask st).lf l = filtered N (fun k => mask k / N) (st.lb 0) (st.lb 0)) ∧
    (∀ l, (shapeOld N mask st).lb l = filtered N (fun k => mask k / N) (st.lb 0) (st.lb 0)) ∧
    (shapeOld N mask st).buf = st.buf ∧ (shapeOld N mask st).obj = st.obj ∧ (shapeOld N mask st).phii = st.phii ∧
    (shapeOld N mask st).phit = st.phit := by
  simp [shapeOld]

omit [NormedAddCommGroup V] [InnerProductSpace ℂ V] in
theorem sync_keeps (c : Setup V) (st : St V) :
    (syncTarget c st).lb = st.lb ∧ (syncTarget c st).lf = st.lf ∧ (syncTarget c st).obj = st.obj ∧
    (syncTarget c st).phii = st.phii := by
  unfold syncTarget
  split
  · exact ⟨rfl, rfl, rfl, rfl⟩
  · split <;> exact ⟨rfl, rfl, rfl, rfl⟩

theorem gammaLoop_succ (c : Setup V) (f : Fields) (buf : Buf V) (k s : Nat) (a : (Nat → V) × (Nat → V) × (Nat → ℝ)) :
    gammaLoop c f buf (k + 1) s a = gammaPass c f buf (s + k) (gammaLoop c f buf k s a) := by
  induction k generalizing s a with
  | zero => rfl
  | succ k ih =>
    rw [gammaLoop, ih, show s + 1 + k = s + (k + 1) by omega]
    rfl

/-- The target wave function in the loop for the correction field. -/
def phitAt (c : Setup V) (f : Fields) (x : V) (n : Nat) : V :=
  if c.moving then (fun y => match c.gobbler with | none => y | some g => g y)^[n] x else evolve c f x n

theorem gammaLoop_spec (c : Setup V) (f : Fields) (buf : Buf V) (pi pt : Nat → V) (g0 : Nat → ℝ) (n : Nat) :
    (∀ t, (gammaLoop c f buf n 0 (pi, pt, g0)).1 t = evolve c f (pi t) n) ∧
    (∀ t, (gammaLoop c f buf n 0 (pi, pt, g0)).2.1 t = phitAt c f (pt t) n) ∧
    ∀ s, s < n → (gammaLoop c f buf n 0 (pi, pt, g0)).2.2 s = calcCorr c (fun t => evolve c f (pi t) s)
      (fun t => if c.moving then buf t s else phitAt c f (pt t) s) := by
  induction n with
  | zero =>
    refine ⟨fun _ => rfl, fun t => ?_, fun _ h => absurd h (Nat.not_lt_zero _)⟩
    show pt t = _
    unfold phitAt
    split <;> rfl
  | succ n ih =>
    rw [gammaLoop_succ, Nat.zero_add]
    generalize gammaLoop c f buf n 0 (pi, pt, g0) = a at ih ⊢
    obtain ⟨h1, h2, h3⟩ := ih
    refine ⟨fun t => ?_, fun t => ?_, fun s hs => ?_⟩
    · show stepF c f n (a.1 t) = _
      rw [h1, evolve_succ]
    · show (if c.moving then _ else _) = _
      unfold phitAt at h2 ⊢
      by_cases hm : c.moving = true
      · simp only [hm, if_true] at h2 ⊢
        rw [h2 t, Function.iterate_succ_apply']
        try rfl
      · simp only [hm] at h2 ⊢
        rw [if_neg (by simp), h2 t]
        show stepF c f n (evolve c f (pt t) n) = evolve c f (pt t) (n + 1)
        rw [evolve_succ]
    · show (if s = n then _ else _) = _
      by_cases h : s = n
      · subst h
        rw [if_pos rfl]
        refine calcCorr_congr c h1 fun t => ?_
        by_cases hm : c.moving = true
        · rw [if_pos hm, if_pos hm]
        · rw [if_neg hm, if_neg hm, h2]
      · rw [if_neg h]
        exact h3 s (by omega)

theorem freqLoop_succ (c : Setup V) (gm : Nat → ℝ) (k s : Nat) (st : FSt V) :
    freqLoop c gm (k + 1) s st = freqPass c gm (s + k) (freqLoop c gm k s st) := by
  induction k generalizing s st with
  | zero => rfl
  | succ k ih =>
    rw [freqLoop, ih, show s + 1 + k = s + (k + 1) by omega]
    rfl

theorem freqLoop_keeps (c : Setup V) (gm : Nat → ℝ) (k : Nat) (st : FSt V) :
    (freqLoop c gm k 0 st).lb = st.lb ∧ (freqLoop c gm k 0 st).buf = st.buf ∧
    (freqLoop c gm k 0 st).phit = st.phit ∧ (freqLoop c gm k 0 st).crossed = st.crossed ∧
    ∀ l p, k ≤ p → (freqLoop c gm k 0 st).lf l p = st.lf l p := by
  induction k with
  | zero => exact ⟨rfl, rfl, rfl, rfl, fun _ _ _ => rfl⟩
  | succ k ih =>
    rw [freqLoop_succ]
    refine ⟨ih.1, ih.2.1, ih.2.2.1, ih.2.2.2.1, fun l p hp => ?_⟩
    show setField _ (0 + k) _ l p = _
    unfold setField
    rw [if_neg (by omega)]
    exact ih.2.2.2.2 l p (by omega)

theorem freqLoop_stable (c : Setup V) (gm : Nat → ℝ) (st : FSt V) (j k : Nat) (hjk : j ≤ k) (l p : Nat) (hp : p < j) :
    (freqLoop c gm k 0 st).lf l p = (freqLoop c gm j 0 st).lf l p := by
  obtain ⟨d, rfl⟩ := Nat.exists_eq_add_of_le hjk
  induction d with
  | zero => rfl
  | succ d ih =>
    rw [show j + (d + 1) = j + d + 1 by omega, freqLoop_succ, ← ih (by omega)]
    show setField _ (0 + (j + d)) _ l p = _
    unfold setField
    rw [if_neg (by omega)]

theorem freqLoop_phii (c : Setup V) (gm : Nat → ℝ) (st : FSt V) (n j : Nat) (hj : j ≤ n) (t : Nat) :
    (freqLoop c gm j 0 st).phii t = evolve c (freqLoop c gm n 0 st).lf (st.phii t) j := by
  induction j with
  | zero => rfl
  | succ j ih =>
    rw [evolve_succ, ← ih (by omega)]
    have h : (freqLoop c gm (j + 1) 0 st).phii t =
        stepF c (freqLoop c gm (j + 1) 0 st).lf j ((freqLoop c gm j 0 st).phii t) := by
      rw [freqLoop_succ, Nat.zero_add]
      rfl
    rw [h]
    exact stepF_congr c _ _ j (fun l => (freqLoop_stable c gm st (j + 1) n hj l j (Nat.lt_succ_self j)).symm) _

theorem freqLoop_field (c : Setup V) (gm : Nat → ℝ) (st : FSt V) (n j : Nat) (hj : j < n) (l : Nat) :
    (freqLoop c gm n 0 st).lf l j = freqField c gm j st.lb
      (calcCorr c (fun t => evolve c (freqLoop c gm n 0 st).lf (st.phii t) j) fun t => st.buf t j) := by
  rw [freqLoop_stable c gm st (j + 1) n hj l j (Nat.lt_succ_self j), freqLoop_succ, Nat.zero_add]
  show setField _ j _ l j = _
  unfold setField
  rw [if_pos rfl, (freqLoop_keeps c gm j st).1, (freqLoop_keeps c gm j st).2.1]
  congr 1
  exact calcCorr_congr c (fun t => freqLoop_phii c gm st n j (by omega) t) fun _ => rfl

theorem freqLoop_obj (c : Setup V) (gm : Nat → ℝ) (st : FSt V) (n : Nat) :
    (freqLoop c gm n 0 st).obj = st.obj + ∑ s ∈ Finset.range n,
      freqObj c s (calcCorr c (fun t => evolve c (freqLoop c gm n 0 st).lf (st.phii t) s) fun t => st.buf t s) := by
  have h : ∀ m, m ≤ n → (freqLoop c gm m 0 st).obj = st.obj + ∑ s ∈ Finset.range m,
      freqObj c s (calcCorr c (fun t => evolve c (freqLoop c gm n 0 st).lf (st.phii t) s) fun t => st.buf t s) := by
    intro m
    induction m with
    | zero => intro _; simp [freqLoop]
    | succ m ih =>
      intro hm
      rw [Finset.sum_range_succ, ← add_assoc, ← ih (by omega), freqLoop_succ, Nat.zero_add]
      show (freqLoop c gm m 0 st).obj + freqObj c m _ = _
      congr 2
      exact calcCorr_congr c (fun t => freqLoop_phii c gm st n m (by omega) t) fun t => by
          rw [(freqLoop_keeps c gm m st).2.1]
  exact h n le_rfl

/-- The state behind the shaping and the back propagation of the targets. -/
def synced (c : Setup V) (mask : Nat → ℝ) (st : FSt V) : St V := syncTarget c (shapeOld c.steps mask st).toSt

/-- The field behind the mask. -/
def masked (c : Setup V) (mask : Nat → ℝ) (st : FSt V) : Nat → ℝ :=
  filtered c.steps (fun k => mask k / c.steps) (st.lb 0) (st.lb 0)

/-- The correlation with the shaped field, as the correction field is made of it. -/
def corrShaped (c : Setup V) (mask : Nat → ℝ) (st : FSt V) (s : Nat) : ℝ :=
  calcCorr c (fun t => evolve c (fun _ => masked c mask st) (st.phii t) s)
    (fun t => if c.moving then (synced c mask st).buf t s
      else phitAt c (fun _ => masked c mask st) ((synced c mask st).phit t) s)

theorem bandStop_congr (N : Nat) (mask g h : Nat → ℝ) (hg : ∀ s, s < N → g s = h s) (s : Nat) (hs : s < N) :
    bandStop N mask g s = bandStop N mask h s := by
  unfold bandStop filtered
  rw [if_pos hs, if_pos hs]
  congr 1
  funext k
  rw [r2c_congr N g h hg]

/-- What an iteration does. -/
theorem iterateFreq_spec (c : Setup V) (mask : Nat → ℝ) (psiI : Nat → V) (st : FSt V) :
    (∀ l, (iterateFreq c mask psiI st).lb l = masked c mask st) ∧
    (∀ t, (iterateFreq c mask psiI st).phii t = evolve c (iterateFreq c mask psiI st).lf (psiI t) c.steps) ∧
    (∀ t, (iterateFreq c mask psiI st).phit t = phitAt c (fun _ => masked c mask st) ((synced c mask st).phit t) c.steps) ∧
    (iterateFreq c mask psiI st).buf = (synced c mask st).buf ∧
    (∀ l s, s < c.steps → (iterateFreq c mask psiI st).lf l s = masked c mask st s - c.shape s / (c.alpha * c.ntargets) *
      (calcCorr c (fun t => evolve c (iterateFreq c mask psiI st).lf (psiI t) s) (fun t => (synced c mask st).buf t s) +
        bandStop c.steps mask (corrShaped c mask st) s)) ∧
    (∀ l s, c.steps ≤ s → (iterateFreq c mask psiI st).lf l s = st.lb 0 s) ∧
    (iterateFreq c mask psiI st).obj = st.obj + ∑ s ∈ Finset.range c.steps, freqObj c s
      (calcCorr c (fun t => evolve c (iterateFreq c mask psiI st).lf (psiI t) s) fun t => (synced c mask st).buf t s) := by
  obtain ⟨e1, e2, e3, e4, e5, e6⟩ := shapeOld_eq c.steps mask st
  obtain ⟨k1, k2, k3, k4⟩ := sync_keeps c (shapeOld c.steps mask st).toSt
  obtain ⟨S, hS⟩ : ∃ S : FSt V, S = { shapeOld c.steps mask st with toSt := synced c mask st } := ⟨_, rfl⟩
  obtain ⟨g, hg⟩ : ∃ g, g = gammaLoop c S.lf S.buf c.steps 0 (S.phii, S.phit, fun _ => 0) := ⟨_, rfl⟩
  have he : iterateFreq c mask psiI st =
      freqLoop c (bandStop c.steps mask g.2.2) c.steps 0 { S with phii := psiI, phit := g.2.1 } := by
    rw [hg, hS]; rfl
  have hlf : S.lf = fun _ => masked c mask st := by
    rw [hS]; show (synced c mask st).lf = _
    unfold synced
    rw [k2]; exact funext fun l => e1 l
  have hlb : S.lb = fun _ => masked c mask st := by
    rw [hS]; show (synced c mask st).lb = _
    unfold synced
    rw [k1]; exact funext fun l => e2 l
  have hob : S.obj = st.obj := by
    rw [hS]; show (synced c mask st).obj = _
    unfold synced
    rw [k3, e4]
  have hpi : S.phii = st.phii := by
    rw [hS]; show (synced c mask st).phii = _
    unfold synced
    rw [k4, e5]
  have hbu : S.buf = (synced c mask st).buf := by rw [hS]
  have hpt : S.phit = (synced c mask st).phit := by rw [hS]
  have hgs := gammaLoop_spec c S.lf S.buf S.phii S.phit (fun _ => 0) c.steps
  rw [← hg, hlf, hbu, hpi, hpt] at hgs
  obtain ⟨_, g2, g3⟩ := hgs
  have hgc : ∀ s, s < c.steps → bandStop c.steps mask g.2.2 s = bandStop c.steps mask (corrShaped c mask st) s :=
    fun s hs => bandStop_congr _ _ _ _ (fun s hs => g3 s hs) s hs
  obtain ⟨f1, f2, f3, _, f5⟩ := freqLoop_keeps c (bandStop c.steps mask g.2.2) c.steps
    { S with phii := psiI, phit := g.2.1 }
  have f6 := fun t => freqLoop_phii c (bandStop c.steps mask g.2.2) { S with phii := psiI, phit := g.2.1 } c.steps c.steps
    le_rfl t
  have f7 := fun l s hs => freqLoop_field c (bandStop c.steps mask g.2.2) { S with phii := psiI, phit := g.2.1 } c.steps s hs l
  have f8 := freqLoop_obj c (bandStop c.steps mask g.2.2) { S with phii := psiI, phit := g.2.1 } c.steps
  rw [← he] at f1 f2 f3 f5 f6 f7 f8
  refine ⟨fun l => ?_, f6, fun t => ?_, ?_, fun l s hs => ?_, fun l s hs => ?_, ?_⟩
  · rw [f1]; exact congrFun hlb l
  · rw [f3]; exact g2 t
  · rw [f2]; exact hbu
  · rw [f7 l s hs]
    unfold freqField
    rw [hgc s hs]
    show S.lb 0 s - _ = _
    rw [congrFun hlb 0]
    show masked c mask st s - c.shape s / (c.alpha * c.ntargets) * (calcCorr c _ (fun t => S.buf t s) + _) = _
    rw [hbu]
  · rw [f5 l s hs]
    show S.lf l s = _
    rw [congrFun hlf l]
    show (if s < c.steps then _ else _) = _
    rw [if_neg (by omega)]
  · rw [f8]
    show S.obj + _ = _
    rw [hob]
    show _ + ∑ s ∈ Finset.range c.steps, freqObj c s (calcCorr c _ (fun t => S.buf t s)) = _
    rw [hbu]

end

end QDng.OctFreq
