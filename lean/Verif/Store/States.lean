import Verif.Store.Lemmas

/-
Calls for one state of a multistate wave function.
-/

namespace QDng.Store

variable {V : Type} {E : Env} {me : Nat} {states : List Nat} {lo ss : Nat} {w : World V} {c : Conf} {mv : Vec}
  {K : Bool}

/-- Changes outside of the objects of the wave function. -/
theorem Inv.weaken (h : Inv E me states lo ss w c mv K) (w' : World V) (hw : ∀ a, a < w.nextV → w'.wfs a = w.wfs a)
    (hv : ∀ a, a < w.nextV → w'.vecs a = w.vecs a) (hV : w.nextV ≤ w'.nextV) (hB : w.nextB ≤ w'.nextB)
    (hl : w'.live = w.live) (hc : w'.cap = w.cap) : Inv E me states lo ss w' c mv K where
  wf := fun i a h1 h2 => (hw a (h.stLt a (mem_of_getElem? h2))).trans (h.wf i a h1 h2)
  vec := fun i a h1 h2 => (hv a (h.stLt a (mem_of_getElem? h2))).trans (h.vec i a h1 h2)
  bvec := fun i b h1 h2 h3 => (hv b (h.bufLt i b h1 h2 h3)).trans (h.bvec i b h1 h2 h3)
  nobuf := h.nobuf
  nodup := h.nodup
  selfNot := h.selfNot
  bufNot := h.bufNot
  bufInj := h.bufInj
  stLt := fun a ha => Nat.lt_of_lt_of_le (h.stLt a ha) hV
  selfLt := Nat.lt_of_lt_of_le h.selfLt hV
  bufLt := fun i b h1 h2 h3 => Nat.lt_of_lt_of_le (h.bufLt i b h1 h2 h3) hV
  noJunk := h.noJunk
  blk := fun i s k a b d => by
    obtain ⟨x, y, z⟩ := h.blk i s k a b d
    rw [hl, hc]
    exact ⟨x, y, Nat.lt_of_lt_of_le z hB⟩
  inj := h.inj
  oth := fun k hE => by
    obtain ⟨x, y, z⟩ := h.oth k hE
    rw [hl]
    exact ⟨x, Nat.lt_of_lt_of_le y hB, z⟩
  all := fun k hk => by
    rw [hl] at hk
    exact h.all k hk
  mwf := (hw me h.selfLt).trans h.mwf
  mvec := (hv me h.selfLt).trans h.mvec
  frame := fun x v hx => by
    obtain ⟨a, b, d⟩ := h.frame x v hx
    exact ⟨(hv x b).trans a, Nat.lt_of_lt_of_le b hV, d⟩

/-- The vector of the multistate wave function is changed. -/
theorem Inv.setMe (h : Inv E me states lo ss w c mv K) (v : Vec) :
    Inv E me states lo ss (w.setVec me (some v)) c v K where
  wf := h.wf
  vec := fun i a h1 h2 => (upd_other _ _ _ _ (fun e : a = me => h.selfNot (e ▸ mem_of_getElem? h2))).trans
    (h.vec i a h1 h2)
  bvec := fun i b h1 h2 h3 => (upd_other _ _ _ _ (h.bufNot i b h1 h2 h3).2).trans (h.bvec i b h1 h2 h3)
  nobuf := h.nobuf
  nodup := h.nodup
  selfNot := h.selfNot
  bufNot := h.bufNot
  bufInj := h.bufInj
  stLt := h.stLt
  selfLt := h.selfLt
  bufLt := h.bufLt
  noJunk := h.noJunk
  blk := h.blk
  inj := h.inj
  oth := h.oth
  all := h.all
  mwf := h.mwf
  mvec := upd_same _ _ _
  frame := fun x v' hx => by
    obtain ⟨a, b, d, e, f⟩ := h.frame x v' hx
    exact ⟨(upd_other _ _ _ _ e).trans a, b, d, e, f⟩

/-- The representation of the multistate wave function is changed. -/
theorem Inv.setK (h : Inv E me states lo ss w c mv K) (b : Bool) :
    Inv E me states lo ss (w.setWf me (some ⟨none, b⟩)) c mv b where
  wf := fun i a h1 h2 => (upd_other _ _ _ _ (fun e : a = me => h.selfNot (e ▸ mem_of_getElem? h2))).trans
    (h.wf i a h1 h2)
  vec := h.vec
  bvec := h.bvec
  nobuf := h.nobuf
  nodup := h.nodup
  selfNot := h.selfNot
  bufNot := h.bufNot
  bufInj := h.bufInj
  stLt := h.stLt
  selfLt := h.selfLt
  bufLt := h.bufLt
  noJunk := h.noJunk
  blk := h.blk
  inj := h.inj
  oth := h.oth
  all := h.all
  mwf := upd_same _ _ _
  mvec := h.mvec
  frame := h.frame

/-- Values are written. -/
theorem Inv.setMem (h : Inv E me states lo ss w c mv K) (f : Nat → Nat → V) :
    Inv E me states lo ss { w with mem := f } c mv K where
  wf := h.wf
  vec := h.vec
  bvec := h.bvec
  nobuf := h.nobuf
  nodup := h.nodup
  selfNot := h.selfNot
  bufNot := h.bufNot
  bufInj := h.bufInj
  stLt := h.stLt
  selfLt := h.selfLt
  bufLt := h.bufLt
  noJunk := h.noJunk
  blk := h.blk
  inj := h.inj
  oth := h.oth
  all := h.all
  mwf := h.mwf
  mvec := h.mvec
  frame := h.frame

/-- Retiring one state. -/
theorem Inv.wfRetire (h : Inv E me states lo ss w c mv K) {i a : Nat} (h0 : lo ≤ i) (ha : states[i]? = some a) :
    Good (wfRetire a w)
      (fun w' _ => ∃ c', Inv E me states lo ss w' c' mv K ∧ w'.mem = w.mem ∧ c'.buf = c.buf ∧ c'.k = c.k ∧
        (∀ s, c'.ptr i s = .null) ∧ ∀ j s, j ≠ i → c'.ptr j s = c.ptr j s)
      (fun _ => False) := by
  have hi := lt_of_getElem? ha
  unfold QDng.Store.wfRetire
  rw [h.wf i a h0 ha]
  refine Good.bind (h.retireSlot (s := false) 999 h0 hi ha) ?_
  rintro w1 - ⟨h1, m1⟩
  cases hb : c.buf i with
  | none =>
    refine good_ok ⟨_, h1, m1, rfl, rfl, ?_, ?_⟩
    · intro s
      cases s with
      | false => exact setPtr_same _ _ _ _
      | true =>
        rw [setPtr_other _ _ _ _ _ _ (by simp)]
        exact h.nobuf i h0 hi hb
    · intro j s hj
      exact setPtr_other _ _ _ _ _ _ (fun e => hj e.1)
  | some b =>
    refine Good.mono (h1.retireSlot (s := true) (x := b) 999 h0 hi hb) ?_ (fun _ x => x)
    rintro w2 - ⟨h2, m2⟩
    refine ⟨_, h2, m2.trans m1, rfl, rfl, ?_, ?_⟩
    · intro s
      cases s with
      | true => exact setPtr_same _ _ _ _
      | false =>
        rw [setPtr_other _ _ _ _ _ _ (by simp)]
        exact setPtr_same _ _ _ _
    · intro j s hj
      rw [setPtr_other _ _ _ _ _ _ (fun e => hj e.1)]
      exact setPtr_other _ _ _ _ _ _ (fun e => hj e.1)

/-- Empty slots may have got a block, nothing else changed. -/
structure Grow (c c' : Conf) : Prop where
  buf : c'.buf = c.buf
  k : c'.k = c.k
  ptr : ∀ j s, c'.ptr j s = c.ptr j s ∨ c.ptr j s = .null

theorem Grow.refl (c : Conf) : Grow c c := ⟨rfl, rfl, fun _ _ => .inl rfl⟩

theorem Grow.trans {c c' c'' : Conf} (h : Grow c c') (h' : Grow c' c'') : Grow c c'' :=
  ⟨h'.buf.trans h.buf, h'.k.trans h.k, fun j s => by
    rcases h.ptr j s with e | e
    · rcases h'.ptr j s with e' | e'
      · exact .inl (e'.trans e)
      · exact .inr (e ▸ e')
    · exact .inr e⟩

theorem Grow.keeps {c c' : Conf} (h : Grow c c') {j k : Nat} {s : Bool} (hk : c.ptr j s = .blk k) :
    c'.ptr j s = .blk k := by
  rcases h.ptr j s with e | e
  · exact e.trans hk
  · rw [hk] at e; exact absurd e (by simp)

theorem grow_setPtr (c : Conf) (i : Nat) (s : Bool) (k : Nat) (hj : c.ptr i s ≠ .junk)
    (h : ∀ k', c.ptr i s = .blk k' → k = k') : Grow c (c.setPtr i s (.blk k)) :=
  ⟨rfl, rfl, fun j t => by
    by_cases e : j = i ∧ t = s
    · obtain ⟨rfl, rfl⟩ := e
      rw [setPtr_same]
      cases hp : c.ptr j t with
      | null => exact .inr rfl
      | blk k' => exact .inl (by rw [h k' hp])
      | junk => exact absurd hp hj
    · exact .inl (setPtr_other _ _ _ _ _ _ e)⟩

/-- Taking storage for one state again. -/
theorem Inv.wfReaquire (h : Inv E me states lo ss w c mv K) {i a : Nat} (h0 : lo ≤ i) (ha : states[i]? = some a) :
    Good (wfReaquire a w)
      (fun w' _ => ∃ c', Inv E me states lo ss w' c' mv K ∧ w'.mem = w.mem ∧ Grow c c' ∧
        ∀ s, (s = false ∨ c.buf i ≠ none) → ∃ k, c'.ptr i s = .blk k)
      (fun w' => ∃ c', Inv E me states lo ss w' c' mv K ∧ w'.mem = w.mem ∧ Grow c c') := by
  have hi := lt_of_getElem? ha
  unfold QDng.Store.wfReaquire
  rw [h.wf i a h0 ha]
  refine Good.bind (P := fun w' _ => ∃ k, Inv E me states lo ss w' (c.setPtr i false (.blk k)) mv K ∧ w'.mem = w.mem ∧
    (∀ k', c.ptr i false = .blk k' → k = k')) (Good.mono (h.reaquireSlot (s := false) 999 h0 hi ha) (fun _ _ x => x)
    (fun w' x => ⟨c, x.1, x.2, Grow.refl c⟩)) ?_
  rintro w1 - ⟨k1, h1, m1, e1⟩
  have g1 : Grow c (c.setPtr i false (.blk k1)) := grow_setPtr c i false k1 (h.noJunk i false h0 hi) e1
  cases hb : c.buf i with
  | none =>
    refine good_ok ⟨_, h1, m1, g1, ?_⟩
    intro s hs
    rcases hs with rfl | hs
    · exact ⟨k1, setPtr_same _ _ _ _⟩
    · exact absurd rfl hs
  | some b =>
    refine Good.mono (h1.reaquireSlot (s := true) (x := b) 999 h0 hi hb) ?_ ?_
    · rintro w2 - ⟨k2, h2, m2, e2⟩
      refine ⟨_, h2, m2.trans m1, g1.trans (grow_setPtr _ i true k2 (h1.noJunk i true h0 hi) e2), ?_⟩
      intro s _
      cases s with
      | true => exact ⟨k2, setPtr_same _ _ _ _⟩
      | false =>
        refine ⟨k1, ?_⟩
        rw [setPtr_other _ _ _ _ _ _ (by simp)]
        exact setPtr_same _ _ _ _
    · rintro w2 ⟨h2, m2⟩
      exact ⟨_, h2, m2.trans m1, g1⟩

/-- Vector of one stride, made new. -/
theorem newVec_one (w : World V) (n : Nat) (hn : n ≠ 0) :
    newVec n 1 w =
      if w.oom w.nextB then
        .threw { w with nextB := w.nextB + 1, nextV := w.nextV + 1, vecs := upd w.vecs w.nextV none }
      else .ok { w with nextB := w.nextB + 1, nextV := w.nextV + 1, live := upd w.live w.nextB true,
                        cap := upd w.cap w.nextB n, vecs := upd w.vecs w.nextV (some (single n (.blk w.nextB))) }
        w.nextV := by
  unfold newVec initVec
  rw [if_neg (by decide)]
  simp only [Nat.div_one, allocStrides, if_neg hn, World.alloc]
  cases w.oom w.nextB with
  | true =>
    simp only [if_true, World.setVec, upd_upd]
  | false =>
    simp only [Bool.false_eq_true, if_false, World.setVec, List.map_cons, List.map_nil, refOf, single]

/-- A second buffer for one state. -/
theorem Inv.newBuf (h : Inv E me states lo ss w c mv K) {i a : Nat} (h0 : lo ≤ i) (ha : states[i]? = some a)
    (hb : c.buf i = none) :
    Inv E me states lo ss
      (({ w with nextB := w.nextB + 1, nextV := w.nextV + 1, live := upd w.live w.nextB true,
                 cap := upd w.cap w.nextB ss, vecs := upd w.vecs w.nextV (some (single ss (.blk w.nextB))) }
        : World V).setWf a (some ⟨some w.nextV, c.k i⟩))
      ⟨upd c.buf i (some w.nextV), (c.setPtr i true (.blk w.nextB)).ptr, c.k⟩ mv K where
  wf := fun j a' h1 h2 => by
    show upd w.wfs a _ a' = _
    by_cases e : j = i
    · subst e
      rw [Option.some.inj (h2.symm.trans ha), upd_same]
      show _ = some (Wf.mk (upd c.buf j (some w.nextV) j) (c.k j))
      rw [upd_same]
    · have : a' ≠ a := fun e' => e (idx_unique h.nodup (e' ▸ h2) ha)
      rw [upd_other _ _ _ _ this]
      show _ = some (Wf.mk (upd c.buf i (some w.nextV) j) (c.k j))
      rw [upd_other _ _ _ _ e]
      exact h.wf j a' h1 h2
  vec := fun j a' h1 h2 => by
    show upd w.vecs w.nextV _ a' = _
    rw [upd_other _ _ _ _ (Nat.ne_of_lt (h.stLt a' (mem_of_getElem? h2)))]
    rw [h.vec j a' h1 h2]
    exact congrArg (fun p => some (single ss p)) (setPtr_other c i true _ j false (by simp)).symm
  bvec := fun j b h1 h2 h3 => by
    show upd w.vecs w.nextV _ b = _
    have h3' : upd c.buf i (some w.nextV) j = some b := h3
    by_cases e : j = i
    · subst e
      rw [upd_same] at h3'
      injection h3' with h3'
      subst h3'
      rw [upd_same]
      exact congrArg (fun p => some (single ss p)) (setPtr_same c j true _).symm
    · rw [upd_other _ _ _ _ e] at h3'
      rw [upd_other _ _ _ _ (Nat.ne_of_lt (h.bufLt j b h1 h2 h3')), h.bvec j b h1 h2 h3']
      exact congrArg (fun p => some (single ss p)) (setPtr_other c i true _ j true (by simp [e])).symm
  nobuf := fun j h1 h2 h3 => by
    have h3' : upd c.buf i (some w.nextV) j = none := h3
    by_cases e : j = i
    · subst e
      rw [upd_same] at h3'
      exact absurd h3' (by simp)
    · rw [upd_other _ _ _ _ e] at h3'
      exact (setPtr_other c i true _ j true (by simp [e])).trans (h.nobuf j h1 h2 h3')
  nodup := h.nodup
  selfNot := h.selfNot
  bufNot := fun j b h1 h2 h3 => by
    have h3' : upd c.buf i (some w.nextV) j = some b := h3
    by_cases e : j = i
    · subst e
      rw [upd_same] at h3'
      injection h3' with h3'
      subst h3'
      exact ⟨fun hm => absurd (h.stLt _ hm) (Nat.lt_irrefl _), Nat.ne_of_gt h.selfLt⟩
    · rw [upd_other _ _ _ _ e] at h3'
      exact h.bufNot j b h1 h2 h3'
  bufInj := fun j j' b h1 h2 h1' h2' h3 h4 => by
    have h3' : upd c.buf i (some w.nextV) j = some b := h3
    have h4' : upd c.buf i (some w.nextV) j' = some b := h4
    by_cases e : j = i <;> by_cases e' : j' = i
    · exact e.trans e'.symm
    · subst e
      rw [upd_same] at h3'
      rw [upd_other _ _ _ _ e'] at h4'
      injection h3' with h3'
      subst h3'
      exact absurd (h.bufLt j' _ h1' h2' h4') (Nat.lt_irrefl _)
    · subst e'
      rw [upd_same] at h4'
      rw [upd_other _ _ _ _ e] at h3'
      injection h4' with h4'
      subst h4'
      exact absurd (h.bufLt j _ h1 h2 h3') (Nat.lt_irrefl _)
    · rw [upd_other _ _ _ _ e] at h3'
      rw [upd_other _ _ _ _ e'] at h4'
      exact h.bufInj j j' b h1 h2 h1' h2' h3' h4'
  stLt := fun a' ha' => Nat.lt_succ_of_lt (h.stLt a' ha')
  selfLt := Nat.lt_succ_of_lt h.selfLt
  bufLt := fun j b h1 h2 h3 => by
    have h3' : upd c.buf i (some w.nextV) j = some b := h3
    by_cases e : j = i
    · subst e
      rw [upd_same] at h3'
      injection h3' with h3'
      subst h3'
      exact Nat.lt_succ_self _
    · rw [upd_other _ _ _ _ e] at h3'
      exact Nat.lt_succ_of_lt (h.bufLt j b h1 h2 h3')
  noJunk := fun j t h1 h2 => by
    by_cases e : j = i ∧ t = true
    · obtain ⟨rfl, rfl⟩ := e
      exact fun hc => by
        have := (setPtr_same c j true (.blk w.nextB)).symm.trans hc
        exact absurd this (by simp)
    · exact fun hc => h.noJunk j t h1 h2 ((setPtr_other c i true _ j t e).symm.trans hc)
  blk := fun j t k h1 h2 h3 => by
    by_cases e : j = i ∧ t = true
    · obtain ⟨rfl, rfl⟩ := e
      have := (setPtr_same c j true (.blk w.nextB)).symm.trans h3
      injection this with this
      subst this
      exact ⟨upd_same _ _ _, upd_same _ _ _, Nat.lt_succ_self _⟩
    · obtain ⟨x, y, z⟩ := h.blk j t k h1 h2 ((setPtr_other c i true _ j t e).symm.trans h3)
      exact ⟨(upd_other _ _ _ _ (Nat.ne_of_lt z)).trans x, (upd_other _ _ _ _ (Nat.ne_of_lt z)).trans y,
        Nat.lt_succ_of_lt z⟩
  inj := fun j t j' t' k h1 h2 h1' h2' h3 h4 => by
    by_cases e : j = i ∧ t = true <;> by_cases e' : j' = i ∧ t' = true
    · exact ⟨e.1.trans e'.1.symm, e.2.trans e'.2.symm⟩
    · obtain ⟨rfl, rfl⟩ := e
      have := (setPtr_same c j true (.blk w.nextB)).symm.trans h3
      injection this with this
      subst this
      exact absurd (h.blk j' t' _ h1' h2' ((setPtr_other c _ true _ j' t' e').symm.trans h4)).2.2 (Nat.lt_irrefl _)
    · obtain ⟨rfl, rfl⟩ := e'
      have := (setPtr_same c j' true (.blk w.nextB)).symm.trans h4
      injection this with this
      subst this
      exact absurd (h.blk j t _ h1 h2 ((setPtr_other c _ true _ j t e).symm.trans h3)).2.2 (Nat.lt_irrefl _)
    · exact h.inj j t j' t' k h1 h2 h1' h2' ((setPtr_other c i true _ j t e).symm.trans h3)
        ((setPtr_other c i true _ j' t' e').symm.trans h4)
  oth := fun k hE => by
    obtain ⟨x, y, z⟩ := h.oth k hE
    refine ⟨(upd_other _ _ _ _ (Nat.ne_of_lt y)).trans x, Nat.lt_succ_of_lt y, fun j t h1 h2 h3 => ?_⟩
    by_cases e : j = i ∧ t = true
    · obtain ⟨rfl, rfl⟩ := e
      have := (setPtr_same c j true (.blk w.nextB)).symm.trans h3
      injection this with this
      exact absurd this (Nat.ne_of_gt y)
    · exact z j t h1 h2 ((setPtr_other c i true _ j t e).symm.trans h3)
  all := fun k hk => by
    have hk' : upd w.live w.nextB true k = true := hk
    by_cases e : k = w.nextB
    · exact .inr ⟨i, true, h0, lt_of_getElem? ha, (setPtr_same c i true _).trans (by rw [e])⟩
    · rw [upd_other _ _ _ _ e] at hk'
      rcases h.all k hk' with x | ⟨j, t, h1, h2, h3⟩
      · exact .inl x
      · refine .inr ⟨j, t, h1, h2, ?_⟩
        have : ¬ (j = i ∧ t = true) := by
          rintro ⟨rfl, rfl⟩
          rw [h.nobuf j h1 h2 hb] at h3
          exact absurd h3 (by simp)
        exact (setPtr_other c i true _ j t this).trans h3
  mwf := by
    show upd w.wfs a _ me = _
    rw [upd_other _ _ _ _ (fun e : me = a => h.selfNot (e ▸ mem_of_getElem? ha))]
    exact h.mwf
  mvec := by
    show upd w.vecs w.nextV _ me = _
    rw [upd_other _ _ _ _ (Nat.ne_of_lt h.selfLt)]
    exact h.mvec
  frame := fun x v hx => by
    obtain ⟨p, q, r, s, t⟩ := h.frame x v hx
    refine ⟨?_, Nat.lt_succ_of_lt q, r, s, fun j h1 h2 h3 => ?_⟩
    · show upd w.vecs w.nextV _ x = _
      rw [upd_other _ _ _ _ (Nat.ne_of_lt q)]
      exact p
    · have h3' : upd c.buf i (some w.nextV) j = some x := h3
      by_cases e : j = i
      · subst e
        rw [upd_same] at h3'
        injection h3' with h3'
        exact absurd h3'.symm (Nat.ne_of_lt q)
      · rw [upd_other _ _ _ _ e] at h3'
        exact t j h1 h2 h3'

/-- The two buffers of one state change places. -/
def Conf.flip (c : Conf) (i : Nat) (b : Bool) : Conf :=
  ⟨c.buf, fun j t => if j = i then c.ptr i (!t) else c.ptr j t, upd c.k i b⟩

theorem flip_same (c : Conf) (i : Nat) (b t : Bool) : (c.flip i b).ptr i t = c.ptr i (!t) := if_pos rfl

theorem flip_other (c : Conf) (i j : Nat) (b t : Bool) (h : j ≠ i) : (c.flip i b).ptr j t = c.ptr j t := if_neg h

/-- Every slot after the exchange was a slot before. -/
theorem flip_src (c : Conf) (i : Nat) (b : Bool) (j : Nat) (t : Bool) :
    (c.flip i b).ptr j t = c.ptr j (if j = i then !t else t) := by
  by_cases e : j = i
  · subst e; rw [flip_same, if_pos rfl]
  · rw [flip_other _ _ _ _ _ e, if_neg e]

theorem Inv.flip (h : Inv E me states lo ss w c mv K) {i a x : Nat} (b : Bool) (h0 : lo ≤ i)
    (ha : states[i]? = some a) (hb : c.buf i = some x) :
    Inv E me states lo ss
      (((w.setVec a (some (single ss (c.ptr i true)))).setVec x (some (single ss (c.ptr i false)))).setWf a
        (some ⟨some x, b⟩)) (c.flip i b) mv K where
  wf := fun j a' h1 h2 => by
    show upd w.wfs a _ a' = some ⟨c.buf j, upd c.k i b j⟩
    by_cases e : j = i
    · subst e
      rw [Option.some.inj (h2.symm.trans ha), upd_same, upd_same, hb]
    · have : a' ≠ a := fun e' => e (idx_unique h.nodup (e' ▸ h2) ha)
      rw [upd_other _ _ _ _ this, upd_other _ _ _ _ e]
      exact h.wf j a' h1 h2
  vec := fun j a' h1 h2 => by
    show upd (upd w.vecs a _) x _ a' = _
    have hx : a' ≠ x := fun e => (h.bufNot i x h0 (lt_of_getElem? ha) hb).1 (e ▸ mem_of_getElem? h2)
    rw [upd_other _ _ _ _ hx]
    by_cases e : j = i
    · subst e
      rw [Option.some.inj (h2.symm.trans ha), upd_same, flip_same]
      rfl
    · have : a' ≠ a := fun e' => e (idx_unique h.nodup (e' ▸ h2) ha)
      rw [upd_other _ _ _ _ this, flip_other _ _ _ _ _ e]
      exact h.vec j a' h1 h2
  bvec := fun j y h1 h2 h3 => by
    show upd (upd w.vecs a _) x _ y = _
    have h3' : c.buf j = some y := h3
    by_cases e : j = i
    · subst e
      rw [Option.some.inj (h3'.symm.trans hb), upd_same, flip_same]
      rfl
    · have hy : y ≠ x := fun e' => e (h.bufInj j i y h1 h2 h0 (lt_of_getElem? ha) h3' (e' ▸ hb))
      have hy' : y ≠ a := fun e' => (h.bufNot j y h1 h2 h3').1 (e' ▸ mem_of_getElem? ha)
      rw [upd_other _ _ _ _ hy, upd_other _ _ _ _ hy', flip_other _ _ _ _ _ e]
      exact h.bvec j y h1 h2 h3'
  nobuf := fun j h1 h2 h3 => by
    have h3' : c.buf j = none := h3
    have e : j ≠ i := by
      rintro rfl
      rw [hb] at h3'
      exact absurd h3' (by simp)
    rw [flip_other _ _ _ _ _ e]
    exact h.nobuf j h1 h2 h3'
  nodup := h.nodup
  selfNot := h.selfNot
  bufNot := h.bufNot
  bufInj := h.bufInj
  stLt := h.stLt
  selfLt := h.selfLt
  bufLt := h.bufLt
  noJunk := fun j t h1 h2 => by
    rw [flip_src]
    exact h.noJunk j _ h1 h2
  blk := fun j t k h1 h2 h3 => by
    rw [flip_src] at h3
    exact h.blk j _ k h1 h2 h3
  inj := fun j t j' t' k h1 h2 h1' h2' h3 h4 => by
    rw [flip_src] at h3 h4
    obtain ⟨e1, e2⟩ := h.inj j _ j' _ k h1 h2 h1' h2' h3 h4
    subst e1
    refine ⟨rfl, ?_⟩
    by_cases e : j = i
    · rw [if_pos e, if_pos e] at e2
      cases t <;> cases t' <;> simp_all
    · rw [if_neg e, if_neg e] at e2
      exact e2
  oth := fun k hE => by
    obtain ⟨p, q, r⟩ := h.oth k hE
    refine ⟨p, q, fun j t h1 h2 => ?_⟩
    rw [flip_src]
    exact r j _ h1 h2
  all := fun k hk => by
    rcases h.all k hk with p | ⟨j, t, h1, h2, h3⟩
    · exact .inl p
    · refine .inr ⟨j, if j = i then !t else t, h1, h2, ?_⟩
      rw [flip_src]
      by_cases e : j = i
      · simp only [if_pos e, Bool.not_not]
        exact h3
      · simp only [if_neg e]
        exact h3
  mwf := by
    show upd w.wfs a _ me = _
    rw [upd_other _ _ _ _ (fun e : me = a => h.selfNot (e ▸ mem_of_getElem? ha))]
    exact h.mwf
  mvec := by
    show upd (upd w.vecs a _) x _ me = _
    rw [upd_other _ _ _ _ (fun e : me = x => (h.bufNot i x h0 (lt_of_getElem? ha) hb).2 e.symm),
      upd_other _ _ _ _ (fun e : me = a => h.selfNot (e ▸ mem_of_getElem? ha))]
    exact h.mvec
  frame := fun y v hy => by
    obtain ⟨p, q, r, s, t⟩ := h.frame y v hy
    refine ⟨?_, q, r, s, t⟩
    show upd (upd w.vecs a _) x _ y = _
    rw [upd_other _ _ _ _ (fun e : y = x => t i h0 (lt_of_getElem? ha) (e ▸ hb)),
      upd_other _ _ _ _ (fun e : y = a => r (e ▸ mem_of_getElem? ha))]
    exact p

/-- What `IsKspace` does to the slots of a state. -/
structure Switched (c c' : Conf) (i : Nat) (b : Bool) : Prop where
  k : c'.k = upd c.k i b
  others : ∀ j s, j ≠ i → c'.ptr j s = c.ptr j s
  bufs : ∀ j, j ≠ i → c'.buf j = c.buf j
  buf : c'.buf i ≠ none
  stay : c.k i = b → c'.ptr i false = c.ptr i false ∧ (c.buf i ≠ none → c'.ptr i true = c.ptr i true) ∧
    (c.buf i = none → ∃ k, c'.ptr i true = .blk k)
  change : c.k i ≠ b → c'.ptr i true = c.ptr i false ∧ (c.buf i ≠ none → c'.ptr i false = c.ptr i true) ∧
    (c.buf i = none → ∃ k, c'.ptr i false = .blk k)

theorem getBuf_some (h : Inv E me states lo ss w c mv K) {i a x : Nat} (h0 : lo ≤ i) (ha : states[i]? = some a)
    (hb : c.buf i = some x) : getBuf a w = .ok w x := by
  unfold getBuf
  rw [h.wf i a h0 ha, h.vec i a h0 ha, hb]

theorem getBuf_none (h : Inv E me states lo ss w c mv K) {i a : Nat} (hss : ss ≠ 0) (h0 : lo ≤ i)
    (ha : states[i]? = some a) (hb : c.buf i = none) :
    getBuf a w = (newVec ss 1 w).bind fun w x => .ok (w.setWf a (some ⟨some x, c.k i⟩)) x := by
  unfold getBuf
  rw [h.wf i a h0 ha, h.vec i a h0 ha, hb]
  rfl

/-- The part of `IsKspace` after the second buffer is there. -/
theorem kspace_tail (h : Inv E me states lo ss w c mv K) {i a x : Nat} (b : Bool) (h0 : lo ≤ i)
    (ha : states[i]? = some a) (hb : c.buf i = some x) (f : World V → Nat → Res V Unit)
    (hf : f = fun w q =>
      match w.vecs a, w.vecs q with
      | some v, some u =>
        (if u.size ≠ v.size ∨ u.ptrs.length ≠ v.ptrs.length then newsize q v.size v.ptrs.length w else .ok w ()).bind
          fun w _ =>
            match w.wfs a with
            | none => .ub
            | some x =>
              if x.kspace = b then .ok w ()
              else (swapVec a q w).bind fun w _ => .ok (w.setWf a (some { x with kspace := b })) ()
      | _, _ => .ub) :
    Good (f w x)
      (fun w' _ => Inv E me states lo ss w' (if c.k i = b then c else c.flip i b) mv K ∧ w'.mem = w.mem)
      (fun _ => False) := by
  have hi := lt_of_getElem? ha
  have hva := h.vec i a h0 ha
  have hvx := h.bvec i x h0 hi hb
  subst hf
  simp only [hva, hvx]
  rw [if_neg (by simp [single])]
  simp only [Res.bind, h.wf i a h0 ha]
  by_cases hk : c.k i = b
  · rw [if_pos hk, if_pos hk]
    exact good_ok ⟨h, rfl⟩
  · rw [if_neg hk, if_neg hk]
    simp only [swapVec, hva, hvx]
    rw [if_neg (by simp [single]), if_neg (by simp [single])]
    simp only [Res.bind]
    have := h.flip b h0 ha hb
    rw [hb]
    exact ⟨this, rfl⟩

/-- `IsKspace` of one state. -/
theorem Inv.wfKspace (h : Inv E me states lo ss w c mv K) {i a : Nat} (b : Bool) (hss : ss ≠ 0) (h0 : lo ≤ i)
    (ha : states[i]? = some a) :
    Good (wfKspace a b w)
      (fun w' _ => ∃ c', Inv E me states lo ss w' c' mv K ∧ w'.mem = w.mem ∧ Switched c c' i b)
      (fun w' => Inv E me states lo ss w' c mv K ∧ w'.mem = w.mem) := by
  have hi := lt_of_getElem? ha
  unfold QDng.Store.wfKspace
  cases hb : c.buf i with
  | some x =>
    rw [getBuf_some h h0 ha hb]
    refine Good.mono (kspace_tail h b h0 ha hb _ rfl) ?_ (fun _ x => x.elim)
    rintro w' - ⟨h', m'⟩
    refine ⟨_, h', m', ?_⟩
    by_cases hk : c.k i = b
    · rw [if_pos hk]
      exact ⟨(upd_self _ _ _ hk).symm, fun _ _ _ => rfl, fun _ _ => rfl, by rw [hb]; simp,
        fun _ => ⟨rfl, fun _ => rfl, fun e => by rw [hb] at e; simp at e⟩, fun e => absurd hk e⟩
    · rw [if_neg hk]
      exact ⟨rfl, fun j s hj => flip_other _ _ _ _ _ hj, fun _ _ => rfl, by show c.buf i ≠ none; rw [hb]; simp,
        fun e => absurd e hk,
        fun _ => ⟨flip_same _ _ _ _, fun _ => flip_same _ _ _ _, fun e => by rw [hb] at e; simp at e⟩⟩
  | none =>
    rw [getBuf_none h hss h0 ha hb, newVec_one w ss hss]
    by_cases ho : w.oom w.nextB = true
    · rw [if_pos ho]
      exact ⟨h.weaken _ (fun _ _ => rfl) (fun y hy => upd_other _ _ _ _ (Nat.ne_of_lt hy)) (Nat.le_succ _)
        (Nat.le_succ _) rfl rfl, rfl⟩
    · rw [if_neg ho]
      have hn := h.newBuf h0 ha hb
      have hcb : (⟨upd c.buf i (some w.nextV), (c.setPtr i true (.blk w.nextB)).ptr, c.k⟩ : Conf).buf i
        = some w.nextV := upd_same _ _ _
      refine Good.mono (kspace_tail hn b h0 ha hcb _ rfl) ?_ (fun _ x => x.elim)
      rintro w' - ⟨h', m'⟩
      refine ⟨_, h', m', ?_⟩
      by_cases hk : c.k i = b
      · rw [if_pos hk]
        refine ⟨(upd_self _ _ _ hk).symm, fun j s hj => ?_, fun j hj => upd_other _ _ _ _ hj, ?_, fun _ => ?_,
          fun e => absurd hk e⟩
        · exact setPtr_other c i true _ j s (fun e => hj e.1)
        · rw [hcb]; simp
        · exact ⟨setPtr_other c i true _ i false (by simp), fun e => absurd hb e, fun _ => ⟨_, setPtr_same c i true _⟩⟩
      · rw [if_neg hk]
        refine ⟨rfl, fun j s hj => ?_, fun j hj => upd_other _ _ _ _ hj, ?_, fun e => absurd e hk, fun _ => ?_⟩
        · exact (flip_other _ _ _ _ _ hj).trans (setPtr_other c i true _ j s (fun e => hj e.1))
        · show upd c.buf i (some w.nextV) i ≠ none
          rw [upd_same]; simp
        · refine ⟨?_, fun e => absurd hb e, fun _ => ⟨w.nextB, ?_⟩⟩
          · exact (flip_same _ _ _ _).trans (setPtr_other c i true _ i false (by simp))
          · exact (flip_same _ _ _ _).trans (setPtr_same c i true _)

/-- The blocks in use after giving one back. -/
def freed (l : Nat → Bool) : Ptr → Nat → Bool
  | .blk k => upd l k false
  | _ => l

/-- `delete` of a vector with one stride of its own. -/
theorem delete_single (x n : Nat) (p : Ptr) (w : World V) (h : w.vecs x = some (single n p)) (hj : p ≠ .junk)
    (hl : ∀ k, p = .blk k → w.live k = true) :
    ∃ w', deleteVec x w = .ok w' () ∧ w'.vecs = upd w.vecs x none ∧ w'.wfs = w.wfs ∧ w'.mem = w.mem ∧
      w'.cap = w.cap ∧ w'.nextB = w.nextB ∧ w'.nextV = w.nextV ∧
      w'.live = freed w.live p := by
  cases p with
  | null =>
    refine ⟨w.setVec x none, ?_, rfl, rfl, rfl, rfl, rfl, rfl, rfl⟩
    simp only [deleteVec, destroyVec, h, single, Bool.false_eq_true, if_false, freeAll, World.free, Res.bind,
      World.setVec, upd_upd]
  | blk k =>
    refine ⟨({ w with live := upd w.live k false } : World V).setVec x none, ?_, rfl, rfl, rfl, rfl, rfl, rfl, rfl⟩
    simp only [deleteVec, destroyVec, h, single, Bool.false_eq_true, if_false, freeAll, World.free, hl k rfl, Res.bind,
      World.setVec, upd_upd, if_true]
  | junk => exact absurd rfl hj

/-- A state without blocks leaves. -/
theorem Inv.drop (h : Inv E me states lo ss w c mv K) {a : Nat} (ha : states[lo]? = some a)
    (hp : ∀ s, c.ptr lo s = .null) (w' : World V) (hv : ∀ y, y ≠ a → c.buf lo ≠ some y → w'.vecs y = w.vecs y)
    (hw : ∀ y, y ≠ a → w'.wfs y = w.wfs y) (hl : w'.live = w.live) (hc : w'.cap = w.cap) (hB : w'.nextB = w.nextB)
    (hV : w'.nextV = w.nextV) : Inv E me states (lo + 1) ss w' c mv K := by
  have hlo := lt_of_getElem? ha
  have le : ∀ {i}, lo + 1 ≤ i → lo ≤ i := fun h => Nat.le_of_succ_le h
  have neSt : ∀ i a', lo + 1 ≤ i → states[i]? = some a' → a' ≠ a := by
    intro i a' h1 h2 e
    have := idx_unique h.nodup (e ▸ h2) ha
    omega
  have stNoBuf : ∀ a' ∈ states, c.buf lo ≠ some a' :=
    fun a' h2 e => (h.bufNot lo a' (Nat.le_refl _) hlo e).1 h2
  exact {
    wf := fun i a' h1 h2 => (hw a' (neSt i a' h1 h2)).trans (h.wf i a' (le h1) h2)
    vec := fun i a' h1 h2 => (hv a' (neSt i a' h1 h2) (stNoBuf a' (mem_of_getElem? h2))).trans (h.vec i a' (le h1) h2)
    bvec := fun i b h1 h2 h3 => by
      refine (hv b ?_ ?_).trans (h.bvec i b (le h1) h2 h3)
      · exact fun e => (h.bufNot i b (le h1) h2 h3).1 (e ▸ mem_of_getElem? ha)
      · intro e
        have := h.bufInj i lo b (le h1) h2 (Nat.le_refl _) hlo h3 e
        omega
    nobuf := fun i h1 => h.nobuf i (le h1)
    nodup := h.nodup
    selfNot := h.selfNot
    bufNot := fun i b h1 => h.bufNot i b (le h1)
    bufInj := fun i j b h1 h2 h3 => h.bufInj i j b (le h1) h2 (le h3)
    stLt := by rw [hV]; exact h.stLt
    selfLt := by rw [hV]; exact h.selfLt
    bufLt := fun i b h1 => by rw [hV]; exact h.bufLt i b (le h1)
    noJunk := fun i s h1 => h.noJunk i s (le h1)
    blk := fun i s k h1 => by rw [hl, hc, hB]; exact h.blk i s k (le h1)
    inj := fun i s j t k h1 h2 h3 => h.inj i s j t k (le h1) h2 (le h3)
    oth := fun k hE => by
      rw [hl, hB]
      obtain ⟨p, q, r⟩ := h.oth k hE
      exact ⟨p, q, fun i s h1 => r i s (le h1)⟩
    all := fun k hk => by
      rw [hl] at hk
      rcases h.all k hk with p | ⟨i, s, h1, h2, h3⟩
      · exact .inl p
      · refine .inr ⟨i, s, ?_, h2, h3⟩
        have : i ≠ lo := by
          rintro rfl
          rw [hp s] at h3
          exact absurd h3 (by simp)
        omega
    mwf := by
      rw [hw me (fun e => h.selfNot (e ▸ mem_of_getElem? ha))]
      exact h.mwf
    mvec := by
      rw [hv me (fun e => h.selfNot (e ▸ mem_of_getElem? ha))
        (fun e => (h.bufNot lo me (Nat.le_refl _) hlo e).2 rfl)]
      exact h.mvec
    frame := fun x v hx => by
      obtain ⟨p, q, r, s, t⟩ := h.frame x v hx
      refine ⟨?_, by rw [hV]; exact q, r, s, fun i h1 => t i (le h1)⟩
      rw [hv x (fun e => r (e ▸ mem_of_getElem? ha)) (t lo (Nat.le_refl _) hlo)]
      exact p }

/-- Freeing the pointer of a slot (also an empty one). -/
theorem Inv.clear (h : Inv E me states lo ss w c mv K) {i x : Nat} {s : Bool} (h0 : lo ≤ i)
    (hi : i < states.length) (hx : slotId states c i s = some x) :
    Inv E me states lo ss (({ w with live := freed w.live (c.ptr i s) } : World V).setVec x (some (single ss .null))) (c.setPtr i s .null) mv K := by
  cases hp : c.ptr i s with
  | null =>
    have hv := h.slotVec h0 hi hx
    rw [hp] at hv
    refine h.slot h0 hi hx rfl rfl rfl (Nat.le_refl _) (by simp) (fun _ e => by simp at e) (fun _ _ => ⟨rfl, rfl⟩) ?_
    intro k hk
    rcases h.all k hk with p | ⟨j, t, h1, h2, h3⟩
    · exact .inl p
    · refine .inr (.inl ⟨j, t, h1, h2, ?_, h3⟩)
      rintro ⟨rfl, rfl⟩
      rw [hp] at h3
      exact absurd h3 (by simp)
  | blk k => exact h.free h0 hi hx hp
  | junk => exact absurd hp (h.noJunk i s h0 hi)

/-- `delete` of the first state that is left. -/
theorem Inv.wfDelete (h : Inv E me states lo ss w c mv K) {a : Nat} (ha : states[lo]? = some a) :
    Good (wfDelete a w)
      (fun w' _ => ∃ c', Inv E me states (lo + 1) ss w' c' mv K ∧ w'.mem = w.mem ∧ w'.vecs a = none ∧ w'.wfs a = none ∧
        (∀ b, c.buf lo = some b → w'.vecs b = none) ∧ (∀ j, lo < j → c'.buf j = c.buf j) ∧
        (∀ y, w.vecs y = none → w'.vecs y = none) ∧ (∀ y, w.wfs y = none → w'.wfs y = none))
      (fun _ => False) := by
  have hlo := lt_of_getElem? ha
  have l0 : lo ≤ lo := Nat.le_refl _
  unfold QDng.Store.wfDelete
  rw [h.wf lo a l0 ha]
  simp only [deleteBuf]
  have key : ∀ {w1 : World V}, w1.mem = w.mem → w1.wfs = w.wfs → w1.cap = w.cap → w1.nextB = w.nextB →
      w1.nextV = w.nextV → w1.vecs a = w.vecs a →
      (∀ y, c.buf lo ≠ some y → w1.vecs y = w.vecs y) → (∀ y, c.buf lo = some y → w1.vecs y = none) →
      w1.live = freed w.live (c.ptr lo true) →
      Good ((deleteVec a w1).bind fun w _ => .ok (w.setWf a none) ())
      (fun w' _ => ∃ c', Inv E me states (lo + 1) ss w' c' mv K ∧ w'.mem = w.mem ∧ w'.vecs a = none ∧ w'.wfs a = none ∧
        (∀ b, c.buf lo = some b → w'.vecs b = none) ∧ (∀ j, lo < j → c'.buf j = c.buf j) ∧
        (∀ y, w.vecs y = none → w'.vecs y = none) ∧ (∀ y, w.wfs y = none → w'.wfs y = none))
      (fun _ => False) := by
    intro w1 e1 e2 e3 e4 e5 e6 e7 e7' e8
    have hva := h.vec lo a l0 ha
    have hlive : ∀ k, c.ptr lo false = .blk k → w1.live k = true := by
      intro k hk
      rw [e8]
      have hk' := (h.blk lo false k l0 hlo hk).1
      cases hp : c.ptr lo true with
      | null => exact hk'
      | junk => exact hk'
      | blk k' =>
        have : k ≠ k' := by
          rintro rfl
          exact absurd (h.inj lo false lo true k l0 hlo l0 hlo hk hp).2 (by simp)
        exact (upd_other _ _ _ _ this).trans hk'
    obtain ⟨w2, d1, d2, d3, d4, d5, d6, d7, d8⟩ :=
      delete_single a ss (c.ptr lo false) w1 (e6.trans hva) (h.noJunk lo false l0 hlo) hlive
    rw [d1]
    refine good_ok ?_
    have goal2 : ∀ c0 : Conf, ∀ w0 : World V, Inv E me states lo ss w0 c0 mv K → c0.buf = c.buf →
        (∀ s, c0.ptr lo s = .null) → w0.live = w2.live → w0.cap = w.cap → w0.nextB = w.nextB → w0.nextV = w.nextV →
        w0.wfs = w.wfs → (∀ y, y ≠ a → c.buf lo ≠ some y → w0.vecs y = w.vecs y) →
        Inv E me states (lo + 1) ss (w2.setWf a none) c0 mv K := by
      intro c0 w0 h0 hb hn l1 l2 l3 l4 l5 l6
      refine h0.drop ha hn _ ?_ ?_ l1.symm (d5.trans (e3.trans l2.symm)) (d6.trans (e4.trans l3.symm))
        (d7.trans (e5.trans l4.symm))
      · intro y hy hy'
        rw [hb] at hy'
        show w2.vecs y = w0.vecs y
        rw [d2, upd_other _ _ _ _ hy, e7 y hy', l6 y hy hy']
      · intro y hy
        show upd w2.wfs a none y = w0.wfs y
        rw [upd_other _ _ _ _ hy, d3, e2, l5]
    have rest : ∀ c0 : Conf, Inv E me states (lo + 1) ss (w2.setWf a none) c0 mv K → c0.buf = c.buf →
      ∃ c', Inv E me states (lo + 1) ss (w2.setWf a none) c' mv K ∧ (w2.setWf a none).mem = w.mem ∧
        (w2.setWf a none).vecs a = none ∧ (w2.setWf a none).wfs a = none ∧
        (∀ b, c.buf lo = some b → (w2.setWf a none).vecs b = none) ∧ (∀ j, lo < j → c'.buf j = c.buf j) ∧
        (∀ y, w.vecs y = none → (w2.setWf a none).vecs y = none) ∧
        (∀ y, w.wfs y = none → (w2.setWf a none).wfs y = none) := by
      intro c0 h0 hb
      refine ⟨c0, h0, d4.trans e1, ?_, upd_same _ _ _, ?_, fun j _ => by rw [hb], ?_, ?_⟩
      · show w2.vecs a = none
        rw [d2, upd_same]
      · intro b hb'
        show w2.vecs b = none
        rw [d2]
        by_cases e : b = a
        · rw [e, upd_same]
        · rw [upd_other _ _ _ _ e]
          exact e7' b hb'
      · intro y hy
        show w2.vecs y = none
        rw [d2]
        by_cases e : y = a
        · rw [e, upd_same]
        · rw [upd_other _ _ _ _ e]
          by_cases e' : c.buf lo = some y
          · exact e7' y e'
          · rw [e7 y e', hy]
      · intro y hy
        show upd w2.wfs a none y = none
        by_cases e : y = a
        · rw [e, upd_same]
        · rw [upd_other _ _ _ _ e, d3, e2, hy]
    cases hb : c.buf lo with
    | none =>
      have h1 := h.clear (s := false) l0 hlo ha
      have hn : ∀ s, (c.setPtr lo false .null).ptr lo s = .null := by
        intro s
        cases s with
        | false => exact setPtr_same _ _ _ _
        | true => exact (setPtr_other _ _ _ _ _ _ (by simp)).trans (h.nobuf lo l0 hlo hb)
      have := goal2 _ _ h1 rfl hn (by
        show _ = w2.live
        rw [d8, e8, h.nobuf lo l0 hlo hb]
        rfl) rfl rfl rfl rfl (fun y hy _ => upd_other _ _ _ _ hy)
      obtain ⟨c', q⟩ := rest _ this rfl
      exact ⟨c', q.1, q.2.1, q.2.2.1, q.2.2.2.1, fun b e => by simp at e, q.2.2.2.2.2⟩
    | some b =>
      have h1 := h.clear (s := true) (x := b) l0 hlo hb
      have h2 := h1.clear (s := false) l0 hlo ha
      have hn : ∀ s, ((c.setPtr lo true .null).setPtr lo false .null).ptr lo s = .null := by
        intro s
        cases s with
        | false => exact setPtr_same _ _ _ _
        | true => exact (setPtr_other _ _ _ _ _ _ (by simp)).trans (setPtr_same _ _ _ _)
      have := goal2 _ _ h2 rfl hn (by
        show _ = w2.live
        rw [d8, e8, setPtr_other _ _ _ _ _ _ (by simp)]
        rfl) rfl rfl rfl rfl (by
          intro y hy hy'
          have e : y ≠ b := fun e => hy' (by rw [hb, e])
          exact (upd_other _ _ _ _ hy).trans (upd_other _ _ _ _ e))
      have r := rest _ this rfl
      rw [hb] at r
      exact r
  cases hb : c.buf lo with
  | none =>
    rw [hb] at key
    exact key rfl rfl rfl rfl rfl rfl (fun _ _ => rfl) (fun _ e => by simp at e)
      (by rw [h.nobuf lo l0 hlo hb]; rfl)
  | some b =>
    have hvb := h.bvec lo b l0 hlo hb
    obtain ⟨w1, d1, d2, d3, d4, d5, d6, d7, d8⟩ :=
      delete_single b ss (c.ptr lo true) w hvb (h.noJunk lo true l0 hlo) (fun k hk => (h.blk lo true k l0 hlo hk).1)
    simp only [d1, Res.bind]
    rw [hb] at key
    refine key (w1 := w1) d4 d3 d5 d6 d7 ?_ ?_ ?_ d8
    · rw [d2, upd_other _ _ _ _ (fun e : a = b => (h.bufNot lo b l0 hlo hb).1 (e ▸ mem_of_getElem? ha))]
    · intro y hy
      rw [d2, upd_other _ _ _ _ (fun e : y = b => hy (by rw [e]))]
    · intro y hy
      injection hy with hy
      rw [d2, ← hy, upd_same]

end QDng.Store
