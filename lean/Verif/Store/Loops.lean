import Verif.Store.States

/-
Calls for a multistate wave function: loops over the states, then the links.
-/

namespace QDng.Store

variable {V : Type} {E : Env} {me : Nat} {states : List Nat} {lo ss : Nat} {w : World V} {c : Conf} {mv : Vec}
  {K : Bool}

theorem forUpTo_good (body : Nat → World V → Res V Unit) (P : Nat → World V → Prop) (Q : World V → Prop) (N : Nat)
    (step : ∀ s w, s < N → P s w → Good (body s w) (fun w' _ => P (s + 1) w') Q) :
    ∀ n s w, s + n = N → P s w → Good (forUpTo body s n w) (fun w' _ => P N w') Q
  | 0, s, w, e, h => by
    have : s = N := by omega
    exact good_ok (this ▸ h)
  | n + 1, s, w, e, h =>
    Good.bind (step s w (by omega) h) fun w' _ h' => forUpTo_good body P Q N step n (s + 1) w' (by omega) h'

theorem forStates_good (f : Nat → World V → Res V Unit) (P : Nat → World V → Prop) (Q : World V → Prop)
    (states : List Nat)
    (step : ∀ i a w, states[i]? = some a → P i w → Good (f a w) (fun w' _ => P (i + 1) w') Q) :
    ∀ (l : List Nat) (i : Nat) (w : World V), (∀ j, l[j]? = states[i + j]?) → P i w →
      Good (forStates f l w) (fun w' _ => P (i + l.length) w') Q
  | [], i, w, _, h => good_ok h
  | a :: as, i, w, e, h => by
    have ha : states[i]? = some a := by
      have := e 0
      simpa using this.symm
    refine Good.bind (step i a w ha h) fun w' _ h' => ?_
    have := forStates_good f P Q states step as (i + 1) w' (fun j => by
      have := e (j + 1)
      rw [List.getElem?_cons_succ] at this
      rw [this]
      congr 1
      omega) h'
    rw [show i + (a :: as).length = i + 1 + as.length by simp; omega]
    exact this

/-- The vector of a multistate wave function whose states are linked. -/
structure Link (states : List Nat) (ss : Nat) (mv : Vec) : Prop where
  isRef : mv.isRef = true
  locked : mv.locked = false
  ssize : mv.ssize = ss
  size : mv.size = states.length * ss
  len : mv.ptrs.length = states.length
  refs : mv.refs = states.map fun a => .to a 0

theorem Link.set (h : Link states ss mv) (s : Nat) (p : Ptr) : Link states ss { mv with ptrs := mv.ptrs.set s p } :=
  ⟨h.isRef, h.locked, h.ssize, h.size, by rw [List.length_set]; exact h.len, h.refs⟩

theorem Link.ref (h : Link states ss mv) {s a : Nat} (ha : states[s]? = some a) : mv.refs[s]? = some (.to a 0) := by
  rw [h.refs, List.getElem?_map, ha]; rfl

/-- Every stride that is there is the one of its state. -/
def Weak (states : List Nat) (c : Conf) (mv : Vec) : Prop :=
  ∀ i, i < states.length → mv.ptrs[i]? = some (c.ptr i false) ∨ mv.ptrs[i]? = some .null

/-- The strides are those of the states. -/
def Strong (states : List Nat) (c : Conf) (mv : Vec) : Prop :=
  ∀ i, i < states.length → mv.ptrs[i]? = some (c.ptr i false)

theorem Strong.weak (h : Strong states c mv) : Weak states c mv := fun i hi => .inl (h i hi)

theorem getElem?_set_of_lt {A : Type} {l : List A} {s : Nat} (h : s < l.length) (x : A) (i : Nat) :
    (l.set s x)[i]? = if i = s then some x else l[i]? := by
  rw [List.getElem?_set]
  by_cases e : s = i
  · subst e
    simp [h]
  · rw [if_neg e, if_neg (fun e' => e e'.symm)]

theorem setPtr_me (h : Inv E me states lo ss w c mv K) (hl : Link states ss mv) {s : Nat} (hs : s < states.length)
    (p : Ptr) : setPtr me s p w = .ok (w.setVec me (some { mv with ptrs := mv.ptrs.set s p })) () := by
  unfold setPtr
  rw [h.mvec]
  exact if_pos (by rw [hl.len]; exact hs)

theorem exists_state {i : Nat} (h : i < states.length) : ∃ a, states[i]? = some a :=
  ⟨states[i], List.getElem?_eq_getElem h⟩

/-- `Retire` of a multistate wave function. -/
theorem Inv.multiRetire (h : Inv E me states 0 ss w c mv K) (hl : Link states ss mv) :
    Good (multiRetire ⟨me, states⟩ w)
      (fun w' _ => ∃ c' mv', Inv E me states 0 ss w' c' mv' K ∧ w'.mem = w.mem ∧ Link states ss mv' ∧
        c'.buf = c.buf ∧ c'.k = c.k ∧ (∀ i s, i < states.length → c'.ptr i s = .null) ∧ Strong states c' mv')
      (fun _ => False) := by
  unfold QDng.Store.multiRetire
  refine Good.bind (P := fun w1 _ => ∃ c1, Inv E me states 0 ss w1 c1 mv K ∧ w1.mem = w.mem ∧ c1.buf = c.buf ∧
    c1.k = c.k ∧ ∀ i s, i < states.length → c1.ptr i s = .null) ?_ ?_
  · refine Good.mono (forStates_good QDng.Store.wfRetire (fun n w1 => ∃ c1, Inv E me states 0 ss w1 c1 mv K ∧ w1.mem = w.mem ∧
      c1.buf = c.buf ∧ c1.k = c.k ∧ ∀ i s, i < n → c1.ptr i s = .null) (fun _ => False) states ?_ states 0 w
      (fun j => by rw [Nat.zero_add]) ⟨c, h, rfl, rfl, rfl, fun i s hi => absurd hi (Nat.not_lt_zero _)⟩) ?_
      (fun _ x => x)
    · rintro i a w1 ha ⟨c1, h1, m1, b1, k1, n1⟩
      refine Good.mono (h1.wfRetire (Nat.zero_le _) ha) ?_ (fun _ x => x)
      rintro w2 - ⟨c2, h2, m2, b2, k2, n2, o2⟩
      refine ⟨c2, h2, m2.trans m1, b2.trans b1, k2.trans k1, fun j s hj => ?_⟩
      by_cases e : j = i
      · rw [e]; exact n2 s
      · rw [o2 j s e]; exact n1 j s (by omega)
    · rintro w1 - x
      simpa using x
  · rintro w1 - ⟨c1, h1, m1, b1, k1, n1⟩
    have e1 : retire stack me w1 = forUpTo (retireStep (retire 999) me) 0 states.length w1 := by
      show retire (999 + 1) me w1 = _
      rw [retire, h1.mvec]
      simp only [hl.locked, Bool.false_eq_true, if_false, hl.len]
    rw [e1]
    refine Good.mono (forUpTo_good _ (fun n w2 => ∃ mv2, Inv E me states 0 ss w2 c1 mv2 K ∧ w2.mem = w.mem ∧
      Link states ss mv2 ∧ ∀ i, i < n → mv2.ptrs[i]? = some .null) (fun _ => False) states.length ?_ states.length 0 w1
      (by omega) ⟨mv, h1, m1, hl, fun i hi => absurd hi (Nat.not_lt_zero _)⟩) ?_ (fun _ x => x)
    · rintro s w2 hs ⟨mv2, h2, m2, l2, n2⟩
      obtain ⟨a, ha⟩ := exists_state hs
      have hp : mv2.ptrs[s]? = some (mv2.ptrs[s]'(by rw [l2.len]; exact hs)) := List.getElem?_eq_getElem _
      have hva := h2.vec s a (Nat.zero_le _) ha
      rw [n1 s false hs] at hva
      unfold retireStep
      rw [h2.mvec]
      simp only [l2.ref ha, hp]
      rw [retire_single_null 998 a ss w2 hva]
      simp only [Res.bind]
      rw [setPtr_me h2 l2 hs]
      refine good_ok ⟨_, h2.setMe _, m2, l2.set s .null, fun i hi => ?_⟩
      rw [getElem?_set_of_lt (by rw [l2.len]; exact hs)]
      by_cases e : i = s
      · rw [if_pos e]
      · rw [if_neg e]; exact n2 i (by omega)
    · rintro w2 - ⟨mv2, h2, m2, l2, n2⟩
      exact ⟨c1, mv2, h2, m2, l2, b1, k1, n1, fun i hi => by rw [n2 i hi, n1 i false hi]⟩

/-- After an exception the objects are still in order. -/
def Safe (E : Env) (me : Nat) (states : List Nat) (ss : Nat) (f : Nat → Nat → V) (w : World V) : Prop :=
  ∃ c mv K, Inv E me states 0 ss w c mv K ∧ w.mem = f ∧ Link states ss mv ∧ Weak states c mv

/-- `Reaquire` of a multistate wave function. -/
theorem Inv.multiReaquire (h : Inv E me states 0 ss w c mv K) (hl : Link states ss mv) (hw : Weak states c mv) :
    Good (multiReaquire ⟨me, states⟩ w)
      (fun w' _ => ∃ c' mv', Inv E me states 0 ss w' c' mv' K ∧ w'.mem = w.mem ∧ Link states ss mv' ∧ Grow c c' ∧
        (∀ i s, i < states.length → (s = false ∨ c.buf i ≠ none) → ∃ k, c'.ptr i s = .blk k) ∧ Strong states c' mv')
      (Safe E me states ss w.mem) := by
  have weakGrow : ∀ {c' : Conf}, Grow c c' → Weak states c' mv := by
    intro c' g i hi
    rcases hw i hi with e | e
    · rcases g.ptr i false with e' | e'
      · exact .inl (by rw [e, e'])
      · exact .inr (by rw [e, e'])
    · exact .inr e
  unfold QDng.Store.multiReaquire
  refine Good.bind (P := fun w1 _ => ∃ c1, Inv E me states 0 ss w1 c1 mv K ∧ w1.mem = w.mem ∧ Grow c c1 ∧
    ∀ i s, i < states.length → (s = false ∨ c.buf i ≠ none) → ∃ k, c1.ptr i s = .blk k) ?_ ?_
  · refine Good.mono (forStates_good QDng.Store.wfReaquire (fun n w1 => ∃ c1, Inv E me states 0 ss w1 c1 mv K ∧ w1.mem = w.mem ∧
      Grow c c1 ∧ ∀ i s, i < n → (s = false ∨ c.buf i ≠ none) → ∃ k, c1.ptr i s = .blk k)
      (Safe E me states ss w.mem) states ?_ states 0 w
      (fun j => by rw [Nat.zero_add]) ⟨c, h, rfl, Grow.refl c, fun i s hi => absurd hi (Nat.not_lt_zero _)⟩) ?_
      (fun _ x => x)
    · rintro i a w1 ha ⟨c1, h1, m1, g1, n1⟩
      refine Good.mono (h1.wfReaquire (Nat.zero_le _) ha) ?_ ?_
      · rintro w2 - ⟨c2, h2, m2, g2, n2⟩
        refine ⟨c2, h2, m2.trans m1, g1.trans g2, fun j s hj hs => ?_⟩
        by_cases e : j = i
        · subst e
          exact n2 s (hs.imp id fun x => by rw [g1.buf]; exact x)
        · obtain ⟨k, hk⟩ := n1 j s (by omega) hs
          exact ⟨k, g2.keeps hk⟩
      · rintro w2 ⟨c2, h2, m2, g2⟩
        exact ⟨c2, mv, K, h2, m2.trans m1, hl, weakGrow (g1.trans g2)⟩
    · rintro w1 - x
      simpa using x
  · rintro w1 - ⟨c1, h1, m1, g1, n1⟩
    have e1 : reaquire stack me w1 = forUpTo (reaquireStep (reaquire 999) me) 0 states.length w1 := by
      show reaquire (999 + 1) me w1 = _
      rw [reaquire, h1.mvec]
      simp only [hl.locked, Bool.false_eq_true, if_false, hl.len]
    rw [e1]
    refine Good.mono (forUpTo_good _ (fun n w2 => ∃ mv2, Inv E me states 0 ss w2 c1 mv2 K ∧ w2.mem = w.mem ∧
      Link states ss mv2 ∧ (∀ i, i < n → mv2.ptrs[i]? = some (c1.ptr i false)) ∧ Weak states c1 mv2)
      (Safe E me states ss w.mem) states.length ?_ states.length 0 w1
      (by omega) ⟨mv, h1, m1, hl, fun i hi => absurd hi (Nat.not_lt_zero _), weakGrow g1⟩) ?_ (fun _ x => x)
    · rintro s w2 hs ⟨mv2, h2, m2, l2, n2, wk2⟩
      obtain ⟨a, ha⟩ := exists_state hs
      obtain ⟨k, hk⟩ := n1 s false hs (.inl rfl)
      have hva := h2.vec s a (Nat.zero_le _) ha
      rw [hk] at hva
      have done : Good (setPtr me s (.blk k) w2) (fun w' _ => ∃ mv2, Inv E me states 0 ss w' c1 mv2 K ∧ w'.mem = w.mem ∧
          Link states ss mv2 ∧ (∀ i, i < s + 1 → mv2.ptrs[i]? = some (c1.ptr i false)) ∧ Weak states c1 mv2)
          (Safe E me states ss w.mem) := by
        rw [setPtr_me h2 l2 hs]
        refine good_ok ⟨_, h2.setMe _, m2, l2.set s _, fun i hi => ?_, fun i hi => ?_⟩
        · rw [getElem?_set_of_lt (by rw [l2.len]; exact hs)]
          by_cases e : i = s
          · rw [if_pos e, e, hk]
          · rw [if_neg e]; exact n2 i (by omega)
        · rw [getElem?_set_of_lt (by rw [l2.len]; exact hs)]
          by_cases e : i = s
          · exact .inl (by rw [if_pos e, e, hk])
          · rw [if_neg e]; exact wk2 i hi
      unfold reaquireStep
      rw [h2.mvec]
      rcases wk2 s hs with e | e
      · rw [hk] at e
        simp only [e, l2.ref ha]
        refine good_ok ⟨mv2, h2, m2, l2, fun i hi => ?_, wk2⟩
        by_cases e' : i = s
        · rw [e', e, hk]
        · exact n2 i (by omega)
      · simp only [e, l2.ref ha]
        rw [reaquire_single_blk 998 a ss k w2 hva]
        simp only [Res.bind, hva, single, List.getElem?_cons_zero]
        exact done
    · rintro w2 - ⟨mv2, h2, m2, l2, n2, -⟩
      exact ⟨c1, mv2, h2, m2, l2, g1, n1, n2⟩

/-- The loop of `IsKspace`. -/
theorem Inv.kspaceLoop (hss : ss ≠ 0) (b : Bool) :
    ∀ (l : List Nat) (i : Nat) (w : World V) (c : Conf) (mv : Vec), (∀ j, l[j]? = states[i + j]?) →
      Inv E me states 0 ss w c mv K → Link states ss mv → Weak states c mv →
      Good (kspaceLoop me b i l w)
        (fun w' _ => ∃ c' mv', Inv E me states 0 ss w' c' mv' K ∧ w'.mem = w.mem ∧ Link states ss mv' ∧
          Weak states c' mv' ∧
          (∀ j, j < i → c'.buf j = c.buf j ∧ c'.k j = c.k j ∧ (∀ s, c'.ptr j s = c.ptr j s) ∧
            mv'.ptrs[j]? = mv.ptrs[j]?) ∧
          (∀ j, i ≤ j → j < i + l.length → ∃ c0 c1, (c0.buf j = c.buf j ∧ c0.k j = c.k j ∧
            (∀ s, c0.ptr j s = c.ptr j s)) ∧ Switched c0 c1 j b ∧ c'.buf j = c1.buf j ∧ c'.k j = b ∧
            (∀ s, c'.ptr j s = c1.ptr j s) ∧ mv'.ptrs[j]? = some (c'.ptr j false)))
        (Safe E me states ss w.mem)
  | [], i, w, c, mv, _, h, hl, hw =>
    good_ok ⟨c, mv, h, rfl, hl, hw, fun _ _ => ⟨rfl, rfl, fun _ => rfl, rfl⟩, fun j h1 h2 => by simp at h2; omega⟩
  | a :: as, i, w, c, mv, e, h, hl, hw => by
    have ha : states[i]? = some a := by
      have := e 0
      simpa using this.symm
    have hi := lt_of_getElem? ha
    unfold QDng.Store.kspaceLoop
    refine Good.bind (P := fun w' _ => ∃ c', Inv E me states 0 ss w' c' mv K ∧ w'.mem = w.mem ∧ Switched c c' i b)
      (Good.mono (h.wfKspace b hss (Nat.zero_le _) ha) (fun _ _ x => x)
        (fun w' x => ⟨c, mv, K, x.1, x.2, hl, hw⟩)) ?_
    rintro w1 - ⟨c1, h1, m1, s1⟩
    simp only [h1.vec i a (Nat.zero_le _) ha, single, List.getElem?_cons_zero]
    rw [setPtr_me h1 hl hi]
    simp only [Res.bind]
    have hset : ∀ j, (mv.ptrs.set i (c1.ptr i false))[j]? = if j = i then some (c1.ptr i false) else mv.ptrs[j]? :=
      fun j => getElem?_set_of_lt (by rw [hl.len]; exact hi) _ j
    have hw1 : Weak states c1 { mv with ptrs := mv.ptrs.set i (c1.ptr i false) } := by
      intro j hj
      show (mv.ptrs.set i (c1.ptr i false))[j]? = _ ∨ (mv.ptrs.set i (c1.ptr i false))[j]? = _
      rw [hset]
      by_cases e' : j = i
      · exact .inl (by rw [if_pos e', e'])
      · rw [if_neg e', s1.others j false e']
        exact hw j hj
    have next := Inv.kspaceLoop hss b as (i + 1) _ c1 _ (fun j => by
      have := e (j + 1)
      rw [List.getElem?_cons_succ] at this
      rw [this]
      congr 1
      omega) (h1.setMe { mv with ptrs := mv.ptrs.set i (c1.ptr i false) }) (hl.set i _) hw1
    refine Good.mono next ?_ ?_
    · rintro w2 - ⟨c2, mv2, h2, m2, l2, wk2, p2, q2⟩
      refine ⟨c2, mv2, h2, m2.trans m1, l2, wk2, fun j hj => ?_, fun j hj hj' => ?_⟩
      · obtain ⟨x1, x2, x3, x4⟩ := p2 j (by omega)
        have e' : j ≠ i := by omega
        have x4' : mv2.ptrs[j]? = (mv.ptrs.set i (c1.ptr i false))[j]? := x4
        rw [hset, if_neg e'] at x4'
        exact ⟨x1.trans (s1.bufs j e'), x2.trans (by rw [s1.k]; exact upd_other _ _ _ _ e'),
          fun s => (x3 s).trans (s1.others j s e'), x4'⟩
      · by_cases e' : j = i
        · subst e'
          obtain ⟨x1, x2, x3, x4⟩ := p2 j (by omega)
          have x4' : mv2.ptrs[j]? = (mv.ptrs.set j (c1.ptr j false))[j]? := x4
          rw [hset, if_pos rfl] at x4'
          exact ⟨c, c1, ⟨rfl, rfl, fun _ => rfl⟩, s1, x1, x2.trans (by rw [s1.k]; exact upd_same _ _ _), x3,
            by rw [x4', x3 false]⟩
        · obtain ⟨d0, d1, ⟨y1, y2, y3⟩, y4, y5⟩ := q2 j (by omega) (by simp at hj' ⊢; omega)
          exact ⟨d0, d1, ⟨y1.trans (s1.bufs j e'), y2.trans (by rw [s1.k]; exact upd_other _ _ _ _ e'),
            fun s => (y3 s).trans (s1.others j s e')⟩, y4, y5⟩
    · rintro w2 ⟨c2, mv2, K2, h2, m2, l2, wk2⟩
      exact ⟨c2, mv2, K2, h2, m2.trans m1, l2, wk2⟩

/-- `IsKspace` of a multistate wave function. -/
theorem Inv.multiKspace (h : Inv E me states 0 ss w c mv K) (hl : Link states ss mv) (hw : Weak states c mv)
    (hss : ss ≠ 0) (b : Bool) :
    Good (multiKspace ⟨me, states⟩ b w)
      (fun w' _ => ∃ c' mv', Inv E me states 0 ss w' c' mv' b ∧ w'.mem = w.mem ∧ Link states ss mv' ∧
        Weak states c' mv' ∧
        if K = b then c' = c ∧ mv' = mv
        else ∀ j, j < states.length → ∃ c0 c1, (c0.buf j = c.buf j ∧ c0.k j = c.k j ∧
            (∀ s, c0.ptr j s = c.ptr j s)) ∧ Switched c0 c1 j b ∧ c'.buf j = c1.buf j ∧ c'.k j = b ∧
            (∀ s, c'.ptr j s = c1.ptr j s) ∧ mv'.ptrs[j]? = some (c'.ptr j false))
      (Safe E me states ss w.mem) := by
  unfold QDng.Store.multiKspace
  simp only [h.mwf]
  by_cases e : K = b
  · rw [if_pos e]
    subst e
    exact good_ok ⟨c, mv, h, rfl, hl, hw, by rw [if_pos rfl]; exact ⟨rfl, rfl⟩⟩
  · rw [if_neg e]
    refine Good.bind (Inv.kspaceLoop hss b states 0 w c mv (fun j => by rw [Nat.zero_add]) h hl hw) ?_
    rintro w1 - ⟨c1, mv1, h1, m1, l1, wk1, -, q1⟩
    simp only [h1.mwf]
    refine good_ok ⟨c1, mv1, h1.setK b, m1, l1, wk1, ?_⟩
    rw [if_neg e]
    intro j hj
    exact q1 j (Nat.zero_le _) (by omega)

/-- `delete` of a multistate wave function. -/
theorem Inv.multiDelete (h : Inv E me states 0 ss w c mv K) (hl : Link states ss mv) :
    Good (multiDelete ⟨me, states⟩ w)
      (fun w' _ => (∀ k, w'.live k = true ↔ E.blocks k) ∧ w'.mem = w.mem ∧
        (∀ x v, E.vecs x = some v → w'.vecs x = some v) ∧
        w'.vecs me = none ∧ w'.wfs me = none ∧ (∀ a ∈ states, w'.vecs a = none ∧ w'.wfs a = none) ∧
        ∀ i b, i < states.length → c.buf i = some b → w'.vecs b = none)
      (fun _ => False) := by
  unfold QDng.Store.multiDelete
  refine Good.bind (P := fun w1 _ => ∃ c1, Inv E me states states.length ss w1 c1 mv K ∧ w1.mem = w.mem ∧
    (∀ (i a : Nat), states[i]? = some a → w1.vecs a = none ∧ w1.wfs a = none) ∧
    (∀ i b, i < states.length → c.buf i = some b → w1.vecs b = none)) ?_ ?_
  · refine Good.mono (forStates_good QDng.Store.wfDelete (fun n w1 => ∃ c1, Inv E me states n ss w1 c1 mv K ∧ w1.mem = w.mem ∧
      (∀ (i a : Nat), i < n → states[i]? = some a → w1.vecs a = none ∧ w1.wfs a = none) ∧
      (∀ i b, i < n → c.buf i = some b → w1.vecs b = none) ∧ ∀ j, n ≤ j → c1.buf j = c.buf j) (fun _ => False) states
      ?_ states 0 w (fun j => by rw [Nat.zero_add]) ⟨c, h, rfl, fun i a hi => absurd hi (Nat.not_lt_zero _),
        fun i b hi => absurd hi (Nat.not_lt_zero _), fun _ _ => rfl⟩) ?_ (fun _ x => x)
    · rintro i a w1 ha ⟨c1, h1, m1, p1, q1, b1⟩
      refine Good.mono (h1.wfDelete ha) ?_ (fun _ x => x)
      rintro w2 - ⟨c2, h2, m2, x1, x2, x3, x4, x5, x6⟩
      refine ⟨c2, h2, m2.trans m1, fun j a' hj ha' => ?_, fun j b' hj hb' => ?_, fun j hj => ?_⟩
      · by_cases e : j = i
        · subst e
          rw [Option.some.inj (ha'.symm.trans ha)]
          exact ⟨x1, x2⟩
        · obtain ⟨y1, y2⟩ := p1 j a' (by omega) ha'
          exact ⟨x5 _ y1, x6 _ y2⟩
      · by_cases e : j = i
        · subst e
          exact x3 b' (by rw [b1 j (Nat.le_refl _)]; exact hb')
        · exact x5 _ (q1 j b' (by omega) hb')
      · rw [x4 j (by omega)]
        exact b1 j (by omega)
    · rintro w1 - ⟨c1, h1, m1, p1, q1, -⟩
      rw [Nat.zero_add] at h1 p1 q1
      exact ⟨c1, h1, m1, fun i a ha => p1 i a (lt_of_getElem? ha) ha, q1⟩
  · rintro w1 - ⟨c1, h1, m1, p1, q1⟩
    have hd : QDng.Store.wfDelete me w1 = Res.ok ((w1.setVec me none).setWf me none) () := by
      unfold QDng.Store.wfDelete
      simp only [h1.mwf, deleteBuf, Res.bind, deleteVec, destroyVec, h1.mvec, hl.isRef, if_true, World.setVec, upd_upd]
    rw [hd]
    refine good_ok ⟨fun k => ?_, m1, fun x v hx => ?_, upd_same _ _ _, upd_same _ _ _, fun a ha => ?_,
      fun i b hi hb => ?_⟩
    · show w1.live k = true ↔ _
      constructor
      · intro hk
        rcases h1.all k hk with p | ⟨i, s, h2, h3, -⟩
        · exact p
        · omega
      · exact fun hk => (h1.oth k hk).1
    · obtain ⟨y1, -, -, y2, -⟩ := h1.frame x v hx
      exact (upd_other _ _ _ _ y2).trans y1
    · obtain ⟨i, hi⟩ := List.getElem?_of_mem ha
      obtain ⟨y1, y2⟩ := p1 i a hi
      have hne : a ≠ me := fun e => h1.selfNot (e ▸ ha)
      exact ⟨(upd_other _ _ _ _ hne).trans y1, (upd_other _ _ _ _ hne).trans y2⟩
    · exact (upd_other _ _ _ _ (h.bufNot i b (Nat.zero_le _) hi hb).2).trans (q1 i b hi hb)

end QDng.Store
