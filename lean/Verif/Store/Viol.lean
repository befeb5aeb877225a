import Verif.Store.Props

/-
Where the code does not do what a user of the storage relies on, and single vectors.
-/

namespace QDng.Store

variable {V : Type}

/-- An empty memory in which the requests `f` fail. -/
def void (f : Nat → Bool) : World Nat :=
  ⟨fun _ => false, fun _ => 0, fun _ _ => 0, 0, fun _ => none, 0, fun _ => none, f⟩

theorem void_sane (f : Nat → Bool) : Sane (void f) :=
  ⟨fun k hk => absurd (show false = true from hk) (by simp),
    fun x v hx => absurd (show (none : Option Vec) = some v from hx) (by simp)⟩

/-! ### C229: a case -/

/-- Writing through the state, changing the representation, writing through the multistate wave function, changing back. -/
def someCalls : List (Act Nat) :=
  [.writeState 1 2 7, .kspace true, .writeMulti 1 2 8, .kspace false, .reaquire]

example : AllAllowed 2 3 (View.new Nat) someCalls :=
  ⟨⟨rfl, by decide, by decide⟩, trivial, ⟨rfl, by decide, by decide⟩, trivial, trivial, trivial⟩

example : ((View.new Nat).run someCalls).cur 1 2 = some 7 ∧ ((View.new Nat).run someCalls).oth 1 2 = some 8 ∧
    ((View.new Nat).run someCalls).active = true := ⟨rfl, rfl, rfl⟩

/-- What is read after the calls: through the state and through the multistate wave function. -/
def readBack : Res Nat (Nat × Nat) :=
  (build 2 3 (void fun _ => false)).bind fun w m => (performAll m someCalls w).bind fun w _ =>
    (readAt (m.states.getD 1 0) 0 2 w).bind fun w x => (readAt m.self 1 2 w).bind fun w y => .ok w (x, y)

/-- The value of an outcome. -/
def Res.val {A : Type} : Res V A → Option A
  | .ok _ a => some a
  | _ => none

example : readBack.val = some (7, 7) := by decide +kernel

/-! ### C230: a case -/

/-- Two states; the request for the second buffer of the second state fails the first time; the program goes on. -/
def goOn : List (Act Nat) := [.kspace true, .retire, .reaquire, .kspace true, .kspace false]

example : ∀ t ∈ goOn, t.manages := by
  intro t ht
  simp only [goOn, List.mem_cons, List.not_mem_nil, or_false] at ht
  rcases ht with rfl | rfl | rfl | rfl | rfl <;> trivial

/-- Blocks in use among the first ten before and after deleting. -/
def leftOver : Option (List Nat × List Nat) :=
  match build 2 1 (void fun k => k == 3) with
  | .ok w m =>
    match performCatching m goOn w with
    | .ok w2 _ =>
      match multiDelete m w2 with
      | .ok w3 _ => some ((List.range 10).filter w2.live, (List.range 10).filter w3.live)
      | _ => none
    | _ => none
  | _ => none

example : leftOver = some ([4, 5, 6, 7], []) := by decide +kernel

/-! ### C231 -/

/-- The representations shown after an exception in `IsKspace(true)`: the multistate wave function and its two states. -/
def halfSwitched : Option (Option Bool × Option Bool × Option Bool) :=
  match build 2 1 (void fun k => k == 3) with
  | .ok w m =>
    match multiKspace m true w with
    | .threw w' =>
      some ((w'.wfs m.self).map Wf.kspace, (w'.wfs (m.states.getD 0 0)).map Wf.kspace,
        (w'.wfs (m.states.getD 1 0)).map Wf.kspace)
    | _ => none
  | _ => none

/-- If there is no memory for the second buffer of the second state, the first state stays in the new representation, the
multistate wave function and the second state in the old one. -/
theorem C231_violated_exception : halfSwitched = some (some false, some true, some false) := by decide +kernel

/-- `IsKspace(true)` fails, is called once more and returns. -/
def secondTry : Option (Option Bool × Option Bool) :=
  match build 2 1 (void fun k => k == 3) with
  | .ok w m =>
    match performCatching m [.kspace true] w with
    | .ok w2 _ =>
      match multiKspace m true w2 with
      | .ok w3 _ => some ((w2.wfs m.self).map Wf.kspace, (w3.wfs m.self).map Wf.kspace)
      | _ => none
    | _ => none
  | _ => none

example : secondTry = some (some false, some true) := by decide +kernel

/-- Nothing brings the states together again but changing the representation: setting the old one does nothing. -/
theorem C231_violated_stays (w : World V) (m : Multi) (b : Bool)
    (h : (w.wfs m.self).map Wf.kspace = some b) : multiKspace m b w = .ok w () := by
  unfold multiKspace
  cases e : w.wfs m.self with
  | none => rw [e] at h; simp at h
  | some x =>
    rw [e] at h
    exact if_pos (Option.some.inj h)

/-! ### C232: calls made to a state directly -/

/-- What holds: a value written to the state is read through the multistate wave function, and the other way round. -/
theorem C232_write_partial (w w1 : World V) (hw : Sane w) (n ss : Nat) (hn : n ≠ 0) (hss : ss ≠ 0) (m : Multi)
    (hb : build n ss w = .ok w1 m) (s a i : Nat) (ha : m.states[s]? = some a) (hi : i < ss) (x : V) :
    ∃ w2, writeAt a 0 i x w1 = .ok w2 () ∧ readAt m.self s i w2 = .ok w2 x ∧
      writeAt m.self s i x w1 = .ok w2 () ∧ readAt a 0 i w2 = .ok w2 x := by
  obtain ⟨hl, -, c, mv, h1, hl', -, -, hA, -⟩ := Sim.build hw hn hss hb
  obtain ⟨hst, hbk⟩ := hA rfl
  have hs := lt_of_getElem? ha
  obtain ⟨⟨k, hk⟩, -⟩ := hbk s hs
  obtain ⟨l1, l2, -⟩ := h1.blk s false k (Nat.zero_le _) hs hk
  have hcond : w1.live k = true ∧ i < w1.cap k := ⟨l1, by rw [l2]; exact hi⟩
  have hm : mv.ptrs[s]? = some (.blk k) := by rw [hst s hs, hk]
  have hv := h1.vec s a (Nat.zero_le _) ha
  rw [hk] at hv
  refine ⟨{ w1 with mem := upd w1.mem k (upd (w1.mem k) i x) }, ?_, ?_, ?_, ?_⟩
  · unfold writeAt
    rw [hv]
    exact if_pos hcond
  · unfold readAt
    simp only [h1.mvec, hm]
    refine (if_pos hcond).trans ?_
    rw [upd_same, upd_same]
  · unfold writeAt
    rw [h1.mvec]
    simp only [hm]
    exact if_pos hcond
  · unfold readAt
    simp only [hv]
    refine (if_pos hcond).trans ?_
    rw [upd_same, upd_same]

/-- `IsKspace` called for a state: afterwards the multistate wave function still shows the values of the old
representation, and what is written to the state is not seen. -/
theorem C232_violated_switch (w w1 : World V) (hw : Sane w) (n ss : Nat) (hn : n ≠ 0) (hss : ss ≠ 0) (m : Multi)
    (hb : build n ss w = .ok w1 m) (s a i : Nat) (ha : m.states[s]? = some a) (hi : i < ss) (w2 : World V)
    (h2 : wfKspace a true w1 = .ok w2 ()) (x : V) :
    ∃ w3 y, writeAt a 0 i x w2 = .ok w3 () ∧ readAt m.self s i w1 = .ok w1 y ∧ readAt m.self s i w3 = .ok w3 y := by
  obtain ⟨hl, -, c, mv, h1, hl', -, hk0, hA, -⟩ := Sim.build hw hn hss hb
  obtain ⟨hst, hbk⟩ := hA rfl
  have hs := lt_of_getElem? ha
  obtain ⟨⟨k, hk⟩, -⟩ := hbk s hs
  obtain ⟨l1, l2, -⟩ := h1.blk s false k (Nat.zero_le _) hs hk
  have hcond : w1.live k = true ∧ i < w1.cap k := ⟨l1, by rw [l2]; exact hi⟩
  have hm : mv.ptrs[s]? = some (.blk k) := by rw [hst s hs, hk]
  have hg := h1.wfKspace true hss (Nat.zero_le _) ha
  rw [h2] at hg
  obtain ⟨c', h1', m', sw⟩ := hg
  obtain ⟨x1, x2, x3⟩ := sw.change (by rw [hk0 s hs]; simp [View.new])
  rw [hk] at x1
  have hk' : ∃ k', c'.ptr s false = .blk k' := by
    cases hbuf : c.buf s with
    | none => exact x3 hbuf
    | some z =>
      have hne : c.buf s ≠ none := by rw [hbuf]; simp
      rw [x2 hne]
      exact (hbk s hs).2 hne
  obtain ⟨k', hk'⟩ := hk'
  have hne : k ≠ k' := by
    rintro rfl
    have := (h1'.inj s true s false k (Nat.zero_le _) hs (Nat.zero_le _) hs x1 hk').2
    exact absurd this (by simp)
  obtain ⟨q1, q2, -⟩ := h1'.blk s false k' (Nat.zero_le _) hs hk'
  obtain ⟨r1, r2, -⟩ := h1'.blk s true k (Nat.zero_le _) hs x1
  have hv := h1'.vec s a (Nat.zero_le _) ha
  rw [hk'] at hv
  refine ⟨{ w2 with mem := upd w2.mem k' (upd (w2.mem k') i x) }, w1.mem k i, ?_, ?_, ?_⟩
  · unfold writeAt
    rw [hv]
    exact if_pos ⟨q1, by rw [q2]; exact hi⟩
  · unfold readAt
    rw [h1.mvec]
    simp only [hm]
    exact if_pos hcond
  · unfold readAt
    simp only [h1'.mvec, hm]
    refine (if_pos ⟨r1, by rw [r2]; exact hi⟩).trans ?_
    rw [upd_other _ _ _ _ hne, m']

/-- A state gets another size: the multistate wave function points to memory that was given back. -/
theorem C232_violated_resize (w w1 : World V) (hw : Sane w) (n ss : Nat) (hn : n ≠ 0) (hss : ss ≠ 0) (m : Multi)
    (hb : build n ss w = .ok w1 m) (s a : Nat) (ha : m.states[s]? = some a) (n' : Nat) (hn' : n' ≠ ss) (w2 : World V)
    (h2 : newsize a n' 1 w1 = .ok w2 ()) (i : Nat) : readAt m.self s i w2 = .ub := by
  obtain ⟨hl, -, c, mv, h1, hl', -, hk0, hA, -⟩ := Sim.build hw hn hss hb
  obtain ⟨hst, hbk⟩ := hA rfl
  have hs := lt_of_getElem? ha
  obtain ⟨⟨k, hk⟩, -⟩ := hbk s hs
  obtain ⟨l1, -, l3⟩ := h1.blk s false k (Nat.zero_le _) hs hk
  have hm : mv.ptrs[s]? = some (.blk k) := by rw [hst s hs, hk]
  have hv := h1.vec s a (Nat.zero_le _) ha
  rw [hk] at hv
  have hne : m.self ≠ a := fun e => h1.selfNot (e ▸ mem_of_getElem? ha)
  unfold newsize at h2
  rw [hv] at h2
  simp only [single] at h2
  have hif : ¬ (ss = n' ∧ [Ptr.blk k].length = 1) := fun e => hn' e.1.symm
  simp only [hif, if_false] at h2
  simp only [destroyVec, hv, single, Bool.false_eq_true, if_false, freeAll, World.free, l1, if_true, Res.bind] at h2
  unfold initVec at h2
  rw [if_neg (by decide)] at h2
  simp only [Nat.div_one, allocStrides, World.alloc] at h2
  have dead : ∀ w' : World V, w'.live k = false → w'.vecs m.self = some mv → readAt m.self s i w' = .ub := by
    intro w' hd hv'
    unfold readAt
    rw [hv']
    simp only [hm]
    exact if_neg (by rw [hd]; simp)
  by_cases e0 : n' = 0
  · rw [if_pos e0] at h2
    simp only [Bool.false_eq_true, if_false] at h2
    injection h2 with h2
    subst h2
    refine dead _ (upd_same _ _ _) ?_
    exact (upd_other _ _ _ _ hne).trans ((upd_other _ _ _ _ hne).trans h1.mvec)
  · rw [if_neg e0] at h2
    by_cases eo : (w1.oom w1.nextB) = true
    · simp only [World.setVec, eo, if_true, reduceCtorEq] at h2
    · simp only [World.setVec, eo, Bool.false_eq_true, if_false] at h2
      injection h2 with h2
      subst h2
      refine dead _ ?_ ?_
      · exact (upd_other _ _ _ _ (Nat.ne_of_lt l3)).trans (upd_same _ _ _)
      · exact (upd_other _ _ _ _ hne).trans ((upd_other _ _ _ _ hne).trans h1.mvec)

/-- `IsKspace` called through a pointer to the base class, which is not virtual. -/
def baseCall : Res Nat Unit :=
  (build 2 1 (void fun _ => false)).bind fun w m => wfKspace m.self true w

/-- The same, and the wave function deleted. -/
def baseCallDelete : Res Nat Unit :=
  (build 2 1 (void fun _ => false)).bind fun w m => (wfKspace m.self true w).bind fun w _ => multiDelete m w

/-- Undefined behaviour. -/
def Res.isUb {A : Type} : Res V A → Bool
  | .ub => true
  | _ => false

theorem Res.isUb_iff {A : Type} (r : Res V A) : r.isUb = true ↔ r = .ub := by
  cases r <;> simp [Res.isUb]

/-- After `IsKspace` through a pointer to the base class the call returns, but deleting the multistate wave function gives
back the memory of the states twice. -/
theorem C232_violated_base : baseCall.val = some () ∧ baseCallDelete = .ub :=
  ⟨by decide +kernel, (Res.isUb_iff _).1 (by decide +kernel)⟩

/-! ### C233: exchange of two vectors -/

/-- Two vectors of the same size with the same number of strides are exchanged; vectors of different size are not
touched. -/
theorem C233_swap_partial (w : World V) (o q : Nat) (v u : Vec) (hne : o ≠ q) (hv : w.vecs o = some v)
    (hu : w.vecs q = some u) :
    (v.size ≠ u.size → swapVec o q w = .ok w false) ∧
    (v.size = u.size → v.ptrs.length = u.ptrs.length → ∃ w', swapVec o q w = .ok w' true ∧
      (∀ s i x, readAt o s i w = .ok w x ↔ readAt q s i w' = .ok w' x) ∧
      (∀ s i x, readAt q s i w = .ok w x ↔ readAt o s i w' = .ok w' x) ∧
      ∀ p s i x, p ≠ o → p ≠ q → (readAt p s i w = .ok w x ↔ readAt p s i w' = .ok w' x)) := by
  refine ⟨fun hs => ?_, fun hs hl => ?_⟩
  · unfold swapVec
    rw [hv, hu]
    exact if_pos hs
  · have e1 : u.ptrs.take v.ptrs.length = u.ptrs := by rw [hl, List.take_length]
    have e2 : v.ptrs ++ u.ptrs.drop v.ptrs.length = v.ptrs := by rw [hl, List.drop_length, List.append_nil]
    refine ⟨(w.setVec o (some { v with ptrs := u.ptrs })).setVec q (some { u with ptrs := v.ptrs }), ?_, ?_, ?_, ?_⟩
    · unfold swapVec
      simp only [hv, hu]
      rw [if_neg (fun e => e hs), if_neg (by omega), e1, e2]
    all_goals
      have g1 : ((w.setVec o (some { v with ptrs := u.ptrs })).setVec q (some { u with ptrs := v.ptrs })).vecs o
        = some { v with ptrs := u.ptrs } := (upd_other _ _ _ _ hne).trans (upd_same _ _ _)
      have g2 : ((w.setVec o (some { v with ptrs := u.ptrs })).setVec q (some { u with ptrs := v.ptrs })).vecs q
        = some { u with ptrs := v.ptrs } := upd_same _ _ _
    · intro s i x
      unfold readAt
      simp only [hv, g2]
      cases v.ptrs[s]? with
      | none => simp
      | some p =>
        cases p with
        | null => simp
        | junk => simp
        | blk k =>
          by_cases hk : w.live k = true ∧ i < w.cap k
          · simp [World.setVec, hk]
          · simp only [World.setVec, hk, if_false, reduceCtorEq]
    · intro s i x
      unfold readAt
      simp only [hu, g1]
      cases u.ptrs[s]? with
      | none => simp
      | some p =>
        cases p with
        | null => simp
        | junk => simp
        | blk k =>
          by_cases hk : w.live k = true ∧ i < w.cap k
          · simp [World.setVec, hk]
          · simp only [World.setVec, hk, if_false, reduceCtorEq]
    · intro p s i x hpo hpq
      have g3 : ((w.setVec o (some { v with ptrs := u.ptrs })).setVec q (some { u with ptrs := v.ptrs })).vecs p
        = w.vecs p := (upd_other _ _ _ _ hpq).trans (upd_other _ _ _ _ hpo)
      unfold readAt
      simp only [g3]
      cases w.vecs p with
      | none => simp
      | some y =>
        simp only
        cases y.ptrs[s]? with
        | none => simp
        | some p =>
          cases p with
          | null => simp
          | junk => simp
          | blk k =>
            by_cases hk : w.live k = true ∧ i < w.cap k
            · simp [World.setVec, hk]
            · simp only [World.setVec, hk, if_false, reduceCtorEq]

/-- The second vector has the same size in fewer strides: pointers beyond its array are exchanged. -/
theorem C233_violated_fewer (w : World V) (o q : Nat) (v u : Vec) (hv : w.vecs o = some v) (hu : w.vecs q = some u)
    (hs : v.size = u.size) (hl : u.ptrs.length < v.ptrs.length) : swapVec o q w = .ub := by
  unfold swapVec
  simp only [hv, hu]
  rw [if_neg (fun e => e hs), if_pos hl]

/-- The second vector has the same size in more strides: the call reports success, and the elements of the first vector
beyond the length of a stride of the second one cannot be read any more. -/
theorem C233_violated_more (w : World V) (o q : Nat) (v u : Vec) (hne : o ≠ q) (hv : w.vecs o = some v)
    (hu : w.vecs q = some u) (hs : v.size = u.size) (hl : v.ptrs.length < u.ptrs.length) (k : Nat)
    (h0 : 0 < v.ptrs.length) (hk : u.ptrs[0]? = some (.blk k)) (i : Nat) (hi : w.cap k ≤ i) :
    ∃ w', swapVec o q w = .ok w' true ∧ readAt o 0 i w' = .ub := by
  refine ⟨(w.setVec o (some { v with ptrs := u.ptrs.take v.ptrs.length })).setVec q
      (some { u with ptrs := v.ptrs ++ u.ptrs.drop v.ptrs.length }), ?_, ?_⟩
  · unfold swapVec
    simp only [hv, hu]
    rw [if_neg (fun e => e hs), if_neg (by omega)]
  · unfold readAt
    have g1 : ((w.setVec o (some { v with ptrs := u.ptrs.take v.ptrs.length })).setVec q
      (some { u with ptrs := v.ptrs ++ u.ptrs.drop v.ptrs.length })).vecs o
        = some { v with ptrs := u.ptrs.take v.ptrs.length } := (upd_other _ _ _ _ hne).trans (upd_same _ _ _)
    simp only [g1, List.getElem?_take, h0, if_true, hk]
    exact if_neg (fun e => by have := e.2; simp only [World.setVec] at this; omega)

/-- A vector of four elements in one stride and one in two strides: exchanged "successfully", then its last element is
read. -/
def unequalSwap : Res Nat Nat :=
  (newVec 4 1 (void fun _ => false)).bind fun w o => (newVec 4 2 w).bind fun w q =>
    (swapVec o q w).bind fun w r => if r then readAt o 0 3 w else .ok w 0

example : unequalSwap = .ub := (Res.isUb_iff _).1 (by decide +kernel)

/-! ### C234: storage of a vector that is made or resized -/

theorem allocStrides_ok (n : Nat) (hn : n ≠ 0) : ∀ (k : Nat) (w w' : World V) (l : List Ptr),
    allocStrides n k w = (w', l, false) →
    l.length = k ∧ w.nextB ≤ w'.nextB ∧ (∀ b, b < w.nextB → w'.live b = w.live b ∧ w'.cap b = w.cap b) ∧
      ∀ t, t < k → ∃ b, l[t]? = some (.blk b) ∧ w.nextB ≤ b ∧ w'.live b = true ∧ w'.cap b = n
  | 0, w, w', l, h => by
    unfold allocStrides at h
    injection h with h1 h2
    injection h2 with h2 _
    subst h1 h2
    exact ⟨rfl, Nat.le_refl _, fun _ _ => ⟨rfl, rfl⟩, fun t ht => absurd ht (Nat.not_lt_zero _)⟩
  | k + 1, w, w', l, h => by
    unfold allocStrides at h
    rw [if_neg hn] at h
    unfold World.alloc at h
    by_cases eo : w.oom w.nextB = true
    · simp only [eo, if_true, Prod.mk.injEq, Bool.true_eq_false, and_false] at h
    · simp only [eo, Bool.false_eq_true, if_false] at h
      generalize hr : allocStrides n k
        { w with live := upd w.live w.nextB true, cap := upd w.cap w.nextB n, nextB := w.nextB + 1 } = r at h
      obtain ⟨r1, r2, r3⟩ := r
      simp only [Prod.mk.injEq] at h
      obtain ⟨rfl, rfl, rfl⟩ := h
      obtain ⟨h1, h2, h3, h4⟩ := allocStrides_ok n hn k _ _ _ hr
      have h2' : w.nextB + 1 ≤ r1.nextB := h2
      refine ⟨by simp [h1], by omega, fun b hb => ?_, fun t ht => ?_⟩
      · obtain ⟨p, q⟩ := h3 b (show b < w.nextB + 1 by omega)
        exact ⟨p.trans (upd_other _ _ _ _ (by omega)), q.trans (upd_other _ _ _ _ (by omega))⟩
      · cases t with
        | zero =>
          obtain ⟨p, q⟩ := h3 w.nextB (show w.nextB < w.nextB + 1 by omega)
          exact ⟨w.nextB, rfl, Nat.le_refl _, p.trans (upd_same _ _ _), q.trans (upd_same _ _ _)⟩
        | succ t =>
          obtain ⟨b, p, q, r⟩ := h4 t (by omega)
          have q' : w.nextB + 1 ≤ b := q
          exact ⟨b, by simpa using p, by omega, r⟩

/-- If `newsize` to another shape returns, every element in every stride can be read. -/
theorem C234_newsize_partial (w w' : World V) (o n s : Nat) (v : Vec) (hv : w.vecs o = some v)
    (hd : ¬ (v.size = n ∧ v.ptrs.length = s)) (h : newsize o n s w = .ok w' ()) (t i : Nat) (ht : t < s)
    (hi : i < n / s) : ∃ x, readAt o t i w' = .ok w' x := by
  have hn : n / s ≠ 0 := by omega
  unfold newsize at h
  rw [hv] at h
  simp only at h
  rw [if_neg hd] at h
  cases hdv : destroyVec o w with
  | ub => rw [hdv] at h; simp only [Res.bind, reduceCtorEq] at h
  | threw w1 => rw [hdv] at h; simp only [Res.bind, reduceCtorEq] at h
  | ok w1 u =>
    rw [hdv] at h
    simp only [Res.bind] at h
    unfold initVec at h
    rw [if_neg (by omega)] at h
    generalize hr : allocStrides (n / s) s w1 = r at h
    obtain ⟨r1, r2, r3⟩ := r
    cases r3 with
    | true => simp only [if_true, reduceCtorEq] at h
    | false =>
      simp only [Bool.false_eq_true, if_false] at h
      injection h with h
      subst h
      obtain ⟨-, -, -, h4⟩ := allocStrides_ok (n / s) hn s _ _ _ hr
      obtain ⟨b, p, -, q1, q2⟩ := h4 t ht
      refine ⟨r1.mem b i, ?_⟩
      unfold readAt
      have g : (r1.setVec o (some ⟨n, n / s, r2, r2.map refOf, false, false⟩)).vecs o =
        some ⟨n, n / s, r2, r2.map refOf, false, false⟩ := upd_same _ _ _
      simp only [g, p]
      exact if_pos ⟨q1, by show i < r1.cap b; rw [q2]; exact hi⟩

theorem freeAll_junk : ∀ (l : List Ptr) (w : World V), Ptr.junk ∈ l → freeAll l w = .ub
  | [], _, h => absurd h (by simp)
  | p :: ps, w, h => by
    unfold freeAll
    cases p with
    | junk => rfl
    | null => exact freeAll_junk ps w (by simpa using h)
    | blk k =>
      show Res.bind (if w.live k = true then .ok { w with live := upd w.live k false } () else .ub) _ = _
      by_cases e : w.live k = true
      · rw [if_pos e]
        exact freeAll_junk ps _ (by simpa using h)
      · rw [if_neg e]
        rfl

theorem allocStrides_fail (n : Nat) : ∀ (k : Nat) (w : World V), (allocStrides n k w).2.2 = true →
    Ptr.junk ∈ (allocStrides n k w).2.1
  | 0, w, h => absurd h (by simp [allocStrides])
  | k + 1, w, h => by
    unfold allocStrides at h ⊢
    by_cases e : n = 0
    · rw [if_pos e] at h ⊢
      exact List.mem_cons_of_mem _ (allocStrides_fail n k w h)
    · rw [if_neg e] at h ⊢
      unfold World.alloc at h ⊢
      by_cases eo : w.oom w.nextB = true
      · simp only [eo, if_true]
        exact List.mem_replicate.2 ⟨by omega, rfl⟩
      · simp only [eo, Bool.false_eq_true, if_false] at h ⊢
        exact List.mem_cons_of_mem _ (allocStrides_fail n k _ h)

theorem initVec_threw (o n s : Nat) (w w' : World V) (h : initVec o n s w = .threw w') :
    ∃ v, w'.vecs o = some v ∧ v.isRef = false ∧ Ptr.junk ∈ v.ptrs := by
  unfold initVec at h
  by_cases e : s = 0
  · rw [if_pos e] at h; simp only [reduceCtorEq] at h
  · rw [if_neg e] at h
    by_cases e' : (allocStrides (n / s) s w).2.2 = true
    · simp only [e', if_true] at h
      injection h with h
      subst h
      exact ⟨_, upd_same _ _ _, rfl, allocStrides_fail _ _ _ e'⟩
    · simp only [e', Bool.false_eq_true, if_false, reduceCtorEq] at h

/-- If `newsize` ends with an exception, the pointers of the vector are not set, and deleting it is undefined
behaviour. -/
theorem C234_violated_exception (w w' : World V) (o n s : Nat) (h : newsize o n s w = .threw w') :
    deleteVec o w' = .ub := by
  have key : ∀ w1 : World V, initVec o n s w1 = .threw w' → deleteVec o w' = .ub := by
    intro w1 h1
    obtain ⟨v, h2, h3, h4⟩ := initVec_threw o n s w1 w' h1
    unfold deleteVec destroyVec
    rw [h2]
    simp only [h3, Bool.false_eq_true, if_false, freeAll_junk v.ptrs w' h4, Res.bind]
  unfold newsize at h
  cases hv : w.vecs o with
  | none => rw [hv] at h; simp only [reduceCtorEq] at h
  | some v =>
    rw [hv] at h
    simp only at h
    by_cases e : v.size = n ∧ v.ptrs.length = s
    · rw [if_pos e] at h; simp only [reduceCtorEq] at h
    · rw [if_neg e] at h
      have hcalm : ∀ w1, destroyVec o w ≠ .threw w1 := by
        intro w1 hd
        unfold destroyVec at hd
        rw [hv] at hd
        simp only at hd
        have hf : ∀ (l : List Ptr) (w w1 : World V), freeAll l w ≠ .threw w1 := by
          intro l
          induction l with
          | nil => intro w w1 h; simp [freeAll] at h
          | cons p ps ih =>
            intro w w1 h
            unfold freeAll at h
            cases hp : w.free p with
            | ok w2 u => rw [hp] at h; exact ih w2 w1 h
            | ub => rw [hp] at h; simp only [Res.bind, reduceCtorEq] at h
            | threw w2 =>
              unfold World.free at hp
              cases p with
              | null => simp at hp
              | junk => simp at hp
              | blk k =>
                by_cases e : w.live k = true
                · simp only [e, if_true, reduceCtorEq] at hp
                · simp only [e, Bool.false_eq_true, if_false, reduceCtorEq] at hp
        cases hr : v.isRef with
        | true => rw [hr] at hd; simp only [if_true, Res.bind, reduceCtorEq] at hd
        | false =>
          rw [hr] at hd
          simp only [Bool.false_eq_true, if_false] at hd
          cases hfa : freeAll v.ptrs w with
          | ok w2 u => rw [hfa] at hd; simp only [Res.bind, reduceCtorEq] at hd
          | threw w2 => exact hf _ _ _ hfa
          | ub => rw [hfa] at hd; simp only [Res.bind, reduceCtorEq] at hd
      cases hd : destroyVec o w with
      | ok w1 u => rw [hd] at h; exact key w1 h
      | threw w1 => exact absurd hd (hcalm w1)
      | ub => rw [hd] at h; simp only [Res.bind, reduceCtorEq] at h

/-- A vector of two strides is made longer, the second request fails, the vector is deleted. -/
def failedResize : Option (Res Nat Unit) :=
  match newVec 2 2 (void fun k => k == 3) with
  | .ok w o =>
    match newsize o 4 2 w with
    | .threw w' => some (deleteVec o w')
    | _ => none
  | _ => none

example : (failedResize.map Res.isUb) = some true := by decide +kernel

theorem allocStrides_first (n k : Nat) (hn : n ≠ 0) (w : World V) (h0 : w.oom w.nextB = false) :
    ∀ w1, (allocStrides n (k + 1) w).1 = w1 → w1.live w.nextB = true ∧ w1.vecs = w.vecs := by
  have mono : ∀ (k : Nat) (w : World V) (b : Nat), b < w.nextB → w.live b = true →
      (allocStrides n k w).1.live b = true ∧ (allocStrides n k w).1.vecs = w.vecs := by
    intro k
    induction k with
    | zero => intro w b _ h; exact ⟨h, rfl⟩
    | succ k ih =>
      intro w b hb h
      unfold allocStrides
      rw [if_neg hn]
      unfold World.alloc
      by_cases eo : w.oom w.nextB = true
      · simp only [eo, if_true]
        exact ⟨h, trivial⟩
      · simp only [eo, Bool.false_eq_true, if_false]
        exact ih _ b (Nat.lt_succ_of_lt hb) ((upd_other _ _ _ _ (Nat.ne_of_lt hb)).trans h)
  intro w1 h1
  subst h1
  unfold allocStrides
  rw [if_neg hn]
  unfold World.alloc
  rw [if_neg (by rw [h0]; simp)]
  exact mono k _ w.nextB (Nat.lt_succ_self _) (upd_same _ _ _)

/-- If making a vector ends with an exception after the first stride, its memory is in use for ever: no vector has it. -/
theorem C234_violated_leak (w w' : World V) (n s : Nat) (hn : n / s ≠ 0) (h0 : w.oom w.nextB = false)
    (hl : w.live w.nextB = false) (hfree : ∀ x v, w.vecs x = some v → Ptr.blk w.nextB ∉ v.ptrs)
    (h : newVec n s w = .threw w') :
    w'.live w.nextB = true ∧ ∀ x v, w'.vecs x = some v → Ptr.blk w.nextB ∉ v.ptrs := by
  unfold newVec at h
  cases e : initVec w.nextV n s { w with nextV := w.nextV + 1 } with
  | ok w1 u => rw [e] at h; simp only [reduceCtorEq] at h
  | ub => rw [e] at h; simp only [reduceCtorEq] at h
  | threw w1 =>
    rw [e] at h
    simp only at h
    injection h with h
    subst h
    unfold initVec at e
    by_cases es : s = 0
    · rw [if_pos es] at e; simp only [reduceCtorEq] at e
    · rw [if_neg es] at e
      by_cases e' : (allocStrides (n / s) s { w with nextV := w.nextV + 1 }).2.2 = true
      · simp only [e', if_true] at e
        injection e with e
        subst e
        obtain ⟨k, rfl⟩ : ∃ k, s = k + 1 := ⟨s - 1, by omega⟩
        obtain ⟨p, q⟩ := allocStrides_first (n / (k + 1)) k hn { w with nextV := w.nextV + 1 } h0 _ rfl
        refine ⟨p, fun x v hx => ?_⟩
        have hx' : upd (upd (allocStrides (n / (k + 1)) (k + 1) { w with nextV := w.nextV + 1 }).1.vecs w.nextV _)
          w.nextV none x = some v := hx
        rw [upd_upd, q] at hx'
        by_cases ex : x = w.nextV
        · rw [ex, upd_same] at hx'; simp at hx'
        · rw [upd_other _ _ _ _ ex] at hx'
          exact hfree x v hx'
      · simp only [e', Bool.false_eq_true, if_false, reduceCtorEq] at e

/-- Two strides, the second request fails. -/
def failedNew : Option Bool :=
  match newVec 4 2 (void fun k => k == 1) with
  | .threw w' => some (w'.live 0)
  | _ => none

example : failedNew = some true := by decide +kernel

/-- A vector that gave back its storage is given the size it has: it is left without storage. -/
theorem C234_violated_retired (w w1 w2 : World V) (n o : Nat) (hn : n ≠ 0) (h1 : newVec n 1 w = .ok w1 o)
    (h2 : retire stack o w1 = .ok w2 ()) (i : Nat) : newsize o n 1 w2 = .ok w2 () ∧ readAt o 0 i w2 = .ub := by
  rw [newVec_one w n hn] at h1
  by_cases eo : w.oom w.nextB = true
  · rw [if_pos eo] at h1; simp only [reduceCtorEq] at h1
  · rw [if_neg eo] at h1
    injection h1 with h1 h1'
    subst h1' h1
    rw [show stack = 999 + 1 from rfl, retire_single_blk 999 w.nextV n w.nextB _ (upd_same _ _ _) (upd_same _ _ _)] at h2
    injection h2 with h2
    subst h2
    refine ⟨?_, ?_⟩
    · unfold newsize
      simp only [World.setVec, upd_same, single]
      exact if_pos ⟨trivial, rfl⟩
    · unfold readAt
      simp only [World.setVec, upd_same, single, List.getElem?_cons_zero]

/-- The same with a size. -/
def retiredResize : Res Nat Nat :=
  (newVec 3 1 (void fun _ => false)).bind fun w o => (retire 5 o w).bind fun w _ =>
    (newsize o 3 1 w).bind fun w _ => readAt o 0 0 w

example : retiredResize = .ub := (Res.isUb_iff _).1 (by decide +kernel)

end QDng.Store
