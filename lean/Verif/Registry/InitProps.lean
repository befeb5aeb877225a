import Verif.Registry.OpProps

/-
C41: every operator is initialised exactly once.  C81: labels.  C82: a second initialisation.
-/

namespace QDng.Registry

open QDng.Common

/-! ### Specification -/

/-- A successful initialisation of the operator. -/
def initialises (op : Nat) : Event → Bool
  | .init o _ true => decide (o = op)
  | _ => false

/-- The number of successful initialisations. -/
def initCount (op : Nat) (log : List Event) : Nat := log.countP (initialises op)

/-! ### Lemmas -/

theorem count_init_self (op psi : Nat) (log : List Event) : initCount op (log ++ [.init op psi true]) = initCount op log + 1 := by
  unfold initCount
  rw [List.countP_append]
  simp [initialises]

theorem count_init_other {op op' : Nat} (h : op' ≠ op) (psi : Nat) (b : Bool) (log : List Event) :
    initCount op (log ++ [.init op' psi b]) = initCount op log := by
  unfold initCount
  rw [List.countP_append]
  cases b <;> simp [initialises, h]

theorem count_init_fail (op op' psi : Nat) (log : List Event) :
    initCount op (log ++ [.init op' psi false]) = initCount op log := by
  unfold initCount
  rw [List.countP_append]
  simp [initialises]

theorem count_valid (op op' psi : Nat) (log : List Event) : initCount op (log ++ [.valid op' psi]) = initCount op log := by
  unfold initCount
  rw [List.countP_append]
  simp [initialises]

/-- The loop does nothing if the operator is not registered. -/
theorem initLoop_absent (W : World) (op psi : Nat) (m : OMap Str OpEntry) (h : ∀ p ∈ m, p.2.op ≠ op) :
    ∀ log, initLoop W op psi m log = ⟨m, log, false, false⟩ := by
  induction m with
  | nil => intro log; rfl
  | cons q r ih =>
    obtain ⟨k, e⟩ := q
    intro log
    have he : e.op ≠ op := h (k, e) List.mem_cons_self
    unfold initLoop
    rw [if_neg (fun hh => he hh.1), if_neg he, ih fun p hp => h p (List.mem_cons_of_mem _ hp)]

/-- The loop for an operator registered once. -/
theorem initLoop_once (W : World) (op psi : Nat) (k : Str) (e : OpEntry) (he : e.op = op) (b : OMap Str OpEntry)
    (hb : ∀ p ∈ b, p.2.op ≠ op) : ∀ (a : OMap Str OpEntry), (∀ p ∈ a, p.2.op ≠ op) → ∀ log,
    initLoop W op psi (a ++ (k, e) :: b) log =
      if e.initialized then ⟨a ++ (k, e) :: b, log ++ [.valid op psi], true, false⟩
      else if W.initOk log op psi then
        ⟨a ++ (k, { e with initialized := true }) :: b, log ++ [.init op psi true], true, false⟩
      else ⟨a ++ (k, e) :: b, log ++ [.init op psi false], true, true⟩ := by
  intro a
  induction a with
  | nil =>
    intro _ log
    show initLoop W op psi ((k, e) :: b) log = _
    unfold initLoop
    cases hi : e.initialized with
    | true =>
      rw [if_neg (fun hh => by cases hh.2), if_pos he, initLoop_absent W op psi b hb]
      rfl
    | false =>
      rw [if_pos ⟨he, rfl⟩]
      by_cases hok : W.initOk log op psi = true
      · rw [if_pos hok, initLoop_absent W op psi b hb, if_neg (by simp), if_pos hok]
        rfl
      · rw [if_neg hok, if_neg (by simp), if_neg hok]
        rfl
  | cons q a ih =>
    obtain ⟨k', e'⟩ := q
    intro ha log
    have he' : e'.op ≠ op := ha (k', e') List.mem_cons_self
    show initLoop W op psi ((k', e') :: (a ++ (k, e) :: b)) log = _
    conv_lhs => unfold initLoop
    rw [if_neg (fun hh => he' hh.1), if_neg he', ih fun p hp => ha p (List.mem_cons_of_mem _ hp)]
    split_ifs <;> rfl

/-- The loop for another operator leaves the entries of the operator and the number of its initialisations. -/
theorem initLoop_other (W : World) {op op' : Nat} (hne : op' ≠ op) (psi : Nat) (m : OMap Str OpEntry) : ∀ log,
    initCount op (initLoop W op' psi m log).log = initCount op log ∧
    ∀ k e, e.op = op → ((k, e) ∈ (initLoop W op' psi m log).store ↔ (k, e) ∈ m) := by
  induction m with
  | nil => intro log; exact ⟨rfl, fun k e _ => Iff.rfl⟩
  | cons q r ih =>
    obtain ⟨k', e'⟩ := q
    intro log
    unfold initLoop
    split_ifs with h1 h2 h3
    · obtain ⟨ih1, ih2⟩ := ih (log ++ [.init op' psi true])
      refine ⟨by rw [ih1, count_init_other hne], ?_⟩
      intro k e he
      dsimp only
      rw [List.mem_cons, List.mem_cons, ih2 k e he]
      constructor
      · rintro (h | h)
        · cases h
          exact absurd (h1.1.symm.trans he) hne
        · exact Or.inr h
      · rintro (h | h)
        · cases h
          exact absurd (h1.1.symm.trans he) hne
        · exact Or.inr h
    · exact ⟨count_init_other hne _ _ _, fun k e _ => Iff.rfl⟩
    · obtain ⟨ih1, ih2⟩ := ih (log ++ [.valid op' psi])
      refine ⟨by rw [ih1, count_valid], ?_⟩
      intro k e he
      dsimp only
      rw [List.mem_cons, List.mem_cons, ih2 k e he]
    · obtain ⟨ih1, ih2⟩ := ih log
      refine ⟨ih1, ?_⟩
      intro k e he
      dsimp only
      rw [List.mem_cons, List.mem_cons, ih2 k e he]

/-! ### Invariants -/

/-- The operator is not registered and was not initialised. -/
structure Ops.Absent (s : Ops) (op : Nat) : Prop where
  inv : s.Inv
  none_ : ∀ k e, s.store.find k = some e → e.op ≠ op
  count : initCount op s.log = 0

/-- The operator is registered under one key and was initialised once if the entry says so. -/
structure Ops.Once (s : Ops) (op : Nat) (k : Str) (p : Bool) : Prop where
  inv : s.Inv
  entry : ∃ e, s.store.find k = some e ∧ e.op = op ∧ e.persist = p ∧ initCount op s.log = e.initialized.toNat
  uniq : ∀ k' e', s.store.find k' = some e' → e'.op = op → k' = k

/-- A call that does not add the operator. -/
def NotAdded (op : Nat) : Call → Prop
  | .add _ o _ => o ≠ op
  | _ => True

/-- A call that neither adds nor initialises the operator. -/
def NotUsed (op : Nat) : Call → Prop
  | .add _ o _ => o ≠ op
  | .init o _ => o ≠ op
  | _ => True

theorem absent_put {s : Ops} {op : Nat} (h : s.Absent op) (k : Str) (op' : Nat) (p : Bool) (hne : op' ≠ op) :
    (s.put k op' p).Absent op where
  inv := inv_put h.inv _ _ _
  none_ := by
    intro k' e he
    unfold Ops.put at he
    dsimp only at he
    rw [OMap.find_insert] at he
    split_ifs at he
    · cases he
      exact hne
    · exact h.none_ k' e he
  count := h.count

theorem absent_add {W : World} {s : Ops} {op : Nat} (h : s.Absent op) (k : Str) (op' : Nat) (p : Bool) (hne : op' ≠ op) :
    (s.add W k op' p).1.Absent op := by
  unfold Ops.add
  split_ifs
  · exact h
  · exact h
  · have := absent_put h (anonKey (W.name op') s.anon) op' p hne
    exact ⟨this.inv, this.none_, this.count⟩
  · exact absent_put h k op' p hne

theorem absent_initEntry {W : World} {s : Ops} {op : Nat} (h : s.Absent op) (k : Str) (psi : Nat)
    (hk : (s.store.find k).isSome) : (s.initEntry W k psi).1.Absent op := by
  cases hf : s.store.find k with
  | none => rw [hf] at hk; cases hk
  | some e =>
    have he : s.entry k = e := by unfold Ops.entry; rw [hf]; rfl
    have hne := h.none_ k e hf
    refine ⟨inv_initEntry h.inv k psi, ?_, ?_⟩
    · unfold Ops.initEntry
      dsimp only
      split_ifs
      · intro k' e' h'
        dsimp only at h'
        rw [OMap.find_insert] at h'
        split_ifs at h'
        · cases h'
          rw [he]
          exact hne
        · exact h.none_ k' e' h'
      · exact h.none_
    · unfold Ops.initEntry
      dsimp only
      rw [he]
      split_ifs
      · exact (count_init_other hne psi true s.log).trans h.count
      · exact (count_init_other hne psi false s.log).trans h.count

theorem absent_step {W : World} {s : Ops} {op : Nat} (h : s.Absent op) (c : Call) (hc : NotUsed op c) :
    (s.step W c).1.Absent op := by
  cases c with
  | add k op' p => exact absent_add h k op' p hc
  | setLabel k l =>
    refine ⟨inv_step (W := W) h.inv (.setLabel k l), ?_, ?_⟩
    · show ∀ k' e, (s.setLabel k l).1.store.find k' = some e → _
      unfold Ops.setLabel
      split
      · exact h.none_
      · rename_i e he
        intro k' e' h'
        dsimp only at h'
        rw [OMap.find_insert] at h'
        split_ifs at h'
        · cases h'
          exact h.none_ k e he
        · exact h.none_ k' e' h'
    · show initCount op (s.setLabel k l).1.log = 0
      unfold Ops.setLabel
      split <;> exact h.count
  | init op' psi =>
    have hne : op' ≠ op := hc
    obtain ⟨l1, l2⟩ := initLoop_other W hne psi s.store s.log
    have hsl := sorted_of_keys (initLoop_keys W op' psi s.store s.log) h.inv
    have hloop : (s.after (initLoop W op' psi s.store s.log)).Absent op := by
      refine ⟨hsl, ?_, l1.trans h.count⟩
      intro k e he hop
      have hm := (l2 k e hop).1 (OMap.find_mem he)
      exact h.none_ k e ((OMap.find_eq_some_iff h.inv k e).2 hm) hop
    show (s.init W op' psi).1.Absent op
    unfold Ops.init
    dsimp only
    split_ifs
    · exact hloop
    · exact hloop
    · have ha := absent_add (W := W) h [] op' false hne
      split
      · rename_i s' k' heq
        rw [heq] at ha
        exact absent_initEntry ha k' psi (add_found heq)
      · rename_i s' r heq
        rw [heq] at ha
        exact ha
  | initKey k psi =>
    show (s.initKey W k psi).1.Absent op
    unfold Ops.initKey
    split
    · exact h
    · rename_i e he
      split_ifs
      · exact ⟨h.inv, h.none_, (count_valid _ _ _ _).trans h.count⟩
      · exact absent_initEntry h k psi (by rw [he]; rfl)
  | clear =>
    refine ⟨inv_clear h.inv, ?_, h.count⟩
    intro k e he
    have he' : s.clear.store.find k = some e := he
    rw [(clear_store h.inv).1, find_filter _ h.inv] at he'
    cases hf : s.store.find k with
    | none => rw [hf] at he'; cases he'
    | some e' =>
      rw [hf] at he'
      cases hp : e'.persist
      · simp [Option.filter, hp] at he'
      · simp only [Option.filter, hp, if_true] at he'
        cases he'
        exact h.none_ k _ hf

theorem once_put {s : Ops} {op : Nat} {k : Str} {p : Bool} (h : s.Once op k p) (k' : Str) (op' : Nat) (q : Bool)
    (hne : op' ≠ op) (hk : k' ≠ k) : (s.put k' op' q).Once op k p where
  inv := inv_put h.inv _ _ _
  entry := by
    obtain ⟨e, h1, h2⟩ := h.entry
    refine ⟨e, ?_, h2⟩
    unfold Ops.put
    dsimp only
    rw [OMap.find_insert, if_neg (Ne.symm hk), h1]
  uniq := by
    intro k2 e2 he ho
    unfold Ops.put at he
    dsimp only at he
    rw [OMap.find_insert] at he
    split_ifs at he
    · cases he
      exact absurd ho hne
    · exact h.uniq k2 e2 he ho

theorem once_add {W : World} {s : Ops} {op : Nat} {k : Str} {p : Bool} (h : s.Once op k p) (hk : Plain k)
    (k' : Str) (op' : Nat) (q : Bool) (hne : op' ≠ op) : (s.add W k' op' q).1.Once op k p := by
  unfold Ops.add
  split_ifs with h1 h2 h3
  · exact h
  · exact h
  · have := once_put h (anonKey (W.name op') s.anon) op' q hne fun hh => hk.2 (hh ▸ anonKey_prefix _ _)
    exact ⟨this.inv, this.entry, this.uniq⟩
  · refine once_put h k' op' q hne ?_
    rintro rfl
    obtain ⟨e, he, -⟩ := h.entry
    rw [he] at h1
    exact h1 rfl

theorem once_initEntry_other {W : World} {s : Ops} {op : Nat} {k : Str} {p : Bool} (h : s.Once op k p) (k' : Str)
    (psi : Nat) (hk' : (s.store.find k').isSome) (hkk : k' ≠ k) : (s.initEntry W k' psi).1.Once op k p := by
  cases hf : s.store.find k' with
  | none => rw [hf] at hk'; cases hk'
  | some e =>
    have he : s.entry k' = e := by unfold Ops.entry; rw [hf]; rfl
    have hne : e.op ≠ op := fun hh => hkk (h.uniq k' e hf hh)
    obtain ⟨e0, h1, h2, h3, h4⟩ := h.entry
    refine ⟨inv_initEntry h.inv k' psi, ⟨e0, ?_, h2, h3, ?_⟩, ?_⟩
    · unfold Ops.initEntry
      dsimp only
      split_ifs
      · dsimp only
        rw [OMap.find_insert, if_neg (Ne.symm hkk), h1]
      · exact h1
    · unfold Ops.initEntry
      dsimp only
      rw [he]
      split_ifs
      · exact (count_init_other hne psi true s.log).trans h4
      · exact (count_init_other hne psi false s.log).trans h4
    · unfold Ops.initEntry
      dsimp only
      rw [he]
      split_ifs
      · intro k2 e2 h' ho
        dsimp only at h'
        rw [OMap.find_insert] at h'
        split_ifs at h'
        · cases h'
          exact absurd ho hne
        · exact h.uniq k2 e2 h' ho
      · exact h.uniq

/-- Initialising the operator itself: it is initialised then, or an exception is thrown. -/
theorem once_initEntry_self {W : World} {s : Ops} {op : Nat} {k : Str} {p : Bool} (h : s.Once op k p)
    (hi : ∃ e, s.store.find k = some e ∧ e.initialized = false) (psi : Nat) :
    (s.initEntry W k psi).1.Once op k p ∧
    ((s.initEntry W k psi).2 = .done → initCount op (s.initEntry W k psi).1.log = 1) := by
  obtain ⟨e, h1, h2, h3, h4⟩ := h.entry
  obtain ⟨e', h1', hi⟩ := hi
  rw [h1] at h1'
  cases h1'
  have he : s.entry k = e := by unfold Ops.entry; rw [h1]; rfl
  rw [hi] at h4
  by_cases hok : W.initOk s.log op psi = true
  · have hstep : s.initEntry W k psi = 
        ({ s with store := s.store.insert k { e with initialized := true }, log := s.log ++ [.init op psi true] }, .done) := by
      unfold Ops.initEntry
      dsimp only
      rw [he, h2, if_pos hok]
    have hc : initCount op (s.log ++ [.init op psi true]) = 1 := by rw [count_init_self, h4]; rfl
    rw [hstep]
    refine ⟨⟨OMap.sorted_insert h.inv, ⟨{ e with initialized := true }, ?_, h2, h3, hc⟩, ?_⟩, fun _ => hc⟩
    · dsimp only
      rw [OMap.find_insert, if_pos rfl]
    · intro k2 e2 h' ho
      dsimp only at h'
      rw [OMap.find_insert] at h'
      split_ifs at h' with hh
      · exact hh
      · exact h.uniq k2 e2 h' ho
  · have hstep : s.initEntry W k psi = ({ s with log := s.log ++ [.init op psi false] }, .threw) := by
      unfold Ops.initEntry
      dsimp only
      rw [he, h2, if_neg hok]
    rw [hstep]
    refine ⟨⟨h.inv, ⟨e, h1, h2, h3, ?_⟩, h.uniq⟩, fun hh => by cases hh⟩
    rw [hi]
    exact (count_init_fail op op psi s.log).trans h4

theorem find_split {m : OMap Str OpEntry} {k : Str} {e : OpEntry} (h : OMap.find k m = some e) :
    ∃ a b, m = a ++ (k, e) :: b := by
  exact List.append_of_mem (OMap.find_mem h)

theorem once_init_self {W : World} {s : Ops} {op : Nat} {k : Str} {p : Bool} (h : s.Once op k p) (psi : Nat) :
    (s.init W op psi).1.Once op k p ∧
    ((s.init W op psi).2 = .done → initCount op (s.init W op psi).1.log = 1) := by
  obtain ⟨e, h1, h2, h3, h4⟩ := h.entry
  obtain ⟨a, b, hab⟩ := find_split h1
  have hsort : OMap.Sorted (a ++ (k, e) :: b) := hab ▸ h.inv
  have hpw := List.pairwise_append.1 hsort
  have hother : ∀ q ∈ a ++ b, q.2.op ≠ op := by
    intro q hq ho
    have hmem : q ∈ s.store := by
      rw [hab]
      rcases List.mem_append.1 hq with hq | hq
      · exact List.mem_append_left _ hq
      · exact List.mem_append_right _ (List.mem_cons_of_mem _ hq)
    have hk := h.uniq q.1 q.2 ((OMap.find_eq_some_iff h.inv q.1 q.2).2 hmem) ho
    rcases List.mem_append.1 hq with hq | hq
    · have := hpw.2.2 q hq (k, e) List.mem_cons_self
      rw [hk] at this
      exact lt_irrefl _ this
    · have := (List.pairwise_cons.1 hpw.2.1).1 q hq
      rw [hk] at this
      exact lt_irrefl _ this
  have hloop := initLoop_once W op psi k e h2 b (fun q hq => hother q (List.mem_append_right _ hq)) a
    (fun q hq => hother q (List.mem_append_left _ hq)) s.log
  rw [← hab] at hloop
  have hs := h.inv
  cases hi : e.initialized with
  | true =>
    rw [hi, if_pos rfl] at hloop
    have hstep : s.init W op psi = ({ s with store := s.store, log := s.log ++ [.valid op psi] }, .done) := by
      unfold Ops.init
      rw [hloop]
      rfl
    rw [hi] at h4
    have hc : initCount op (s.log ++ [.valid op psi]) = 1 := by rw [count_valid, h4]; rfl
    rw [hstep]
    exact ⟨⟨h.inv, ⟨e, h1, h2, h3, by rw [hi]; exact hc⟩, h.uniq⟩, fun _ => hc⟩
  | false =>
    rw [hi, if_neg (by simp)] at hloop
    rw [hi] at h4
    by_cases hok : W.initOk s.log op psi = true
    · rw [if_pos hok] at hloop
      have hstep : s.init W op psi = (s.after
          ⟨a ++ (k, { e with initialized := true }) :: b, s.log ++ [.init op psi true], true, false⟩, .done) := by
        unfold Ops.init
        rw [hloop]
        rfl
      have hc : initCount op (s.log ++ [.init op psi true]) = 1 := by rw [count_init_self, h4]; rfl
      have hsort' : OMap.Sorted (a ++ (k, { e with initialized := true }) :: b) := by
        refine sorted_of_keys ?_ hsort
        simp [OpEntry.view]
      rw [hstep]
      refine ⟨⟨hsort', ⟨{ e with initialized := true }, ?_, h2, h3, hc⟩, ?_⟩, fun _ => hc⟩
      · exact (OMap.find_eq_some_iff hsort' _ _).2 (by simp)
      · intro k2 e2 he2 ho
        have hm := OMap.find_mem he2
        dsimp only at hm
        rcases List.mem_append.1 hm with hm | hm
        · exact absurd ho (hother (k2, e2) (List.mem_append_left _ hm))
        · rcases List.mem_cons.1 hm with hm | hm
          · cases hm; rfl
          · exact absurd ho (hother (k2, e2) (List.mem_append_right _ hm))
    · rw [if_neg hok] at hloop
      have hstep : s.init W op psi = ({ s with store := s.store, log := s.log ++ [.init op psi false] }, .threw) := by
        unfold Ops.init
        rw [hloop]
        rfl
      rw [hstep]
      refine ⟨⟨h.inv, ⟨e, h1, h2, h3, ?_⟩, h.uniq⟩, fun hh => by cases hh⟩
      rw [hi]
      exact (count_init_fail op op psi s.log).trans h4

theorem once_step {W : World} {s : Ops} {op : Nat} {k : Str} {p : Bool} (h : s.Once op k p) (hk : Plain k) (c : Call)
    (hc : NotAdded op c) (hp : p = true ∨ c ≠ .clear) : (s.step W c).1.Once op k p := by
  cases c with
  | add k' op' q => exact once_add h hk k' op' q hc
  | setLabel k' l =>
    obtain ⟨e0, h1, h2, h3, h4⟩ := h.entry
    show (s.setLabel k' l).1.Once op k p
    unfold Ops.setLabel
    split
    · exact h
    · rename_i e he
      have heq : k' = k → e = e0 := by
        rintro rfl
        rw [h1] at he
        cases he
        rfl
      refine ⟨OMap.sorted_insert h.inv, ?_, ?_⟩
      · by_cases hkk : k' = k
        · have := heq hkk
          subst this
          refine ⟨{ e with label := l }, ?_, h2, h3, h4⟩
          dsimp only
          rw [OMap.find_insert, if_pos hkk.symm]
        · refine ⟨e0, ?_, h2, h3, h4⟩
          dsimp only
          rw [OMap.find_insert, if_neg (Ne.symm hkk), h1]
      · intro k2 e2 h' ho
        dsimp only at h'
        rw [OMap.find_insert] at h'
        split_ifs at h' with hh
        · cases h'
          rw [hh]
          exact h.uniq k' e he ho
        · exact h.uniq k2 e2 h' ho
  | init op' psi =>
    show (s.init W op' psi).1.Once op k p
    by_cases hne : op' = op
    · subst hne
      exact (once_init_self h psi).1
    · obtain ⟨l1, l2⟩ := initLoop_other W hne psi s.store s.log
      have hsl := sorted_of_keys (initLoop_keys W op' psi s.store s.log) h.inv
      have hloop : (s.after (initLoop W op' psi s.store s.log)).Once op k p := by
        obtain ⟨e0, h1, h2, h3, h4⟩ := h.entry
        refine ⟨hsl, ⟨e0, ?_, h2, h3, l1.trans h4⟩, ?_⟩
        · exact (OMap.find_eq_some_iff hsl k e0).2 ((l2 k e0 h2).2 (OMap.find_mem h1))
        · intro k2 e2 he ho
          have hm := (l2 k2 e2 ho).1 (OMap.find_mem he)
          exact h.uniq k2 e2 ((OMap.find_eq_some_iff h.inv k2 e2).2 hm) ho
      unfold Ops.init
      dsimp only
      split_ifs
      · exact hloop
      · exact hloop
      · have ha := once_add (W := W) h hk [] op' false hne
        split
        · rename_i s' k' heq
          rw [heq] at ha
          have hfound := add_found heq
          refine once_initEntry_other ha k' psi hfound ?_
          rintro rfl
          unfold Ops.add at heq
          split_ifs at heq
          · cases heq
          · cases heq
          · injection heq with _ h2
            injection h2 with h2
            exact hk.2 (h2 ▸ anonKey_prefix _ _)
          · rename_i hlen
            exact hlen (by decide)
        · rename_i s' r heq
          rw [heq] at ha
          exact ha
  | initKey k' psi =>
    show (s.initKey W k' psi).1.Once op k p
    unfold Ops.initKey
    split
    · exact h
    · rename_i e he
      split_ifs with hi
      · obtain ⟨e0, h1, h2, h3, h4⟩ := h.entry
        exact ⟨h.inv, ⟨e0, h1, h2, h3, (count_valid _ _ _ _).trans h4⟩, h.uniq⟩
      · by_cases hkk : k' = k
        · subst hkk
          exact (once_initEntry_self h ⟨e, he, by simpa using hi⟩ psi).1
        · exact once_initEntry_other h k' psi (by rw [he]; rfl) hkk
  | clear =>
    rcases hp with rfl | hp
    · obtain ⟨e0, h1, h2, h3, h4⟩ := h.entry
      refine ⟨inv_clear h.inv, ⟨e0, ?_, h2, h3, h4⟩, ?_⟩
      · show s.clear.store.find k = some e0
        rw [(clear_store h.inv).1, find_filter _ h.inv, h1]
        simp [Option.filter, h3]
      · intro k2 e2 he ho
        have he' : s.clear.store.find k2 = some e2 := he
        rw [(clear_store h.inv).1, find_filter _ h.inv] at he'
        cases hf : s.store.find k2 with
        | none => rw [hf] at he'; cases he'
        | some e' =>
          rw [hf] at he'
          cases hpe : e'.persist
          · simp [Option.filter, hpe] at he'
          · simp only [Option.filter, hpe, if_true] at he'
            cases he'
            exact h.uniq k2 _ hf ho
    · exact absurd rfl hp

theorem run_append (W : World) (s : Ops) (a b : List Call) : s.run W (a ++ b) = (s.run W a).run W b := by
  unfold Ops.run
  rw [List.foldl_append]

theorem absent_run {W : World} {op : Nat} (l : List Call) : ∀ {s : Ops}, s.Absent op → (∀ c ∈ l, NotUsed op c) →
    (s.run W l).Absent op := by
  induction l with
  | nil => intro s h _; exact h
  | cons c l ih =>
    intro s h hl
    exact ih (absent_step h c (hl c List.mem_cons_self)) fun d hd => hl d (List.mem_cons_of_mem _ hd)

theorem once_run {W : World} {op : Nat} {k : Str} {p : Bool} (hk : Plain k) (l : List Call) : ∀ {s : Ops},
    s.Once op k p → (∀ c ∈ l, NotAdded op c) → (p = true ∨ Call.clear ∉ l) → (s.run W l).Once op k p := by
  induction l with
  | nil => intro s h _ _; exact h
  | cons c l ih =>
    intro s h hl hp
    refine ih (once_step h hk c (hl c List.mem_cons_self) ?_) (fun d hd => hl d (List.mem_cons_of_mem _ hd)) ?_
    · rcases hp with hp | hp
      · exact Or.inl hp
      · exact Or.inr fun hh => hp (hh ▸ List.mem_cons_self)
    · rcases hp with hp | hp
      · exact Or.inl hp
      · exact Or.inr fun hh => hp (List.mem_cons_of_mem _ hh)

theorem once_start {W : World} {coll : Collector.State} {pre : List Call} {k : Str} {op : Nat} {p : Bool} (hk : Plain k)
    (hop : op ≠ 0) (hpre : ∀ c ∈ pre, NotUsed op c) (hfree : keyHistory k pre = none) :
    ((Ops.start coll).run W (pre ++ [.add k op p])).Once op k p := by
  have ha : ((Ops.start coll).run W pre).Absent op :=
    absent_run pre ⟨inv_start coll, fun k e he => by (cases he), rfl⟩ hpre
  have hl := look_run W k hk pre (inv_start coll)
  rw [show (Ops.start coll).look k = none from rfl, show pre.foldl (keyStep k) none = none from hfree] at hl
  rw [run_append]
  generalize hs : (Ops.start coll).run W pre = s at ha hl
  have hnone : s.store.find k = none := by
    unfold Ops.look at hl
    cases hf : OMap.find k s.store with
    | none => rfl
    | some e => rw [hf] at hl; cases hl
  show (s.add W k op p).1.Once op k p
  have hadd : s.add W k op p = (s.put k op p, .key k) := by
    unfold Ops.add
    rw [hnone, if_neg (by simp), if_neg hop, if_neg]
    have : (cstr k).length ≠ 0 := fun hh => hk.1 (List.length_eq_zero_iff.1 hh)
    omega
  rw [hadd]
  refine ⟨inv_put ha.inv _ _ _, ⟨{ op := op, initialized := false, persist := p, label := [] }, ?_, rfl, rfl, ha.count⟩, ?_⟩
  · show OMap.find k (OMap.insert k _ s.store) = _
    rw [OMap.find_insert, if_pos rfl]
    unfold Ops.entry
    rw [hnone]
    rfl
  · intro k2 e2 he ho
    have he' : OMap.find k2 (OMap.insert k _ s.store) = some e2 := he
    rw [OMap.find_insert] at he'
    split_ifs at he' with hh
    · exact hh
    · exact absurd ho (ha.none_ k2 e2 he')

/-- C41: an operator registered once, under a key of the user, and not initialised before, is initialised at most once
whatever calls follow; and when a call that asks for its initialisation succeeds, it was initialised exactly once.
Missing: operators registered more than once or initialised before they are registered, see the theorems below. -/
theorem C41_init_once_partial (W : World) (coll : Collector.State) (pre post : List Call) (k : Str) (op : Nat) (p : Bool)
    (hk : Plain k) (hop : op ≠ 0) (hpre : ∀ c ∈ pre, NotUsed op c) (hfree : keyHistory k pre = none)
    (hpost : ∀ c ∈ post, NotAdded op c) (hp : p = true ∨ Call.clear ∉ post) :
    let s := (Ops.start coll).run W (pre ++ [.add k op p] ++ post)
    initCount op s.log ≤ 1 ∧
    (∀ psi, (s.init W op psi).2 = .done → initCount op (s.init W op psi).1.log = 1) ∧
    (∀ psi, (s.initKey W k psi).2 = .done → initCount op (s.initKey W k psi).1.log = 1) := by
  intro s
  have hs : s.Once op k p := by
    show ((Ops.start coll).run W (pre ++ [.add k op p] ++ post)).Once op k p
    rw [run_append]
    exact once_run hk post (once_start hk hop hpre hfree) hpost hp
  obtain ⟨e, h1, h2, h3, h4⟩ := hs.entry
  refine ⟨?_, ?_, ?_⟩
  · rw [h4]
    cases e.initialized <;> decide
  · intro psi
    exact (once_init_self hs psi).2
  · intro psi
    unfold Ops.initKey
    rw [h1]
    dsimp only
    split_ifs with hi
    · intro _
      dsimp only
      rw [count_valid, h4, hi]
      rfl
    · exact (once_initEntry_self hs ⟨e, h1, by simpa using hi⟩ psi).2

/-- A history that meets the hypotheses. -/
example : (∀ c ∈ ([.add ['V'] 2 false, .init 2 9] : List Call), NotUsed 1 c) ∧
    keyHistory ['T'] [.add ['V'] 2 false, .init 2 9] = none ∧
    (∀ c ∈ ([.init 1 9, .initKey ['T'] 9] : List Call), NotAdded 1 c) ∧
    Call.clear ∉ ([.init 1 9, .initKey ['T'] 9] : List Call) := by
  refine ⟨?_, by decide, ?_, by decide⟩
  · intro c hc
    simp only [List.mem_cons, List.not_mem_nil, or_false] at hc
    rcases hc with rfl | rfl
    · show (2 : Nat) ≠ 1
      decide
    · show (2 : Nat) ≠ 1
      decide
  · intro c hc
    simp only [List.mem_cons, List.not_mem_nil, or_false] at hc
    rcases hc with rfl | rfl <;> trivial

/-! #### Violations -/

/-- Operators with one name that can always be initialised. -/
def plainWorld : World := ⟨fun _ => ['X'], fun _ _ _ => true, fun _ _ _ => true⟩

/-- C41 is violated: an operator registered under two keys is initialised twice by one call. -/
theorem C41_violated_twice : initCount 1 ((Ops.start Collector.State.init).run plainWorld
    [.add ['A'] 1 false, .add ['B'] 1 false, .init 1 9]).log = 2 := by decide

/-- C41 is violated: a persistent entry of an operator that is also registered temporarily refers to a destroyed
operator after clearing.  (`register 1` is the creation of the operator.) -/
theorem C41_violated_dangling :
    let s := (Ops.start (Collector.State.init.register 1)).run plainWorld [.add ['A'] 1 true, .add ['B'] 1 false, .clear]
    s.get ['A'] = .val 1 ∧ s.coll.isAllocated 1 = false ∧ 1 ∈ s.coll.destroyed := by decide

theorem showNat_zero : FileSeq.showNat 0 = ['0'] := by
  rw [FileSeq.showNat]
  rfl

/-- C41 is violated: registering without a key replaces an operator whose key looks like a generated one, without an
error. -/
theorem C41_violated_replaced :
    let k := ['_', '_', 'X', '#', '0']
    let s := (Ops.start Collector.State.init).run plainWorld [.add k 1 false]
    s.get k = .val 1 ∧ (s.add plainWorld [] 2 false).2 = .key k ∧ (s.add plainWorld [] 2 false).1.get k = .val 2 := by
  have hk : anonKey ['X'] 0 = ['_', '_', 'X', '#', '0'] := by
    unfold anonKey
    rw [showNat_zero]
    rfl
  refine ⟨by decide, ?_, ?_⟩
  · show Reply.key (anonKey ['X'] 0) = _
    rw [hk]
  · show ((Ops.put _ (anonKey ['X'] 0) 2 false).get _) = _
    rw [hk]
    decide

/-! ### C81: labels -/

theorem labelLoop_eq (label : Str) (max : Nat) : ∀ (m : OMap Str OpEntry) (found : List Nat), found.length < max →
    labelLoop label max m found =
      .val ((found ++ ((m.filter fun p => p.2.label = label).map fun p => p.2.op)).take max) := by
  intro m
  induction m with
  | nil =>
    intro found h
    unfold labelLoop
    rw [List.filter_nil, List.map_nil, List.append_nil, List.take_of_length_le (by omega)]
  | cons q r ih =>
    obtain ⟨k, e⟩ := q
    intro found h
    unfold labelLoop
    split_ifs with h1 h2 h3 h4
    · rw [List.filter_cons_of_pos (by simpa using h1), List.map_cons]
      conv_rhs => rw [List.append_cons]
      have hl : (found ++ [e.op]).length = max := by exact_mod_cast h3
      rw [← hl, List.take_append_of_le_length (le_refl _), List.take_length]
    · rw [ih _ (by
        have : ((found ++ [e.op]).length : Int) ≠ max := h3
        rw [List.length_append, List.length_singleton] at *
        omega)]
      rw [List.filter_cons_of_pos (by simpa using h1), List.map_cons, ← List.append_cons]
    · exfalso
      omega
    · exfalso
      omega
    · rw [ih found h, List.filter_cons_of_neg (by simpa using h1)]

/-- C81: with an array of at least one element, the operators found are those whose entries have the label, in the order
of the keys, up to the size of the array.  Missing: an array without elements, see below. -/
theorem C81_get_labels_partial (s : Ops) (label : Str) (max : Nat) (h : 0 < max) :
    s.getLabels label max = .val (((s.store.filter fun p => p.2.label = label).map fun p => p.2.op).take max) := by
  unfold Ops.getLabels
  rw [labelLoop_eq label max s.store [] (by simpa using h), List.nil_append]

/-- C81 is violated: with an array without elements the search writes behind it. -/
theorem C81_violated_empty : ((Ops.start Collector.State.init).run plainWorld
    [.add ['A'] 1 false, .setLabel ['A'] ['l']]).getLabels ['l'] 0 = .ub := by decide

/-- C81: labelling an existing key changes the label of this key only, other keys are rejected. -/
theorem C81_set_label (s : Ops) (k label : Str) :
    (∀ e, s.store.find k = some e → (s.setLabel k label).2 = .done ∧
      (s.setLabel k label).1.store.find k = some { e with label := label } ∧
      ∀ k', k' ≠ k → (s.setLabel k label).1.store.find k' = s.store.find k') ∧
    (s.store.find k = none → s.setLabel k label = (s, .threw)) := by
  constructor
  · intro e he
    unfold Ops.setLabel
    rw [he]
    refine ⟨rfl, ?_, ?_⟩
    · dsimp only
      rw [OMap.find_insert, if_pos rfl]
    · intro k' hk'
      dsimp only
      rw [OMap.find_insert, if_neg hk']
  · intro h
    unfold Ops.setLabel
    rw [h]

theorem checkLoop_iff (op : Nat) (label : Str) (m : OMap Str OpEntry) (k : Str) (e : OpEntry) (hm : (k, e) ∈ m)
    (he : e.op = op) (hu : ∀ p ∈ m, p.2.op = op → p = (k, e)) : checkLoop op label m = decide (e.label = label) := by
  induction m with
  | nil => cases hm
  | cons q r ih =>
    obtain ⟨k', e'⟩ := q
    unfold checkLoop
    split_ifs with h
    · have := hu (k', e') List.mem_cons_self h
      cases this
      rfl
    · rcases List.mem_cons.1 hm with hm | hm
      · cases hm
        exact absurd he h
      · exact ih hm fun p hp => hu p (List.mem_cons_of_mem _ hp)

/-- C81: for an operator registered under one key the check tells whether it has the label; for an operator that is not
registered it says no.  Missing: operators registered under several keys. -/
theorem C81_check_label_partial (W : World) (coll : Collector.State) (l : List Call) (op : Nat) (label : Str) :
    let s := (Ops.start coll).run W l
    (∀ k e, s.store.find k = some e → e.op = op → (∀ k' e', s.store.find k' = some e' → e'.op = op → k' = k) →
      (s.checkLabel op label = true ↔ e.label = label)) ∧
    ((∀ k e, s.store.find k = some e → e.op ≠ op) → s.checkLabel op label = false) := by
  intro s
  have hs : s.Inv := inv_run W l (inv_start coll)
  constructor
  · intro k e hk he hu
    unfold Ops.checkLabel
    rw [checkLoop_iff op label s.store k e (OMap.find_mem hk) he, decide_eq_true_iff]
    intro p hp ho
    have hp' := (OMap.find_eq_some_iff hs p.1 p.2).2 hp
    have hkk := hu p.1 p.2 hp' ho
    rw [hkk, hk] at hp'
    cases hp'
    rw [← hkk]
  · intro h
    have key : ∀ m : OMap Str OpEntry, (∀ p ∈ m, p.2.op ≠ op) → checkLoop op label m = false := by
      intro m
      induction m with
      | nil => intro _; rfl
      | cons q r ih =>
        intro hm
        unfold checkLoop
        rw [if_neg (hm q List.mem_cons_self), ih fun p hp => hm p (List.mem_cons_of_mem _ hp)]
    exact key _ fun p hp => h p.1 p.2 ((OMap.find_eq_some_iff hs p.1 p.2).2 hp)

/-- A registered operator with a label. -/
example : ((Ops.start Collector.State.init).run plainWorld [.add ['A'] 1 false, .setLabel ['A'] ['l']]).checkLabel 1 ['l'] =
    true := by decide

/-! ### C82: a second initialisation -/

/-- C82: initialising an operator that is initialised already asks it once whether it fits the wave function and does
not initialise it again.  Missing: that a negative answer has an effect. -/
theorem C82_asked_partial (W : World) (s : Ops) (k : Str) (e : OpEntry) (psi : Nat) (h : s.store.find k = some e)
    (hi : e.initialized = true) :
    (s.initKey W k psi).1.log = s.log ++ [.valid e.op psi] ∧ (s.initKey W k psi).1.store = s.store := by
  unfold Ops.initKey
  rw [h]
  dsimp only
  rw [if_pos hi]
  exact ⟨rfl, rfl⟩

/-- An operator that is initialised. -/
example : ∃ e, ((Ops.start Collector.State.init).run plainWorld [.add ['A'] 1 false, .initKey ['A'] 9]).store.find ['A'] =
    some e ∧ e.initialized = true := ⟨⟨1, true, false, []⟩, by decide, rfl⟩

/-- C82 is violated: the call succeeds although the operator does not fit the wave function. -/
theorem C82_violated_ignored : ∃ (W : World) (l : List Call),
    let s := (Ops.start Collector.State.init).run W l
    (∀ log, W.valid log 1 8 = false) ∧ (s.init W 1 8).2 = .done ∧ (s.initKey W ['A'] 8).2 = .done :=
  ⟨⟨fun _ => ['X'], fun _ _ _ => true, fun _ _ psi => decide (psi = 9)⟩, [.add ['A'] 1 false, .init 1 9],
    fun _ => rfl, by decide, by decide⟩

end QDng.Registry
