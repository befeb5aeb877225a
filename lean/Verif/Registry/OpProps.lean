import Verif.Registry.Lemmas

/-
C41: the registry of operators.  C81: labels.  C82: a second initialisation.
-/

namespace QDng.Registry

open QDng.Common

/-! ### Specification -/

/-- A key as users choose it: not empty and not like a generated one. -/
def Plain (k : Str) : Prop := cstr k ≠ [] ∧ ¬ ['_', '_'] <+: k

/-- What a key stands for, as a user counts it: the operator and whether it is persistent. -/
def keyStep (k : Str) (o : Option (Nat × Bool)) : Call → Option (Nat × Bool)
  | .add k' op p => if k' = k ∧ o = none ∧ op ≠ 0 then some (op, p) else o
  | .clear => match o with
    | some (op, true) => some (op, true)
    | _ => none
  | _ => o

/-- What a key stands for after a sequence of calls. -/
def keyHistory (k : Str) (l : List Call) : Option (Nat × Bool) := l.foldl (keyStep k) none

/-- The part of an entry that look-ups show. -/
def OpEntry.view (e : OpEntry) : Nat × Bool := (e.op, e.persist)

/-! ### The loop of `Init` -/

theorem initLoop_keys (W : World) (op psi : Nat) (m : OMap Str OpEntry) : ∀ log,
    (initLoop W op psi m log).store.map (fun p => (p.1, p.2.view)) = m.map fun p => (p.1, p.2.view) := by
  induction m with
  | nil => intro log; rfl
  | cons q r ih =>
    obtain ⟨k, e⟩ := q
    intro log
    unfold initLoop
    split_ifs
    · simp only [List.map_cons, ih]
      rfl
    · rfl
    · simp only [List.map_cons, ih]
    · simp only [List.map_cons, ih]

theorem sorted_of_keys {m n : OMap Str OpEntry} (h : m.map (fun p => (p.1, p.2.view)) = n.map fun p => (p.1, p.2.view))
    (hn : OMap.Sorted n) : OMap.Sorted m := by
  have key : ∀ m : OMap Str OpEntry, OMap.Sorted m ↔ (m.map fun p => (p.1, p.2.view)).Pairwise fun a b => a.1 < b.1 := by
    intro m
    unfold OMap.Sorted
    rw [List.pairwise_map]
  rw [key, h, ← key]
  exact hn

theorem find_view_of_keys : ∀ {m n : OMap Str OpEntry},
    m.map (fun p => (p.1, p.2.view)) = n.map (fun p => (p.1, p.2.view)) → ∀ k,
    (OMap.find k m).map OpEntry.view = (OMap.find k n).map OpEntry.view := by
  intro m
  induction m with
  | nil =>
    intro n h k
    cases n with
    | nil => rfl
    | cons => cases h
  | cons q r ih =>
    intro n h k
    cases n with
    | nil => cases h
    | cons q' r' =>
      obtain ⟨k1, e1⟩ := q
      obtain ⟨k2, e2⟩ := q'
      simp only [List.map_cons, List.cons.injEq, Prod.mk.injEq] at h
      obtain ⟨⟨h1, h2⟩, h3⟩ := h
      unfold OMap.find
      subst h1
      split_ifs
      · simp [h2]
      · exact ih h3 k

/-! ### Every call keeps the order of the keys and follows the specification -/

/-- The invariant of `std::map`. -/
def Ops.Inv (s : Ops) : Prop := OMap.Sorted s.store

theorem inv_put {s : Ops} (h : s.Inv) (k : Str) (op : Nat) (p : Bool) : (s.put k op p).Inv := OMap.sorted_insert h

theorem inv_add {W : World} {s : Ops} (h : s.Inv) (k : Str) (op : Nat) (p : Bool) : (s.add W k op p).1.Inv := by
  unfold Ops.add
  split_ifs
  · exact h
  · exact h
  · exact inv_put h _ _ _
  · exact inv_put h _ _ _

theorem inv_initEntry {W : World} {s : Ops} (h : s.Inv) (k : Str) (psi : Nat) : (s.initEntry W k psi).1.Inv := by
  unfold Ops.initEntry
  dsimp only
  split_ifs
  · exact OMap.sorted_insert h
  · exact h

theorem inv_init {W : World} {s : Ops} (h : s.Inv) (op psi : Nat) : (s.init W op psi).1.Inv := by
  have hl := sorted_of_keys (initLoop_keys W op psi s.store s.log) h
  unfold Ops.init
  dsimp only
  split_ifs
  · exact hl
  · exact hl
  · have ha := inv_add (W := W) h [] op false
    split
    · rename_i s' k heq
      rw [heq] at ha
      exact inv_initEntry ha _ _
    · rename_i s' r heq
      rw [heq] at ha
      exact ha

theorem inv_clear {s : Ops} (h : s.Inv) : s.clear.Inv := by
  unfold Ops.clear Ops.Inv
  dsimp only
  rw [clearLoop_eq _ _ _ _ _ h (by have := List.length_filter_le (fun p : Str × OpEntry => !p.2.persist) s.store; omega)]
  exact sorted_filter _ h

theorem inv_step {W : World} {s : Ops} (h : s.Inv) (c : Call) : (s.step W c).1.Inv := by
  cases c with
  | add k op p => exact inv_add h k op p
  | setLabel k l =>
    show (s.setLabel k l).1.Inv
    unfold Ops.setLabel
    split
    · exact h
    · exact OMap.sorted_insert h
  | init op psi => exact inv_init h op psi
  | initKey k psi =>
    show (s.initKey W k psi).1.Inv
    unfold Ops.initKey
    split
    · exact h
    · split_ifs
      · exact h
      · exact inv_initEntry h _ _
  | clear => exact inv_clear h

theorem inv_run (W : World) (l : List Call) : ∀ {s : Ops}, s.Inv → (s.run W l).Inv := by
  induction l with
  | nil => intro s h; exact h
  | cons c l ih =>
    intro s h
    exact ih (inv_step h c)

theorem inv_start (coll : Collector.State) : (Ops.start coll).Inv := OMap.sorted_nil

/-- What the registry shows under a key. -/
def Ops.look (s : Ops) (k : Str) : Option (Nat × Bool) := (s.store.find k).map OpEntry.view

theorem look_put (s : Ops) (k k' : Str) (op : Nat) (p : Bool) :
    (s.put k op p).look k' = if k' = k then some (op, p) else s.look k' := by
  unfold Ops.look Ops.put
  dsimp only
  rw [OMap.find_insert]
  split_ifs
  · rfl
  · rfl

theorem keyStep_add (k : Str) (o : Option (Nat × Bool)) (k' : Str) (op : Nat) (p : Bool) :
    keyStep k o (.add k' op p) = if k' = k ∧ o = none ∧ op ≠ 0 then some (op, p) else o := rfl

theorem look_add {W : World} {s : Ops} (k : Str) (hk : Plain k) (k' : Str) (op : Nat) (p : Bool) :
    (s.add W k' op p).1.look k = keyStep k (s.look k) (.add k' op p) := by
  have hanon : k ≠ anonKey (W.name op) s.anon := fun h => hk.2 (h ▸ anonKey_prefix _ _)
  have hiff : s.look k = none ↔ ¬ (s.store.find k).isSome = true := by
    unfold Ops.look
    cases s.store.find k <;> simp
  rw [keyStep_add]
  unfold Ops.add
  split_ifs with h1 h2 h3 h4 h5 h6 h7
  · obtain ⟨rfl, h, _⟩ := h2
    exact absurd h1 (hiff.1 h)
  · rfl
  · exact absurd h3 h4.2.2
  · rfl
  · obtain ⟨rfl, -, -⟩ := h6
    exfalso
    have : (cstr k').length ≠ 0 := fun hh => hk.1 (List.length_eq_zero_iff.1 hh)
    omega
  · show (s.put (anonKey (W.name op) s.anon) op p).look k = _
    rw [look_put, if_neg hanon]
  · obtain ⟨rfl, -, -⟩ := h7
    rw [look_put, if_pos rfl]
  · rw [look_put, if_neg]
    intro hh
    exact h7 ⟨hh.symm, hiff.2 (hh ▸ h1), h3⟩

theorem look_initEntry {W : World} {s : Ops} (k' : Str) (psi : Nat) (hk' : (s.store.find k').isSome) (k : Str) :
    (s.initEntry W k' psi).1.look k = s.look k := by
  unfold Ops.initEntry
  dsimp only
  split_ifs
  · unfold Ops.look Ops.entry
    dsimp only
    rw [OMap.find_insert]
    split_ifs with h
    · subst h
      cases hf : OMap.find k s.store with
      | none => rw [hf] at hk'; cases hk'
      | some e => rfl
    · rfl
  · rfl

theorem add_found {W : World} {s s' : Ops} {k k' : Str} {op : Nat} {p : Bool} (h : s.add W k op p = (s', .key k')) :
    (s'.store.find k').isSome := by
  unfold Ops.add at h
  split_ifs at h
  · cases h
  · cases h
  · injection h with h1 h2
    injection h2 with h2
    subst h1 h2
    show (OMap.find _ (OMap.insert _ _ _)).isSome = true
    rw [OMap.find_insert, if_pos rfl]
    rfl
  · injection h with h1 h2
    injection h2 with h2
    subst h1 h2
    show (OMap.find _ (OMap.insert _ _ _)).isSome = true
    rw [OMap.find_insert, if_pos rfl]
    rfl

theorem look_init {W : World} {s : Ops} (k : Str) (hk : Plain k) (op psi : Nat) :
    (s.init W op psi).1.look k = s.look k := by
  have hl := find_view_of_keys (initLoop_keys W op psi s.store s.log) k
  unfold Ops.init
  dsimp only
  split_ifs
  · exact hl
  · exact hl
  · have ha := look_add (W := W) (s := s) k hk [] op false
    have hs : keyStep k (s.look k) (.add [] op false) = s.look k := by
      rw [keyStep_add, if_neg]
      rintro ⟨h, -⟩
      exact hk.1 (h ▸ rfl)
    rw [hs] at ha
    split
    · rename_i s' k' heq
      rw [look_initEntry]
      · rw [heq] at ha
        exact ha
      · exact add_found heq
    · rename_i s' r heq
      rw [heq] at ha
      exact ha

theorem clear_store {s : Ops} (h : s.Inv) : s.clear.store = s.store.filter (fun p => p.2.persist) ∧
    s.clear.coll = ((s.store.filter fun p => !p.2.persist).map fun p => p.2.op).foldl (fun c q => c.delete q) s.coll := by
  unfold Ops.clear
  dsimp only
  rw [clearLoop_eq _ _ _ _ _ h (by have := List.length_filter_le (fun p : Str × OpEntry => !p.2.persist) s.store; omega)]
  exact ⟨rfl, rfl⟩

theorem look_step {W : World} {s : Ops} (h : s.Inv) (k : Str) (hk : Plain k) (c : Call) :
    (s.step W c).1.look k = keyStep k (s.look k) c := by
  cases c with
  | add k' op p => exact look_add k hk k' op p
  | setLabel k' l =>
    show (s.setLabel k' l).1.look k = s.look k
    unfold Ops.setLabel
    split
    · rfl
    · rename_i e he
      unfold Ops.look
      dsimp only
      rw [OMap.find_insert]
      split_ifs with hh
      · subst hh
        rw [he]
        rfl
      · rfl
  | init op psi => exact look_init k hk op psi
  | initKey k' psi =>
    show (s.initKey W k' psi).1.look k = s.look k
    unfold Ops.initKey
    split
    · rfl
    · rename_i e he
      split_ifs
      · rfl
      · exact look_initEntry k' psi (by rw [he]; rfl) k
  | clear =>
    show s.clear.look k = _
    unfold Ops.look
    rw [(clear_store h).1, find_filter _ h]
    unfold keyStep
    dsimp only
    cases hf : OMap.find k s.store with
    | none => rfl
    | some e =>
      cases hp : e.persist <;> simp [Option.filter, OpEntry.view, hp]

theorem look_run (W : World) (k : Str) (hk : Plain k) (l : List Call) : ∀ {s : Ops}, s.Inv →
    (s.run W l).look k = l.foldl (keyStep k) (s.look k) := by
  induction l with
  | nil => intro s _; rfl
  | cons c l ih =>
    intro s h
    show ((s.step W c).1.run W l).look k = _
    rw [ih (inv_step h c), look_step h k hk c]
    rfl

/-! ### C41 -/

/-- C41: after every sequence of calls a key gives the operator registered under it, until the registry is cleared
(unless the operator is persistent), and an error otherwise. -/
theorem C41_lookup (W : World) (coll : Collector.State) (l : List Call) (k : Str) (hk : Plain k) :
    ((Ops.start coll).run W l).get k = match keyHistory k l with
      | none => .threw
      | some (op, _) => .val op := by
  have h := look_run W k hk l (inv_start coll)
  have h0 : (Ops.start coll).look k = none := rfl
  rw [h0] at h
  unfold keyHistory
  rw [← h]
  unfold Ops.get Ops.look
  cases OMap.find k _ <;> rfl

/-- A history in which the key is given twice and the registry is cleared. -/
example : keyHistory ['T'] [.add ['T'] 1 true, .add ['T'] 2 false, .clear] = some (1, true) := by decide

example : Plain ['T'] := ⟨by decide, by decide⟩

/-- C41: registering under an existing key, or no operator, is rejected and changes nothing; otherwise the call succeeds
and the key it gives back finds the operator. -/
theorem C41_add (W : World) (s : Ops) (k : Str) (op : Nat) (p : Bool) :
    (((∃ o, s.get k = .val o) ∨ op = 0) → s.add W k op p = (s, .threw)) ∧
    ((s.get k = .threw ∧ op ≠ 0) → ∃ k', (s.add W k op p).2 = .key k' ∧ (s.add W k op p).1.get k' = .val op ∧
      (cstr k ≠ [] → k' = k)) := by
  constructor
  · intro h
    unfold Ops.add
    split_ifs with h1 h2 h3
    · rfl
    · rfl
    · exfalso
      rcases h with ⟨o, h⟩ | h
      · unfold Ops.get at h
        cases hf : OMap.find k s.store with
        | none => rw [hf] at h; cases h
        | some e => rw [hf] at h1; exact h1 rfl
      · exact h2 h
    · exfalso
      rcases h with ⟨o, h⟩ | h
      · unfold Ops.get at h
        cases hf : OMap.find k s.store with
        | none => rw [hf] at h; cases h
        | some e => rw [hf] at h1; exact h1 rfl
      · exact h2 h
  · rintro ⟨h, hop⟩
    have hput : ∀ k', (s.put k' op p).get k' = .val op := by
      intro k'
      unfold Ops.get Ops.put
      dsimp only
      rw [OMap.find_insert, if_pos rfl]
    have hn : ¬ (OMap.find k s.store).isSome = true := by
      unfold Ops.get at h
      cases hf : OMap.find k s.store with
      | none => simp
      | some e => rw [hf] at h; cases h
    unfold Ops.add
    rw [if_neg hn, if_neg hop]
    split_ifs with h3
    · refine ⟨_, rfl, hput _, ?_⟩
      intro hc
      exact absurd (List.length_eq_zero_iff.1 (by omega)) hc
    · exact ⟨k, rfl, hput k, fun _ => rfl⟩

/-- C41: clearing removes exactly the entries that are not persistent, and gives back one reference for each. -/
theorem C41_clear (W : World) (coll : Collector.State) (l : List Call) :
    let s := (Ops.start coll).run W l
    (∀ k e, s.clear.store.find k = some e ↔ s.store.find k = some e ∧ e.persist = true) ∧
    s.clear.coll = ((s.store.filter fun p => !p.2.persist).map fun p => p.2.op).foldl (fun c q => c.delete q) s.coll := by
  intro s
  have hs : s.Inv := inv_run W l (inv_start coll)
  refine ⟨?_, (clear_store hs).2⟩
  intro k e
  rw [(clear_store hs).1, find_filter _ hs]
  cases hf : OMap.find k s.store with
  | none => simp [Option.filter]
  | some e' =>
    cases hp : e'.persist
    · simp only [Option.filter, hp]
      constructor
      · intro h; cases h
      · rintro ⟨h, he⟩
        cases h
        rw [hp] at he
        cases he
    · simp only [Option.filter, hp, if_true]
      constructor
      · intro h
        exact ⟨h, by cases h; exact hp⟩
      · exact fun h => h.1

/-! #### Generated keys -/

/-- All keys of the registry are chosen by users or generated with an earlier serial number. -/
def Ops.KeysOk (s : Ops) : Prop :=
  ∀ k e, s.store.find k = some e → ¬ ['_', '_'] <+: k ∨ ∃ nm i, i < s.anon ∧ k = anonKey nm i

theorem keysOk_put {s : Ops} (h : s.KeysOk) (k : Str) (op : Nat) (p : Bool) (hk : ¬ ['_', '_'] <+: k) :
    (s.put k op p).KeysOk := by
  intro k' e he
  unfold Ops.put at he
  dsimp only at he
  rw [OMap.find_insert] at he
  split_ifs at he with hh
  · subst hh
    exact Or.inl hk
  · exact h k' e he

theorem keysOk_anon {W : World} {s : Ops} (h : s.KeysOk) (op : Nat) (p : Bool) :
    ({ s.put (anonKey (W.name op) s.anon) op p with anon := s.anon + 1 } : Ops).KeysOk := by
  intro k' e he
  unfold Ops.put at he
  dsimp only at he
  rw [OMap.find_insert] at he
  split_ifs at he with hh
  · exact Or.inr ⟨_, _, Nat.lt_succ_self _, hh⟩
  · rcases h k' e he with h1 | ⟨nm, i, h1, h2⟩
    · exact Or.inl h1
    · exact Or.inr ⟨nm, i, Nat.lt_succ_of_lt h1, h2⟩

theorem keysOk_add {W : World} {s : Ops} (h : s.KeysOk) (k : Str) (op : Nat) (p : Bool) (hk : ¬ ['_', '_'] <+: k) :
    (s.add W k op p).1.KeysOk := by
  unfold Ops.add
  split_ifs
  · exact h
  · exact h
  · exact keysOk_anon h op p
  · exact keysOk_put h k op p hk

theorem keysOk_of_find {s s' : Ops} (h : s.KeysOk) (ha : s'.anon = s.anon)
    (hf : ∀ k, (s'.store.find k).isSome → (s.store.find k).isSome) : s'.KeysOk := by
  intro k e he
  have := hf k (by rw [he]; rfl)
  cases hh : OMap.find k s.store with
  | none => rw [hh] at this; cases this
  | some e' =>
    rw [ha]
    exact h k e' hh

theorem keysOk_initEntry {W : World} {s : Ops} (h : s.KeysOk) (k : Str) (psi : Nat) (hk : (s.store.find k).isSome) :
    (s.initEntry W k psi).1.KeysOk := by
  unfold Ops.initEntry
  dsimp only
  split_ifs
  · refine keysOk_of_find h (by rfl) ?_
    intro k' h'
    dsimp only at h'
    rw [OMap.find_insert] at h'
    split_ifs at h' with hh
    · rw [hh]; exact hk
    · exact h'
  · exact h

theorem keysOk_init {W : World} {s : Ops} (h : s.KeysOk) (op psi : Nat) : (s.init W op psi).1.KeysOk := by
  have hl : (s.after (initLoop W op psi s.store s.log)).KeysOk := by
    refine keysOk_of_find h (by rfl) ?_
    intro k hk
    have := find_view_of_keys (initLoop_keys W op psi s.store s.log) k
    change ((initLoop W op psi s.store s.log).store.find k).isSome = true at hk
    cases hh : OMap.find k s.store with
    | some e => rfl
    | none =>
      rw [hh] at this
      cases h2 : OMap.find k (initLoop W op psi s.store s.log).store with
      | none => rw [h2] at hk; exact hk
      | some e => rw [h2] at this; cases this
  unfold Ops.init
  dsimp only
  split_ifs
  · exact hl
  · exact hl
  · have ha := keysOk_add (W := W) h [] op false (by decide)
    split
    · rename_i s' k' heq
      rw [heq] at ha
      exact keysOk_initEntry ha _ _ (add_found heq)
    · rename_i s' r heq
      rw [heq] at ha
      exact ha

/-- The keys given by users do not look like generated keys. -/
def UserKey : Call → Prop
  | .add k _ _ => ¬ ['_', '_'] <+: k
  | _ => True

theorem keysOk_step {W : World} {s : Ops} (hs : s.Inv) (h : s.KeysOk) (c : Call) (hc : UserKey c) :
    (s.step W c).1.KeysOk := by
  cases c with
  | add k op p => exact keysOk_add h k op p hc
  | setLabel k l =>
    show (s.setLabel k l).1.KeysOk
    unfold Ops.setLabel
    split
    · exact h
    · rename_i e he
      refine keysOk_of_find h (by rfl) ?_
      intro k' h'
      dsimp only at h'
      rw [OMap.find_insert] at h'
      split_ifs at h' with hh
      · rw [hh, he]; rfl
      · exact h'
  | init op psi => exact keysOk_init h op psi
  | initKey k psi =>
    show (s.initKey W k psi).1.KeysOk
    unfold Ops.initKey
    split
    · exact h
    · rename_i e he
      split_ifs
      · exact h
      · exact keysOk_initEntry h k psi (by rw [he]; rfl)
  | clear =>
    refine keysOk_of_find h (by rfl) ?_
    intro k hk
    show (OMap.find k s.store).isSome = true
    have hk' : (s.clear.store.find k).isSome = true := hk
    rw [(clear_store hs).1, find_filter _ hs] at hk'
    cases hh : OMap.find k s.store with
    | some e => rfl
    | none => rw [hh] at hk'; exact hk'

theorem keysOk_run (W : World) (l : List Call) : ∀ {s : Ops}, s.Inv → s.KeysOk → (∀ c ∈ l, UserKey c) →
    (s.run W l).KeysOk := by
  induction l with
  | nil => intro s _ h _; exact h
  | cons c l ih =>
    intro s hs h hl
    exact ih (inv_step hs c) (keysOk_step hs h c (hl c List.mem_cons_self)) fun d hd => hl d (List.mem_cons_of_mem _ hd)

/-- C41: an operator registered without a key gets a key that is not in use, and all other keys stay as they are. -/
theorem C41_anonymous (W : World) (coll : Collector.State) (l : List Call) (hl : ∀ c ∈ l, UserKey c) (op : Nat)
    (hop : op ≠ 0) (p : Bool) :
    let s := (Ops.start coll).run W l
    ∃ k s', s.add W [] op p = (s', .key k) ∧ s.get k = .threw ∧ s'.get k = .val op ∧
      ∀ k', k' ≠ k → s'.get k' = s.get k' := by
  intro s
  have hk : s.KeysOk := keysOk_run W l (inv_start coll) (fun k e he => by cases he) hl
  have hfresh : s.store.find (anonKey (W.name op) s.anon) = none := by
    cases hf : s.store.find (anonKey (W.name op) s.anon) with
    | none => rfl
    | some e =>
      rcases hk _ e hf with h1 | ⟨nm, i, h1, h2⟩
      · exact absurd (anonKey_prefix _ _) h1
      · have := anonKey_inj h2
        omega
  have hnil : s.store.find [] = none := by
    cases hf : s.store.find [] with
    | none => rfl
    | some e =>
      exfalso
      -- the empty key is never used
      have hempty : ∀ (l : List Call) (t : Ops), t.store.find [] = none → t.Inv → (t.run W l).store.find [] = none := by
        intro l
        induction l with
        | nil => intro t ht _; exact ht
        | cons c l ih =>
          intro t ht hti
          apply ih _ _ (inv_step hti c)
          have hanon : ∀ nm i, anonKey nm i ≠ [] := by intro nm i h; cases h
          have hadd : ∀ k op p, (t.add W k op p).1.store.find [] = none := by
            intro k op p
            unfold Ops.add
            split_ifs with h1 h2 h3
            · exact ht
            · exact ht
            · show OMap.find [] (OMap.insert _ _ _) = none
              rw [OMap.find_insert, if_neg (fun h => hanon _ _ h.symm), ht]
            · show OMap.find [] (OMap.insert _ _ _) = none
              rw [OMap.find_insert, if_neg, ht]
              intro h
              rw [← h] at h3
              exact h3 (by decide)
          have hentry : ∀ (t : Ops) k psi, t.store.find [] = none → (t.store.find k).isSome →
              (t.initEntry W k psi).1.store.find [] = none := by
            intro t k psi ht hk
            unfold Ops.initEntry
            dsimp only
            split_ifs
            · dsimp only
              rw [OMap.find_insert, if_neg, ht]
              intro h
              rw [← h, ht] at hk
              cases hk
            · exact ht
          cases c with
          | add k op p => exact hadd k op p
          | setLabel k l =>
            show (t.setLabel k l).1.store.find [] = none
            unfold Ops.setLabel
            split
            · exact ht
            · rename_i e he
              dsimp only
              rw [OMap.find_insert, if_neg, ht]
              intro h
              rw [← h, ht] at he
              cases he
          | init op psi =>
            have hview := find_view_of_keys (initLoop_keys W op psi t.store t.log) []
            have hloop : (initLoop W op psi t.store t.log).store.find [] = none := by
              rw [ht] at hview
              cases hh : (initLoop W op psi t.store t.log).store.find [] with
              | none => rfl
              | some e => rw [hh] at hview; cases hview
            show (t.init W op psi).1.store.find [] = none
            unfold Ops.init
            dsimp only
            split_ifs
            · exact hloop
            · exact hloop
            · have := hadd [] op false
              split
              · rename_i s' k' heq
                rw [heq] at this
                exact hentry s' k' psi this (add_found heq)
              · rename_i s' r heq
                rw [heq] at this
                exact this
          | initKey k psi =>
            show (t.initKey W k psi).1.store.find [] = none
            unfold Ops.initKey
            split
            · exact ht
            · rename_i e he
              split_ifs
              · exact ht
              · exact hentry t k psi ht (by rw [he]; rfl)
          | clear =>
            show t.clear.store.find [] = none
            rw [(clear_store hti).1, find_filter _ hti, ht]
            rfl
      have := hempty l (Ops.start coll) rfl (inv_start coll)
      rw [show ((Ops.start coll).run W l).store.find [] = some e from hf] at this
      cases this
  refine ⟨anonKey (W.name op) s.anon, { s.put (anonKey (W.name op) s.anon) op p with anon := s.anon + 1 }, ?_, ?_, ?_, ?_⟩
  · unfold Ops.add
    rw [hnil, if_neg (by simp), if_neg hop, if_pos (by decide)]
  · unfold Ops.get
    rw [hfresh]
  · unfold Ops.get Ops.put
    dsimp only
    rw [OMap.find_insert, if_pos rfl]
  · intro k' hk'
    unfold Ops.get Ops.put
    dsimp only
    rw [OMap.find_insert, if_neg hk']

/-- Calls with keys of users. -/
example : ∀ c ∈ ([.add ['T'] 1 true, .init 2 3, .clear] : List Call), UserKey c := by
  intro c hc
  simp only [List.mem_cons, List.not_mem_nil, or_false] at hc
  rcases hc with rfl | rfl | rfl
  · show ¬ ['_', '_'] <+: ['T']
    decide
  · trivial
  · trivial

end QDng.Registry
