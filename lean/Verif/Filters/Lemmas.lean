import Verif.Filters.Spec
import Mathlib.Tactic.Ring

namespace QDng.Filters

open QDng QDng.Common

variable {V : Type}

theorem writes_eq (a : Action) : a.writes = Spec.shows a := by cases a <;> rfl

theorem shown_eq (k : Kind) (z : ℂ) : shown k z = Spec.showAs k z := by cases k <;> rfl

/-- The slot `f` holds the filter `i`. -/
structure Match (i : Spec.Item V) (f : Flt V) : Prop where
  act : f.action = i.act
  kind : f.value = i.kind
  int : f.integrate = i.int
  op : Spec.needsOp i.act = true → f.op = i.op ∧ ∃ o, i.op = some o
  ms : (f.ms0, f.ms1) = i.ms.getD (-1, -1)
  head : Spec.shows i.act = true → f.label = i.head

theorem kindOf_mem (s : Str) (k : Kind) : kindOf s = some k ↔ (s, k) ∈ Spec.kinds := by
  unfold kindOf Spec.kinds
  constructor
  · intro h
    split at h
    · injection h with h; subst h; simp [*]
    · split at h
      · injection h with h; subst h; simp [*]
      · split at h
        · injection h with h; subst h; simp [*]
        · split at h
          · injection h with h; subst h; simp [*]
          · exact absurd h (by simp)
  · intro h
    simp only [List.mem_cons, Prod.mk.injEq, List.not_mem_nil, or_false] at h
    rcases h with ⟨rfl, rfl⟩ | ⟨rfl, rfl⟩ | ⟨rfl, rfl⟩ | ⟨rfl, rfl⟩ <;> rfl

theorem actionOf_mem (s : Str) (a : Action) : actionOf s = some a ↔ (s, a) ∈ Spec.modes := by
  unfold actionOf Spec.modes
  constructor
  · intro h
    split at h
    · injection h with h; subst h; simp [*]
    · split at h
      · injection h with h; subst h; simp [*]
      · split at h
        · injection h with h; subst h; simp [*]
        · split at h
          · injection h with h; subst h; simp [*]
          · split at h
            · injection h with h; subst h; simp [*]
            · exact absurd h (by simp)
  · intro h
    simp only [List.mem_cons, Prod.mk.injEq, List.not_mem_nil, or_false] at h
    rcases h with ⟨rfl, rfl⟩ | ⟨rfl, rfl⟩ | ⟨rfl, rfl⟩ | ⟨rfl, rfl⟩ | ⟨rfl, rfl⟩ <;> rfl

theorem kindOf_nil : kindOf [] = none := rfl

theorem action_normalize (s : Str) : actionOf s = some .normalize ↔ s = "normalize".toList := by
  rw [actionOf_mem]; simp [Spec.modes]

theorem action_rho (s : Str) : actionOf s = some .rho ↔ s = "rho".toList := by
  rw [actionOf_mem]; simp [Spec.modes]

theorem default_ne (d s : Str) (h : s ≠ []) : (if s.length = 0 then d else s) = s := if_neg (by simpa using h)

/-- The result of `add` with admissible arguments. -/
theorem add_ok (l : FList V) (O : Option (Op V)) (h fa va : Str) (st : List Int) (it : Bool) (a : Action) (k : Kind)
    (hs : l.size < maxFilters) (hf : fa ≠ []) (ha : actionOf fa = some a) (hk : kindOf va = some k)
    (hst : st = [] ∨ ∃ i j, st = [i, j]) :
    add l O h fa va st it = .ok { l with
      size := l.size + 1
      slots := fun n => if n = l.size then
        { l.slots n with value := k, integrate := it, sum := 0, action := a
                         ms0 := st.head?.getD (l.slots n).ms0, ms1 := st.getLast?.getD (l.slots n).ms1 } else l.slots n
      writefile := l.writefile || a.writes } := by
  have hv : va ≠ [] := by rintro rfl; rw [kindOf_nil] at hk; exact absurd hk (by simp)
  unfold add
  dsimp only
  rw [default_ne _ fa hf, default_ne _ va hv, if_neg (by omega), hk, ha]
  dsimp only
  rcases hst with rfl | ⟨i, j, rfl⟩
  · by_cases hw : a.writes = true
    · rw [if_pos hw]
      simp only [FList.modify, hw, Bool.or_true]
      congr 2
      funext n
      by_cases hn : n = l.size
      · simp [hn]
      · simp [hn]
    · rw [if_neg hw]
      simp only [FList.modify]
      rw [Bool.not_eq_true] at hw
      rw [hw, Bool.or_false]
      congr 2
      funext n
      by_cases hn : n = l.size
      · simp [hn]
      · simp [hn]
  · by_cases hw : a.writes = true
    · rw [if_pos hw]
      simp only [FList.modify, hw, Bool.or_true]
      congr 2
      funext n
      by_cases hn : n = l.size
      · simp [hn]
      · simp [hn]
    · rw [if_neg hw]
      simp only [FList.modify]
      rw [Bool.not_eq_true] at hw
      rw [hw, Bool.or_false]
      congr 2
      funext n
      by_cases hn : n = l.size
      · simp [hn]
      · simp [hn]

/-- `add` rejects everything else. -/
theorem add_threw (l : FList V) (O : Option (Op V)) (h fa va : Str) (st : List Int) (it : Bool) (hf : fa ≠ [])
    (hbad : maxFilters ≤ l.size ∨ actionOf fa = none ∨ kindOf va = none ∨ ¬ (st = [] ∨ ∃ i j, st = [i, j])) :
    ∃ l', add l O h fa va st it = .threw l' := by
  unfold add
  dsimp only
  rw [default_ne _ fa hf]
  by_cases hs : l.size ≥ maxFilters
  · rw [if_pos hs]; exact ⟨_, rfl⟩
  · rw [if_neg hs]
    by_cases hv : va = []
    · rw [if_pos (by rw [hv]; rfl)]
      exact ⟨_, rfl⟩
    · rw [default_ne _ va hv]
      cases hk : kindOf va with
      | none => exact ⟨_, rfl⟩
      | some k =>
        dsimp only
        cases ha : actionOf fa with
        | none => exact ⟨_, rfl⟩
        | some a =>
          dsimp only
          rw [hk, ha] at hbad
          have hst : ¬ (st = [] ∨ ∃ i j, st = [i, j]) := by
            rcases hbad with h | h | h | h
            · omega
            · exact absurd h (by simp)
            · exact absurd h (by simp)
            · exact h
          match st, hst with
          | [], hst => exact absurd (Or.inl rfl) hst
          | [x], _ => exact ⟨_, rfl⟩
          | [x, y], hst => exact absurd (Or.inr ⟨x, y, rfl⟩) hst
          | x :: y :: z :: r, _ => exact ⟨_, rfl⟩

/-- The lists `l` and `l'` differ at most in the slot `l.size`. -/
structure Same (l l' : FList V) : Prop where
  size : l'.size = l.size
  slots : ∀ n, n ≠ l.size → l'.slots n = l.slots n
  renorm : l'.renorm = l.renorm
  inited : l'.inited = l.inited
  file : l'.file = l.file
  writefile : l'.writefile = l.writefile
  ms0 : (l'.slots l.size).ms0 = (l.slots l.size).ms0
  ms1 : (l'.slots l.size).ms1 = (l.slots l.size).ms1

theorem Same.refl (l : FList V) : Same l l := ⟨rfl, fun _ _ => rfl, rfl, rfl, rfl, rfl, rfl, rfl⟩

theorem Same.modify {l l' : FList V} (h : Same l l') (f : Flt V → Flt V) (h0 : ∀ x, (f x).ms0 = x.ms0) (h1 : ∀ x, (f x).ms1 = x.ms1) :
    Same l (l'.modify f) := by
  refine ⟨h.size, fun n hn => ?_, h.renorm, h.inited, h.file, h.writefile, ?_, ?_⟩
  · unfold FList.modify
    dsimp only
    rw [if_neg (by rw [h.size]; exact hn), h.slots n hn]
  · unfold FList.modify
    dsimp only
    rw [if_pos h.size.symm, h0, h.ms0]
  · unfold FList.modify
    dsimp only
    rw [if_pos h.size.symm, h1, h.ms1]

theorem modify_slot (l : FList V) (f : Flt V → Flt V) : (l.modify f).slots (l.modify f).size = f (l.slots l.size) := by
  unfold FList.modify
  dsimp only
  rw [if_pos rfl]

/-- What is known after one element has been loaded. -/
structure Loaded (l : FList V) (i : Spec.Item V) (l' : FList V) : Prop where
  size : l'.size = l.size + 1
  slots : ∀ n, n ≠ l.size → l'.slots n = l.slots n
  slot : Match i (l'.slots l.size)
  sum : (l'.slots l.size).sum = 0
  renorm : l'.renorm = l.renorm
  inited : l'.inited = l.inited
  file : l'.file = l.file
  writefile : l'.writefile = (l.writefile || Spec.shows i.act)

theorem add_loaded (l l1 : FList V) (e : Entry V) (i : Spec.Item V) (hs : l.size < maxFilters) (hname : e.name ≠ [])
    (hm0 : (l.slots l.size).ms0 = -1) (hm1 : (l.slots l.size).ms1 = -1) (hc : Spec.Config e i) (h : Same l l1)
    (hop : Spec.needsOp i.act = true → (l1.slots l1.size).op = i.op)
    (hlab : Spec.shows i.act = true → (l1.slots l1.size).label = i.head) :
    ∃ l', add l1 none [] e.name (e.value.getD "real".toList) (e.ms.getD []) (e.int.getD false) = .ok l' ∧ Loaded l i l' := by
  have hms : e.ms.getD [] = [] ∧ i.ms = none ∨ ∃ a b, e.ms.getD [] = [a, b] ∧ i.ms = some (a, b) := by
    have := hc.ms
    cases hi : i.ms with
    | none =>
      rw [hi] at this
      rcases this with h | h <;> rw [h] <;> exact Or.inl ⟨rfl, rfl⟩
    | some p =>
      obtain ⟨a, b⟩ := p
      rw [hi] at this
      exact Or.inr ⟨a, b, by rw [this]; rfl, rfl⟩
  have hst : e.ms.getD [] = [] ∨ ∃ a b, e.ms.getD [] = [a, b] := by
    rcases hms with h | ⟨a, b, h, _⟩
    · exact Or.inl h.1
    · exact Or.inr ⟨a, b, h⟩
  refine ⟨_, add_ok l1 none [] e.name _ _ _ i.act i.kind (by rw [h.size]; exact hs) hname ((actionOf_mem _ _).mpr hc.mode)
    ((kindOf_mem _ _).mpr hc.kind) hst, ?_⟩
  refine ⟨by show l1.size + 1 = _; rw [h.size], fun n hn => ?_, ?_, ?_, h.renorm, h.inited, h.file, ?_⟩
  · dsimp only
    rw [if_neg (by rw [h.size]; exact hn), h.slots n hn]
  · dsimp only
    rw [if_pos h.size.symm]
    refine ⟨rfl, rfl, hc.int.symm, fun ho => ?_, ?_, fun hh => ?_⟩
    · refine ⟨?_, ?_⟩
      · dsimp only; rw [← h.size]; exact hop ho
      · obtain ⟨o, _, h2, _⟩ := hc.op ho; exact ⟨o, h2⟩
    · dsimp only
      rw [h.ms0, h.ms1, hm0, hm1]
      rcases hms with ⟨h1, h2⟩ | ⟨a, b, h1, h2⟩
      · rw [h1, h2]; rfl
      · rw [h1, h2]; rfl
    · dsimp only; rw [← h.size]; exact hlab hh
  · dsimp only
    rw [if_pos h.size.symm]
  · dsimp only
    rw [h.writefile, writes_eq]

theorem loadEntry_ok (l : FList V) (e : Entry V) (i : Spec.Item V) (hs : l.size < maxFilters) (hname : e.name ≠ [])
    (hm0 : (l.slots l.size).ms0 = -1) (hm1 : (l.slots l.size).ms1 = -1) (hc : Spec.Config e i) :
    ∃ l', loadEntry l e = .ok l' ∧ Loaded l i l' := by
  have hact := (actionOf_mem _ _).mpr hc.mode
  unfold loadEntry
  rw [if_neg (by omega)]
  dsimp only
  obtain ⟨l1, hl1⟩ : ∃ l1, l1 = setHeader l e.header := ⟨_, rfl⟩
  have hsame : Same l l1 := by
    rw [hl1]
    cases e.header with
    | none => exact Same.refl l
    | some h => exact (Same.refl l).modify (fun f => { f with label := h }) (fun _ => rfl) (fun _ => rfl)
  have hhead : ∀ h, e.header = some h → (l1.slots l1.size).label = h := by
    intro h hh
    rw [hl1, hh]
    unfold setHeader
    dsimp only
    rw [modify_slot]
  rw [← hl1]
  by_cases h1 : e.name ≠ "normalize".toList ∧ e.name ≠ "rho".toList
  · rw [if_pos h1]
    have hneed : Spec.needsOp i.act = true := by
      cases hi : i.act with
      | normalize => exact absurd ((action_normalize _).mp (by rw [hact, hi])) h1.1
      | rho => exact absurd ((action_rho _).mp (by rw [hact, hi])) h1.2
      | expec => rfl
      | expeconly => rfl
      | apply => rfl
    obtain ⟨o, ho1, ho2, ho3⟩ := hc.op hneed
    rw [ho1]
    dsimp only
    have hs2 : Same l (l1.modify fun f => { f with op := some o }) := hsame.modify _ (fun _ => rfl) (fun _ => rfl)
    cases hh : e.header with
    | none =>
      dsimp only [Option.isNone]
      rw [if_pos rfl]
      refine add_loaded l _ e i hs hname hm0 hm1 hc (hs2.modify _ (fun _ => rfl) (fun _ => rfl)) (fun _ => ?_) (fun _ => ?_)
      · rw [modify_slot, modify_slot, ho2]
      · rw [modify_slot, ho3, hh]; rfl
    | some h =>
      dsimp only [Option.isNone]
      rw [if_neg (by simp)]
      refine add_loaded l _ e i hs hname hm0 hm1 hc hs2 (fun _ => ?_) (fun _ => ?_)
      · rw [modify_slot, ho2]
      · rw [modify_slot]
        dsimp only
        rw [hhead h hh, ho3, hh]; rfl
  · rw [if_neg h1]
    by_cases h2 : e.name = "rho".toList
    · rw [if_pos h2]
      have hi : i.act = .rho := by
        have := (action_rho _).mpr h2
        rw [hact] at this
        injection this
      have hno : Spec.needsOp i.act = true → False := by rw [hi]; simp [Spec.needsOp]
      cases hh : e.header with
      | none =>
        dsimp only [Option.isNone]
        rw [if_pos rfl]
        refine add_loaded l _ e i hs hname hm0 hm1 hc (hsame.modify _ (fun _ => rfl) (fun _ => rfl)) (fun h => (hno h).elim) (fun _ => ?_)
        rw [modify_slot, hc.head hi, hh]; rfl
      | some h =>
        dsimp only [Option.isNone]
        rw [if_neg (by simp)]
        refine add_loaded l _ e i hs hname hm0 hm1 hc hsame (fun h => (hno h).elim) (fun _ => ?_)
        rw [hhead h hh, hc.head hi, hh]; rfl
    · rw [if_neg h2]
      have h3 : e.name = "normalize".toList := by
        by_contra hc'
        exact h1 ⟨hc', h2⟩
      have hi : i.act = .normalize := by
        have := (action_normalize _).mpr h3
        rw [hact] at this
        injection this
      refine add_loaded l _ e i hs hname hm0 hm1 hc hsame (fun h => ?_) (fun h => ?_)
      · rw [hi] at h; exact absurd h (by simp [Spec.needsOp])
      · rw [hi] at h; exact absurd h (by simp [Spec.shows])

/-- Elements that do not configure a filter are rejected. -/
theorem loadEntry_threw (l : FList V) (e : Entry V) (hname : e.name ≠ []) (hbad : maxFilters ≤ l.size ∨ ¬ ∃ i, Spec.Config e i) :
    ∃ l', loadEntry l e = .threw l' := by
  unfold loadEntry
  by_cases hs : l.size ≥ maxFilters
  · rw [if_pos hs]; exact ⟨_, rfl⟩
  rw [if_neg hs]
  dsimp only
  have hbad : ¬ ∃ i, Spec.Config e i := hbad.resolve_left hs
  obtain ⟨l1, hl1⟩ : ∃ l1, l1 = setHeader l e.header := ⟨_, rfl⟩
  rw [← hl1]
  have key : (e.name ≠ "normalize".toList ∧ e.name ≠ "rho".toList → ∃ o, e.op = some o) →
      actionOf e.name = none ∨ kindOf (e.value.getD "real".toList) = none ∨
        ¬ (e.ms.getD [] = [] ∨ ∃ i j, e.ms.getD [] = [i, j]) := by
    intro ho
    by_contra hcon
    push Not at hcon
    obtain ⟨ha, hk, hm⟩ := hcon
    obtain ⟨a, ha⟩ := Option.ne_none_iff_exists'.mp ha
    obtain ⟨k, hk⟩ := Option.ne_none_iff_exists'.mp hk
    have hmem := (actionOf_mem _ _).mp ha
    apply hbad
    have hms : ∃ ms : Option (Int × Int), (match ms with
        | none => e.ms = none ∨ e.ms = some []
        | some (a, b) => e.ms = some [a, b]) := by
      cases he : e.ms with
      | none => exact ⟨none, Or.inl rfl⟩
      | some x =>
        rw [he] at hm
        by_cases hx : x = []
        · exact ⟨none, Or.inr (by rw [hx])⟩
        · obtain ⟨p, q, hpq⟩ := hm.resolve_left hx
          exact ⟨some (p, q), by dsimp only; rw [← hpq]; rfl⟩
    obtain ⟨ms, hms⟩ := hms
    by_cases hn : e.name ≠ "normalize".toList ∧ e.name ≠ "rho".toList
    · obtain ⟨o, ho⟩ := ho hn
      refine ⟨⟨a, k, e.int.getD false, ms, e.header.getD o.name, some o⟩, hmem, (kindOf_mem _ _).mp hk, rfl, hms, fun _ => ⟨o, ho, rfl, rfl⟩, ?_⟩
      intro h
      dsimp only at h
      rw [h] at ha
      exact absurd ((action_rho _).mp ha) hn.2
    · refine ⟨⟨a, k, e.int.getD false, ms, e.header.getD "rho".toList, none⟩, hmem, (kindOf_mem _ _).mp hk, rfl, hms, ?_, fun _ => rfl⟩
      intro h
      exfalso
      dsimp only at h
      by_cases hr : e.name = "rho".toList
      · have := (action_rho _).mpr hr
        rw [ha] at this
        injection this with this
        rw [this] at h
        exact absurd h (by simp [Spec.needsOp])
      · have hr : e.name = "normalize".toList := by
          by_contra hc'
          exact hn ⟨hc', hr⟩
        have := (action_normalize _).mpr hr
        rw [ha] at this
        injection this with this
        rw [this] at h
        exact absurd h (by simp [Spec.needsOp])
  by_cases h1 : e.name ≠ "normalize".toList ∧ e.name ≠ "rho".toList
  · rw [if_pos h1]
    cases ho : e.op with
    | none => exact ⟨_, rfl⟩
    | some o => exact add_threw _ _ _ _ _ _ _ hname (Or.inr (key fun _ => ⟨o, ho⟩))
  · rw [if_neg h1]
    have := key (fun h => absurd h h1)
    by_cases h2 : e.name = "rho".toList
    · rw [if_pos h2]
      exact add_threw _ _ _ _ _ _ _ hname (Or.inr this)
    · rw [if_neg h2]
      exact add_threw _ _ _ _ _ _ _ hname (Or.inr this)

/-- What is known after several elements have been loaded. -/
structure LoadedAll (l : FList V) (is : List (Spec.Item V)) (l' : FList V) : Prop where
  size : l'.size = l.size + is.length
  below : ∀ n, n < l.size → l'.slots n = l.slots n
  above : ∀ n, l.size + is.length ≤ n → l'.slots n = l.slots n
  slot : ∀ k i, is[k]? = some i → Match i (l'.slots (l.size + k)) ∧ (l'.slots (l.size + k)).sum = 0
  renorm : l'.renorm = l.renorm
  inited : l'.inited = l.inited
  file : l'.file = l.file
  writefile : l'.writefile = (l.writefile || is.any fun i => Spec.shows i.act)

theorem loadAll_ok : ∀ (es : List (Entry V)) (is : List (Spec.Item V)) (l : FList V), l.size + es.length ≤ maxFilters →
    (∀ n, l.size ≤ n → (l.slots n).ms0 = -1 ∧ (l.slots n).ms1 = -1) → (∀ e ∈ es, e.name ≠ []) →
    List.Forall₂ Spec.Config es is → ∃ l', loadAll l es = .ok l' ∧ LoadedAll l is l' := by
  intro es
  induction es with
  | nil =>
    intro is l _ _ _ h
    cases h
    exact ⟨l, rfl, by simp, fun _ _ => rfl, fun _ _ => rfl, by simp, rfl, rfl, rfl, by simp⟩
  | cons e es ih =>
    intro is l hsize hms hne h
    cases h with
    | cons hc hrest =>
      rename_i i is
      rw [List.length_cons] at hsize
      obtain ⟨l1, h1, L⟩ := loadEntry_ok l e i (by omega) (hne e (by simp)) (hms _ le_rfl).1 (hms _ le_rfl).2 hc
      obtain ⟨l2, h2, A⟩ := ih is l1 (by rw [L.size]; omega)
        (fun n hn => by
          rw [L.size] at hn
          rw [L.slots n (by omega)]
          exact hms n (by omega))
        (fun e he => hne e (by simp [he])) hrest
      refine ⟨l2, by unfold loadAll; rw [h1]; exact h2, ?_, ?_, ?_, ?_, ?_, ?_, ?_, ?_⟩
      · rw [A.size, L.size, List.length_cons]; omega
      · intro n hn
        rw [A.below n (by rw [L.size]; omega), L.slots n (by omega)]
      · intro n hn
        rw [List.length_cons] at hn
        rw [A.above n (by rw [L.size]; omega), L.slots n (by omega)]
      · intro k j hk
        cases k with
        | zero =>
          simp only [List.getElem?_cons_zero, Option.some.injEq] at hk
          subst hk
          rw [Nat.add_zero, A.below l.size (by rw [L.size]; omega)]
          exact ⟨L.slot, L.sum⟩
        | succ k =>
          rw [List.getElem?_cons_succ] at hk
          have := A.slot k j hk
          rw [L.size, show l.size + 1 + k = l.size + (k + 1) by omega] at this
          exact this
      · rw [A.renorm, L.renorm]
      · rw [A.inited, L.inited]
      · rw [A.file, L.file]
      · rw [A.writefile, L.writefile, List.any_cons, Bool.or_assoc]

theorem loadAll_threw : ∀ (es : List (Entry V)) (l : FList V), l.size ≤ maxFilters →
    (∀ n, l.size ≤ n → (l.slots n).ms0 = -1 ∧ (l.slots n).ms1 = -1) → (∀ e ∈ es, e.name ≠ []) →
    (maxFilters < l.size + es.length ∨ ∃ e ∈ es, ¬ ∃ i, Spec.Config e i) → ∃ l', loadAll l es = .threw l' := by
  intro es
  induction es with
  | nil =>
    intro l hs _ _ h
    rcases h with h | ⟨e, he, _⟩
    · simp at h; omega
    · simp at he
  | cons e es ih =>
    intro l hs hms hne h
    by_cases hbad : maxFilters ≤ l.size ∨ ¬ ∃ i, Spec.Config e i
    · obtain ⟨l', hl⟩ := loadEntry_threw l e (hne e (by simp)) hbad
      exact ⟨l', by unfold loadAll; rw [hl]; rfl⟩
    · push Not at hbad
      obtain ⟨hlt, i, hc⟩ := hbad
      obtain ⟨l1, h1, L⟩ := loadEntry_ok l e i hlt (hne e (by simp)) (hms _ le_rfl).1 (hms _ le_rfl).2 hc
      obtain ⟨l2, h2⟩ := ih l1 (by rw [L.size]; omega)
        (fun n hn => by
          rw [L.size] at hn
          rw [L.slots n (by omega)]
          exact hms n (by omega))
        (fun e he => hne e (by simp [he])) (by
          rcases h with h | ⟨e', he', hc'⟩
          · left; rw [L.size]; rw [List.length_cons] at h; omega
          · right
            rcases List.mem_cons.mp he' with rfl | he'
            · exact absurd ⟨i, hc⟩ hc'
            · exact ⟨e', he', hc'⟩)
      exact ⟨l2, by unfold loadAll; rw [h1]; exact h2⟩

end QDng.Filters
