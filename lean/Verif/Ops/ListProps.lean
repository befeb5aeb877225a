import Verif.Ops.ListModel
import Mathlib.Tactic.ByContra

/-
Properties of the operator list: C25 (bookkeeping) and C69 (flags of the list).
-/

namespace QDng.Ops

open QDng.Common

/-! ### Specification: a list of operators, some of which have a name -/

/-- The entries of a list in the order of their addition, each with its name, if any. -/
abbrev Items := List (Option Str × Nat)

/-- Calls a user can make. -/
inductive LCall where
  | add (o : Nat)
  | addN (name : Str) (o : Nat)
  | set (i : Int) (o : Nat)
  | setN (name : Str) (o : Nat)
  | conj (c : Bool)

/-- Position of the entry with the given name. -/
def Items.pos (items : Items) (name : Str) : Option Nat :=
  items.findIdx? (fun e => e.1 = some name)

/-- The entries after a call; `none`: the call must be rejected.  Additions are rejected for null
operators, for a full list (128 entries) and for names in use; replacements for entries that do not
exist. -/
def want (items : Items) : LCall → Option Items
  | .add o => if items.length < 128 ∧ o ≠ 0 then some (items ++ [(none, o)]) else none
  | .addN name o =>
    if (∀ e ∈ items, e.1 ≠ some name) ∧ items.length < 128 ∧ o ≠ 0 then
      some (items ++ [(some name, o)])
    else none
  | .set i o => if i < items.length then some (items.modify i.toNat (fun e => (e.1, o))) else none
  | .setN name o => (items.pos name).map (fun i => items.modify i (fun e => (e.1, o)))
  | .conj _ => some items

/-- Calls for which the documentation makes no promise: a negative index, or a null operator as
replacement of an entry. -/
def Illegal (items : Items) : LCall → Prop
  | .set i o => i < 0 ∨ (i < items.length ∧ o = 0)
  | .setN name o => items.pos name ≠ none ∧ o = 0
  | _ => False

/-- The entries after a sequence of calls. -/
def wants : List LCall → Items → Items
  | [], items => items
  | c :: cs, items => wants cs ((want items c).getD items)

/-- No call of the sequence is illegal at its turn. -/
def LegalRun : List LCall → Items → Prop
  | [], _ => True
  | c :: cs, items => ¬ Illegal items c ∧ LegalRun cs ((want items c).getD items)

/-- A list that answers every question according to `items`. -/
structure Answers (l : OList) (items : Items) : Prop where
  size : l.size = items.length
  get : ∀ i : Nat, l.get i = match items[i]? with | some e => .val e.2 | none => .threw
  exist : ∀ name, l.exists name = true ↔ ∃ e ∈ items, e.1 = some name
  named : ∀ name o, l.getNamed name = .val o ↔ (some name, o) ∈ items
  missing : ∀ name, l.getNamed name = .threw ↔ ∀ e ∈ items, e.1 ≠ some name
  index : ∀ name i, l.getIndex name = .val i ↔ ∃ o, items[i]? = some (some name, o)

/-! ### Running the model -/

/-- One call on the model: dispatch to the members of `OList` (src/qdlib/OList.cpp:83-144, 161-168). -/
def OList.step (info : Nat → OpInfo) (l : OList) : LCall → Out OList
  | .add o => l.add info o
  | .addN name o => l.addNamed info name o
  | .set i o => l.set i o
  | .setN name o => l.setNamed name o
  | .conj c => .ok (l.setConj c)

/-- A sequence of calls; the caller catches exceptions and goes on with the object as it is
(src/qdlib/OList.cpp:83-144). `none` is undefined behaviour. -/
def OList.run (info : Nat → OpInfo) : List LCall → OList → Option OList
  | [], l => some l
  | c :: cs, l => match l.step info c with
    | .ok l' => OList.run info cs l'
    | .threw l' => OList.run info cs l'
    | .ub => none

/-! ### Representation -/

structure Rep (l : OList) (items : Items) : Prop where
  size : l.size = items.length
  le : items.length ≤ 128
  cap : l.slots.length = 128
  slots : ∀ i : Nat, i < items.length → l.slots[i]? = (items[i]?).map Prod.snd
  names : ∀ name, OMap.find name l.names = items.pos name
  nodup : ∀ (i j : Nat) (n : Str) (oi oj : Nat), items[i]? = some (some n, oi) → items[j]? = some (some n, oj) → i = j
  flags : ∀ e ∈ items, l.flags e.2 = l.conj

theorem rep_new (f : Nat → Bool) : Rep (OList.new f) [] :=
  ⟨rfl, by simp, by simp [OList.new, maxOps], by simp, by simp [OList.new, OMap.find, Items.pos],
    by simp, by simp⟩

theorem setFlag_same (f : Nat → Bool) (o : Nat) (c : Bool) : setFlag f o c o = c := by
  simp [setFlag]

theorem setFlag_keep {f : Nat → Bool} {p : Nat} {c : Bool} (o : Nat) (h : f p = c) :
    setFlag f o c p = c := by
  unfold setFlag; split <;> simp [h]

theorem pos_none (items : Items) (name : Str) :
    items.pos name = none ↔ ∀ e ∈ items, e.1 ≠ some name := by
  simp [Items.pos, List.findIdx?_eq_none_iff]

theorem pos_some_get {items : Items} {name : Str} {i : Nat} (h : items.pos name = some i) :
    ∃ o, items[i]? = some (some name, o) := by
  unfold Items.pos at h
  rw [List.findIdx?_eq_some_iff_getElem] at h
  obtain ⟨hi, h1, _⟩ := h
  have h1' : items[i].1 = some name := by simpa using h1
  refine ⟨items[i].2, ?_⟩
  rw [List.getElem?_eq_getElem hi, ← h1']

theorem get_pos {l : OList} {items : Items} (h : Rep l items) {name : Str} {i o : Nat}
    (hg : items[i]? = some (some name, o)) : items.pos name = some i := by
  cases hp : items.pos name with
  | none =>
    exact absurd rfl ((pos_none items name).1 hp _ (List.mem_of_getElem? hg))
  | some j =>
    obtain ⟨o', hj⟩ := pos_some_get hp
    rw [h.nodup j i name o' o hj hg]

theorem rep_modify {l : OList} {items : Items} (h : Rep l items) {i : Nat} (hi : i < items.length)
    (o : Nat) (_ho : o ≠ 0) :
    Rep { l with slots := l.slots.set i o, flags := setFlag l.flags o l.conj }
      (items.modify i (fun e => (e.1, o))) := by
  have key : ∀ j : Nat, ((items.modify i (fun e => (e.1, o)))[j]?).map Prod.fst = (items[j]?).map Prod.fst := by
    intro j
    rw [List.getElem?_modify]
    split
    · cases items[j]? <;> simp
    · simp
  refine ⟨by simp [h.size], by simpa using h.le, by simpa using h.cap, ?_, ?_, ?_, ?_⟩
  · intro j hj
    rw [List.length_modify] at hj
    show (l.slots.set i o)[j]? = _
    rw [List.getElem?_set, List.getElem?_modify]
    have hc := h.cap
    have hl := h.le
    by_cases e : i = j
    · subst e
      rw [if_pos rfl, if_pos (by omega), List.getElem?_eq_getElem hi]
      simp
    · rw [if_neg e, h.slots j hj]
      cases items[j]? <;> simp [e]
  · intro name
    show OMap.find name l.names = _
    rw [h.names name]
    unfold Items.pos
    have hmap : (items.modify i (fun e => (e.1, o))).map Prod.fst = items.map Prod.fst := by
      apply List.ext_getElem?
      intro j
      rw [List.getElem?_map, List.getElem?_map, key j]
    have conv : ∀ it : Items, it.findIdx? (fun e => decide (e.1 = some name)) =
        (it.map Prod.fst).findIdx? (fun e => decide (e = some name)) := by
      intro it
      rw [List.findIdx?_map]; rfl
    rw [conv, conv, hmap]
  · intro a b n oa ob ha hb
    have ka := key a
    have kb := key b
    rw [ha] at ka
    rw [hb] at kb
    cases ea : items[a]? with
    | none => rw [ea] at ka; simp at ka
    | some xa =>
      cases eb : items[b]? with
      | none => rw [eb] at kb; simp at kb
      | some xb =>
        rw [ea] at ka
        rw [eb] at kb
        obtain ⟨na, oa'⟩ := xa
        obtain ⟨nb, ob'⟩ := xb
        simp at ka kb
        subst ka kb
        exact h.nodup a b n _ _ ea eb
  · intro e he
    show setFlag l.flags o l.conj e.2 = l.conj
    rw [List.mem_iff_getElem?] at he
    obtain ⟨j, hj⟩ := he
    rw [List.getElem?_modify] at hj
    by_cases e' : i = j
    · subst e'
      rw [List.getElem?_eq_getElem hi] at hj
      have hj' : (items[i].1, o) = e := by simpa using hj
      rw [← hj']
      exact setFlag_same _ _ _
    · simp only [e', if_false] at hj
      apply setFlag_keep
      apply h.flags
      apply List.mem_of_getElem? (i := j)
      simpa using hj

theorem rep_append {l : OList} {items : Items} (h : Rep l items) (hlt : items.length < 128)
    (name : Option Str) (hn : ∀ n, name = some n → ∀ e ∈ items, e.1 ≠ some n) (o : Nat)
    (td hm : Bool) (nm : OMap Str Nat)
    (hnm : ∀ n, OMap.find n nm = if name = some n then some items.length else OMap.find n l.names) :
    Rep { l with timeDep := td, slots := l.slots.set l.size o, flags := setFlag l.flags o l.conj,
                 hermitian := hm, size := l.size + 1, names := nm } (items ++ [(name, o)]) := by
  refine ⟨by simp [h.size], by simp; omega, by simpa using h.cap, ?_, ?_, ?_, ?_⟩
  · intro i hi
    show (l.slots.set l.size o)[i]? = _
    rw [List.getElem?_set, h.size]
    have hc := h.cap
    have hl := h.le
    simp at hi
    by_cases e : items.length = i
    · subst e
      rw [if_pos rfl, if_pos (by omega)]
      simp
    · rw [if_neg e, h.slots i (by omega), List.getElem?_append_left (by omega)]
  · intro n
    show OMap.find n nm = _
    rw [hnm n]
    have hsplit : (items ++ [(name, o)]).pos n =
        (items.pos n).or (if name = some n then some items.length else none) := by
      unfold Items.pos
      rw [List.findIdx?_append]
      by_cases e : name = some n <;> simp [e, List.findIdx?_cons]
    rw [hsplit]
    by_cases e : name = some n
    · rw [if_pos e, if_pos e, (pos_none items n).2 (hn n e)]; rfl
    · rw [if_neg e, if_neg e, h.names n]; simp
  · intro a b n oa ob ha hb
    have split : ∀ c oc, (items ++ [(name, o)])[c]? = some (some n, oc) →
        items[c]? = some (some n, oc) ∨ (c = items.length ∧ name = some n) := by
      intro c oc hc
      rw [List.getElem?_append] at hc
      split at hc
      · exact Or.inl hc
      · right
        cases hd : c - items.length with
        | zero => rw [hd] at hc; simp at hc; exact ⟨by omega, hc.1⟩
        | succ k => rw [hd] at hc; simp at hc
    rcases split a oa ha with h1 | ⟨h1, h1'⟩ <;> rcases split b ob hb with h2 | ⟨h2, h2'⟩
    · exact h.nodup a b n _ _ h1 h2
    · exact absurd rfl (hn n h2' _ (List.mem_of_getElem? h1))
    · exact absurd rfl (hn n h1' _ (List.mem_of_getElem? h2))
    · omega
  · intro e he
    show setFlag l.flags o l.conj e.2 = l.conj
    rcases List.mem_append.1 he with he | he
    · exact setFlag_keep _ (h.flags e he)
    · have : e = (name, o) := by simpa using he
      rw [this]; exact setFlag_same _ _ _

theorem foldl_flags (os : List Nat) (f : Nat → Bool) (c : Bool) (p : Nat) (h : p ∈ os ∨ f p = c) :
    (os.foldl (fun f o => setFlag f o c) f) p = c := by
  induction os generalizing f with
  | nil => simpa using h
  | cons o os ih =>
    apply ih
    rcases h with h | h
    · rcases List.mem_cons.1 h with rfl | h
      · exact Or.inr (setFlag_same _ _ _)
      · exact Or.inl h
    · exact Or.inr (setFlag_keep _ h)

theorem rep_take {l : OList} {items : Items} (h : Rep l items) :
    l.slots.take l.size = items.map Prod.snd := by
  apply List.ext_getElem?
  intro i
  rw [List.getElem?_take, List.getElem?_map, h.size]
  by_cases e : i < items.length
  · rw [if_pos e, h.slots i e]
  · rw [if_neg e, List.getElem?_eq_none (by omega)]; rfl

theorem rep_conj {l : OList} {items : Items} (h : Rep l items) (c : Bool) :
    Rep (l.setConj c) items := by
  refine ⟨h.size, h.le, h.cap, h.slots, h.names, h.nodup, ?_⟩
  intro e he
  show ((l.slots.take l.size).foldl (fun f o => setFlag f o c) l.flags) e.2 = c
  apply foldl_flags
  left
  rw [rep_take h]
  exact List.mem_map_of_mem he

/-- One call: what the model does is what the specification wants. -/
theorem step_rep (info : Nat → OpInfo) {l : OList} {items : Items} (h : Rep l items) (c : LCall)
    (hc : ¬ Illegal items c) :
    match want items c with
    | none => l.step info c = .threw l
    | some items' => ∃ l', l.step info c = .ok l' ∧ Rep l' items' := by
  have hc' := h.cap
  have hl := h.le
  have hs := h.size
  have hm : maxOps = 128 := rfl
  cases c with
  | add o =>
    simp only [want, OList.step, OList.add]
    by_cases e : items.length < 128 ∧ o ≠ 0
    · rw [if_pos e]
      refine ⟨_, ?_, rep_append h e.1 none (by simp) o (if (info o).timeDep then true else l.timeDep)
        (if !(info o).hermitian then false else l.hermitian) l.names (by simp)⟩
      rw [if_neg (show ¬ l.size ≥ maxOps by omega), if_neg e.2, if_pos (show l.size < l.slots.length by omega)]
    · rw [if_neg e]
      by_cases e1 : l.size ≥ maxOps
      · simp [e1]
      · have : o = 0 := by
          by_contra h0
          exact e ⟨by omega, h0⟩
        simp [this]
  | addN name o =>
    simp only [want, OList.step, OList.addNamed, OList.add]
    rw [h.names name]
    by_cases e : (∀ e ∈ items, e.1 ≠ some name) ∧ items.length < 128 ∧ o ≠ 0
    · rw [if_pos e, (pos_none items name).2 e.1]
      refine ⟨_, ?_, rep_append h e.2.1 (some name) ?_ o (if (info o).timeDep then true else l.timeDep)
        (if !(info o).hermitian then false else l.hermitian) (OMap.insert name l.size l.names) ?_⟩
      · dsimp only
        rw [if_neg (show ¬ l.size ≥ maxOps by omega), if_neg e.2.2,
          if_pos (show l.size < l.slots.length by omega)]
        simp
      · intro n hn; rw [← Option.some.inj hn]; exact e.1
      · intro n
        rw [OMap.find_insert, hs]
        by_cases e' : n = name
        · subst e'; simp
        · rw [if_neg e', if_neg (fun hh => e' (Option.some.inj hh).symm)]
    · rw [if_neg e]
      cases hp : items.pos name with
      | some i => rfl
      | none =>
        have hp' := (pos_none items name).1 hp
        by_cases e1 : l.size ≥ maxOps
        · simp [e1]
        · have : o = 0 := by
            by_contra h0
            exact e ⟨hp', by omega, h0⟩
          simp [this]
  | set i o =>
    simp only [want, OList.step, OList.set]
    simp only [Illegal, not_or, not_and] at hc
    by_cases e : i < items.length
    · rw [if_pos e, if_neg (by omega), if_neg (by omega)]
      refine ⟨_, ?_, rep_modify h (i := i.toNat) (by omega) o (hc.2 e)⟩
      unfold OList.store
      rw [if_pos (by omega), if_neg (hc.2 e)]
    · rw [if_neg e, if_pos (by omega)]
  | setN name o =>
    simp only [want, OList.step, OList.setNamed, OList.getIndex]
    rw [h.names name]
    cases hp : items.pos name with
    | none => rfl
    | some i =>
      obtain ⟨o', ho'⟩ := pos_some_get hp
      have hi : i < items.length := (List.getElem?_eq_some_iff.1 ho').1
      have h0 : o ≠ 0 := fun h0 => hc ⟨by rw [hp]; simp, h0⟩
      refine ⟨_, ?_, rep_modify h hi o h0⟩
      show OList.store l i o = _
      unfold OList.store
      rw [if_pos (by omega), if_neg h0]
  | conj c =>
    exact ⟨_, rfl, rep_conj h c⟩

theorem run_rep (info : Nat → OpInfo) (cs : List LCall) :
    ∀ (l : OList) (items : Items), Rep l items → LegalRun cs items →
      ∃ l', l.run info cs = some l' ∧ Rep l' (wants cs items) := by
  induction cs with
  | nil => intro l items h _; exact ⟨l, rfl, h⟩
  | cons c cs ih =>
    intro l items h hleg
    have hs := step_rep info h c hleg.1
    have hl2 := hleg.2
    simp only [OList.run, wants]
    cases hw : want items c with
    | none =>
      rw [hw] at hs hl2
      rw [hs]
      exact ih l items h hl2
    | some items' =>
      rw [hw] at hs hl2
      obtain ⟨l', h1, h2⟩ := hs
      rw [h1]
      exact ih l' items' h2 hl2

theorem rep_answers {l : OList} {items : Items} (h : Rep l items) : Answers l items := by
  have named : ∀ name, l.getNamed name = match items.pos name with
      | none => .threw
      | some i => match items[i]? with | some e => .val e.2 | none => .ub := by
    intro name
    simp only [OList.getNamed, OList.getIndex]
    rw [h.names name]
    cases hp : items.pos name with
    | none => rfl
    | some i =>
      obtain ⟨o, ho⟩ := pos_some_get hp
      have hi : i < items.length := (List.getElem?_eq_some_iff.1 ho).1
      simp only [h.slots i hi, ho, Option.map_some]
  refine ⟨h.size, ?_, ?_, ?_, ?_, ?_⟩
  · intro i
    unfold OList.get
    by_cases e : i < items.length
    · rw [if_neg (by have := h.size; omega), if_neg (by omega)]
      simp only [Int.toNat_natCast]
      rw [h.slots i e, List.getElem?_eq_getElem e]
      rfl
    · rw [if_pos (by have := h.size; omega), List.getElem?_eq_none (by omega)]
  · intro name
    unfold OList.exists
    rw [h.names name]
    cases hp : items.pos name with
    | none =>
      have := (pos_none items name).1 hp
      simp only [Option.isSome_none]
      constructor
      · intro hh; simp at hh
      · rintro ⟨e, he, h1⟩; exact absurd h1 (this e he)
    | some i =>
      obtain ⟨o, ho⟩ := pos_some_get hp
      simp only [Option.isSome_some, true_iff]
      exact ⟨_, List.mem_of_getElem? ho, rfl⟩
  · intro name o
    rw [named]
    constructor
    · intro hh
      cases hp : items.pos name with
      | none => rw [hp] at hh; simp at hh
      | some i =>
        obtain ⟨o', ho'⟩ := pos_some_get hp
        rw [hp] at hh
        simp only [ho', Ans.val.injEq] at hh
        subst hh
        exact List.mem_of_getElem? ho'
    · intro hm
      obtain ⟨i, hi⟩ := List.mem_iff_getElem?.1 hm
      rw [get_pos h hi]
      simp only [hi]
  · intro name
    rw [named, ← pos_none]
    cases hp : items.pos name with
    | none => simp
    | some i =>
      obtain ⟨o', ho'⟩ := pos_some_get hp
      simp [ho']
  · intro name i
    unfold OList.getIndex
    rw [h.names name]
    constructor
    · intro hh
      cases hp : items.pos name with
      | none => rw [hp] at hh; simp at hh
      | some j =>
        rw [hp] at hh
        simp only [Ans.val.injEq] at hh
        subst hh
        exact pos_some_get hp
    · rintro ⟨o, ho⟩
      rw [get_pos h ho]

/-! ### C25 -/

/-- C25 (without the copy): after every legal sequence of calls on a new list the list answers every
question about sizes, indices and names as the entries of the specification say. -/
theorem C25_answers (info : Nat → OpInfo) (f : Nat → Bool) (cs : List LCall) (h : LegalRun cs []) :
    ∃ l, (OList.new f).run info cs = some l ∧ Answers l (wants cs []) := by
  obtain ⟨l, h1, h2⟩ := run_rep info cs _ _ (rep_new f) h
  exact ⟨l, h1, rep_answers h2⟩

/-- C25: duplicate names, null operators, more than 128 entries and replacements of missing entries
are rejected and leave the list exactly as it was; every other call succeeds. -/
theorem C25_rejects (info : Nat → OpInfo) (f : Nat → Bool) (cs : List LCall) (h : LegalRun cs [])
    (l : OList) (hl : (OList.new f).run info cs = some l) (c : LCall)
    (hc : ¬ Illegal (wants cs []) c) :
    (l.step info c = .threw l ↔ want (wants cs []) c = none) ∧
    ((∃ l', l.step info c = .ok l') ↔ want (wants cs []) c ≠ none) := by
  obtain ⟨l', h1, h2⟩ := run_rep info cs _ _ (rep_new f) h
  rw [h1] at hl
  have hl' := Option.some.inj hl
  subst hl'
  have := step_rep info h2 c hc
  cases hw : want (wants cs []) c with
  | none => rw [hw] at this; rw [this]; simp
  | some items => rw [hw] at this; obtain ⟨l2, h3, _⟩ := this; rw [h3]; simp

/-- C25 (copy, what holds): a copy answers questions by index like the original, with the clone of
each operator. -/
theorem C25_copy_partial (info : Nat → OpInfo) (f g : Nat → Bool) (clone : Nat → Nat)
    (cs ds : List LCall) (h : LegalRun cs []) (hd : LegalRun ds []) (l r : OList)
    (hl : (OList.new f).run info ds = some l) (hr : (OList.new f).run info cs = some r) :
    (l.copyFrom clone g r).size = r.size ∧
    ∀ i : Nat, (l.copyFrom clone g r).get i =
      match r.get i with | .val o => .val (clone o) | .threw => .threw | .ub => .ub := by
  obtain ⟨r', h1, h2⟩ := run_rep info cs _ _ (rep_new f) h
  obtain ⟨l', k1, k2⟩ := run_rep info ds _ _ (rep_new f) hd
  rw [h1] at hr
  rw [k1] at hl
  obtain rfl := Option.some.inj hr
  obtain rfl := Option.some.inj hl
  refine ⟨rfl, ?_⟩
  intro i
  rw [(rep_answers h2).get i]
  have hs := h2.size
  have hle := h2.le
  show (if (i : Int) ≥ r'.size then _ else _) = _
  by_cases e : i < (wants cs []).length
  · rw [if_neg (by omega), if_neg (by omega)]
    simp only [Int.toNat_natCast, OList.copyFrom, rep_take h2]
    rw [List.getElem?_append_left (by simpa using e), List.getElem?_map, List.getElem?_map,
      List.getElem?_eq_getElem e]
    rfl
  · rw [if_pos (by omega), List.getElem?_eq_none (by omega)]

/-- C25 is violated for copies: the names are not copied, so the copy of a list with one entry named
"a" does not know the name. -/
theorem C25_violated_copy :
    ∃ (info : Nat → OpInfo) (f g : Nat → Bool) (r : OList),
      (OList.new f).run info [.addN "a".toList 7] = some r ∧
      r.getNamed "a".toList = .val 7 ∧ r.exists "a".toList = true ∧
      ((OList.new f).copyFrom id g r).getNamed "a".toList = .threw ∧
      ((OList.new f).copyFrom id g r).exists "a".toList = false := by
  refine ⟨fun _ => ⟨false, true⟩, fun _ => false, fun _ => false, _,
    (Option.some_get (by decide +kernel)).symm, ?_, ?_, ?_, ?_⟩ <;>
    decide +kernel

/-- C25 is violated for negative indices: they are not rejected but read or write in front of the
array. -/
theorem C25_violated_negative (l : OList) (i : Int) (h : i < 0) (o : Nat) :
    l.get i = .ub ∧ l.set i o = .ub := by
  simp only [OList.get, OList.set]
  rw [if_neg (by omega), if_pos h, if_neg (by omega), if_pos h]
  exact ⟨rfl, rfl⟩

/-- The hypotheses of the theorems are met by a run with every kind of call, two of them rejected. -/
example : LegalRun [.addN "T".toList 1, .add 2, .addN "T".toList 3, .add 0, .set 1 4, .conj true,
    .setN "T".toList 5, .set 9 1] [] ∧
    wants [.addN "T".toList 1, .add 2, .addN "T".toList 3, .add 0, .set 1 4, .conj true,
      .setN "T".toList 5, .set 9 1] [] = [(some "T".toList, 5), (none, 4)] := by
  constructor
  · simp [LegalRun, Illegal, want, Items.pos, List.findIdx?_cons]
  · decide +kernel

/-! ### C69: flags -/

/-- C69: after every legal sequence of calls every operator in the list has the conjugation flag of
the list, no matter in which order operators were added and the flag was set. -/
theorem C69_conj (info : Nat → OpInfo) (f : Nat → Bool) (cs : List LCall) (h : LegalRun cs [])
    (l : OList) (hl : (OList.new f).run info cs = some l) (i : Nat) (o : Nat)
    (hi : l.get i = .val o) : l.flags o = l.conj := by
  obtain ⟨l', h1, h2⟩ := run_rep info cs _ _ (rep_new f) h
  rw [h1] at hl
  obtain rfl := Option.some.inj hl
  have := (rep_answers h2).get i
  rw [hi] at this
  cases e : (wants cs [])[i]? with
  | none => rw [e] at this; simp at this
  | some x =>
    rw [e] at this
    have hx : o = x.2 := by simpa using this
    rw [hx]
    exact h2.flags x (List.mem_of_getElem? e)

/-- The conjugation flag of the list is the last one set, `false` if none was set. -/
def lastConj : List LCall → Bool → Bool
  | [], c => c
  | .conj c :: cs, _ => lastConj cs c
  | _ :: cs, c => lastConj cs c

/-- Calls that replace entries. -/
def IsSet : LCall → Prop
  | .set _ _ => True
  | .setN _ _ => True
  | _ => False

theorem add_flags {info : Nat → OpInfo} {l l' : OList} {o : Nat} (h : l.add info o = .ok l') :
    l'.conj = l.conj ∧ l'.timeDep = (l.timeDep || (info o).timeDep) ∧
    l'.hermitian = (l.hermitian && (info o).hermitian) := by
  unfold OList.add at h
  split at h
  · simp at h
  · split at h
    · simp at h
    · split at h
      · injection h with h
        subst h
        refine ⟨rfl, ?_, ?_⟩
        · cases h1 : (info o).timeDep <;> simp
        · cases h1 : (info o).hermitian <;> simp
      · simp at h

theorem run_flags (info : Nat → OpInfo) (cs : List LCall) :
    ∀ (l : OList) (items : Items), Rep l items → LegalRun cs items → (∀ c ∈ cs, ¬ IsSet c) →
      l.timeDep = items.any (fun e => (info e.2).timeDep) →
      l.hermitian = items.all (fun e => (info e.2).hermitian) →
      ∃ l', l.run info cs = some l' ∧
        l'.timeDep = (wants cs items).any (fun e => (info e.2).timeDep) ∧
        l'.hermitian = (wants cs items).all (fun e => (info e.2).hermitian) ∧
        l'.conj = lastConj cs l.conj := by
  induction cs with
  | nil => intro l items _ _ _ h1 h2; exact ⟨l, rfl, h1, h2, rfl⟩
  | cons c cs ih =>
    intro l items h hleg hns h1 h2
    have hs := step_rep info h c hleg.1
    have hl2 := hleg.2
    have hns' : ∀ c ∈ cs, ¬ IsSet c := fun c hc => hns c (List.mem_cons_of_mem _ hc)
    simp only [OList.run, wants]
    cases hw : want items c with
    | none =>
      rw [hw] at hs hl2
      rw [hs]
      have := ih l items h hl2 hns' h1 h2
      cases c <;> first | exact this | (simp [want] at hw)
    | some items' =>
      rw [hw] at hs hl2
      obtain ⟨l', k1, k2⟩ := hs
      rw [k1]
      have main : l'.timeDep = items'.any (fun e => (info e.2).timeDep) ∧
          l'.hermitian = items'.all (fun e => (info e.2).hermitian) ∧
          lastConj (c :: cs) l.conj = lastConj cs l'.conj := by
        cases c with
        | add o =>
          obtain ⟨a, b, d⟩ := add_flags k1
          have hi : items' = items ++ [(none, o)] := by
            simp only [want] at hw
            split at hw
            · simpa using hw.symm
            · simp at hw
          refine ⟨?_, ?_, ?_⟩
          · rw [b, h1, hi]; simp
          · rw [d, h2, hi]; simp
          · rw [a]; rfl
        | addN name o =>
          have hi : items' = items ++ [(some name, o)] := by
            simp only [want] at hw
            split at hw
            · simpa using hw.symm
            · simp at hw
          simp only [OList.step, OList.addNamed] at k1
          split at k1
          · simp at k1
          · split at k1
            · simp at k1
            · simp at k1
            · rename_i l2 hadd
              obtain ⟨a, b, d⟩ := add_flags hadd
              injection k1 with k1
              subst k1
              refine ⟨?_, ?_, ?_⟩
              · show l2.timeDep = _
                rw [b, h1, hi]; simp
              · show l2.hermitian = _
                rw [d, h2, hi]; simp
              · show _ = lastConj cs l2.conj
                rw [a]; rfl
        | set i o => exact absurd trivial (hns _ (List.mem_cons_self ..))
        | setN n o => exact absurd trivial (hns _ (List.mem_cons_self ..))
        | conj b =>
          simp only [want, Option.some.injEq] at hw
          subst hw
          simp only [OList.step] at k1
          injection k1 with k1
          subst k1
          exact ⟨h1, h2, rfl⟩
      rw [main.2.2]
      exact ih l' items' k2 hl2 hns' main.1 main.2.1

/-- C69: in a list filled by additions only, the time dependence of the list is that of some entry,
the list is hermitian exactly if all entries are, and its conjugation flag is the last one set. -/
theorem C69_flags_partial (info : Nat → OpInfo) (f : Nat → Bool) (cs : List LCall)
    (h : LegalRun cs []) (hs : ∀ c ∈ cs, ¬ IsSet c) :
    ∃ l, (OList.new f).run info cs = some l ∧
      (l.timeDep = true ↔ ∃ e ∈ wants cs [], (info e.2).timeDep = true) ∧
      (l.hermitian = true ↔ ∀ e ∈ wants cs [], (info e.2).hermitian = true) ∧
      l.conj = lastConj cs false := by
  obtain ⟨l, h1, h2, h3, h4⟩ := run_flags info cs _ _ (rep_new f) h hs (by rfl) (by rfl)
  refine ⟨l, h1, ?_, ?_, h4⟩
  · rw [h2]; simp
  · rw [h3]; simp

/-- C69 is violated for replacements: after replacing the only entry by a time dependent, non hermitian
operator the list still reports a time independent hermitian operator. -/
theorem C69_violated_set :
    ∃ (info : Nat → OpInfo) (f : Nat → Bool) (l : OList),
      (OList.new f).run info [.add 1, .set 0 2] = some l ∧ l.get 0 = .val 2 ∧
      (info 2).timeDep = true ∧ (info 2).hermitian = false ∧
      l.timeDep = false ∧ l.hermitian = true := by
  refine ⟨fun o => ⟨o == 2, o != 2⟩, fun _ => false, _,
    (Option.some_get (by decide +kernel)).symm, ?_, ?_, ?_, ?_, ?_⟩ <;> decide +kernel

/-- C69 is violated for copies: the copy of a list with a time dependent entry reports to be time
independent, and does not take over the conjugation flag. -/
theorem C69_violated_copy :
    ∃ (info : Nat → OpInfo) (f g : Nat → Bool) (r : OList),
      (OList.new f).run info [.conj true, .add 2] = some r ∧ r.timeDep = true ∧ r.conj = true ∧
      ((OList.new f).copyFrom id g r).get 0 = .val 2 ∧
      ((OList.new f).copyFrom id g r).timeDep = false ∧
      ((OList.new f).copyFrom id g r).conj = false := by
  refine ⟨fun _ => ⟨true, true⟩, fun _ => false, fun _ => false, _,
    (Option.some_get (by decide +kernel)).symm, ?_, ?_, ?_, ?_, ?_⟩ <;>
    decide +kernel

/-- The hypotheses of `C69_flags_partial` are met by a run with two entries. -/
example : LegalRun [.add 1, .conj true, .addN "V".toList 2] [] ∧
    ∀ c ∈ [LCall.add 1, .conj true, .addN "V".toList 2], ¬ IsSet c := by
  constructor
  · simp [LegalRun, Illegal]
  · simp [IsSet]

end QDng.Ops
