import Verif.OpChain.Props

/-! # Properties C257–C260: shared operators, errors, defaults and labels -/

namespace QDng.OpChain

open QDng Spec

/-! ### What all loads keep -/

/-- The state behind a load, also if it ends with an exception. -/
def Behind {A : Type} : Res A → State → Prop
  | .ok s _, s' => s' = s
  | .threw s, s' => s' = s
  | .text s, s' => s' = s
  | .ub, _ => False

/-- Parts are older than the operator, keys stand for operators that are there, and each operator has one key. -/
def Inv (s : State) : Prop :=
  (∀ (i : Nat) (o : Obj), s.heap[i]? = some o → ∀ p ∈ o.parts, p.2 < i) ∧
  (∀ k e, s.store k = some e → e.1 < s.heap.length) ∧
  (∀ k k' e e', s.store k = some e → s.store k' = some e' → e.1 = e'.1 → k = k')

/-- Operators are not changed, and keys of users stand for the same operators. -/
def Keeps (s s' : State) : Prop :=
  s.heap <+: s'.heap ∧ ∀ k e, Plain k → s.store k = some e → s'.store k = some e

theorem keeps_refl (s : State) : Keeps s s := ⟨List.prefix_refl _, fun _ _ _ h => h⟩

theorem keeps_trans {a b c : State} (h : Keeps a b) (h' : Keeps b c) : Keeps a c :=
  ⟨h.1.trans h'.1, fun k e hk he => h'.2 k e hk (h.2 k e hk he)⟩

theorem inv_register {s : State} {key : Str} {label : Option Str} {o : Obj} (h : Inv s)
    (ho : ∀ p ∈ o.parts, p.2 < s.heap.length) (s' : State) (hb : Behind (register s key label o) s') :
    Inv s' ∧ Keeps s s' ∧ ∀ t a, register s key label o = .ok t a → a < t.heap.length := by
  by_cases hs : (s.store key).isSome = true
  · have he : register s key label o = .threw s := by unfold register; rw [if_pos hs]
    rw [he] at hb ⊢
    obtain rfl : s' = s := hb
    exact ⟨h, keeps_refl _, fun t a e => absurd e (by simp)⟩
  · have hn : s.store key = none := by
      cases hx : s.store key with
      | none => rfl
      | some e => rw [hx] at hs; exact absurd rfl hs
    rw [register_eq label o hn] at hb ⊢
    obtain rfl : s' = added s key label o := hb
    refine ⟨⟨?_, ?_, ?_⟩, ⟨List.prefix_append _ _, ?_⟩, ?_⟩
    · intro i x hi p hp
      change (s.heap ++ [o])[i]? = some x at hi
      by_cases hlt : i < s.heap.length
      · rw [List.getElem?_append_left hlt] at hi
        exact h.1 i x hi p hp
      · have hi' := (List.getElem?_eq_some_iff.mp hi).1
        rw [List.length_append, List.length_singleton] at hi'
        have : i = s.heap.length := by omega
        subst this
        rw [List.getElem?_concat_length] at hi
        obtain rfl := Option.some.inj hi
        exact ho p hp
    · intro k e he
      show e.1 < (s.heap ++ [o]).length
      rw [List.length_append, List.length_singleton]
      change (if k = keyFor s key o.shape then _ else s.store k) = some e at he
      by_cases hk : k = keyFor s key o.shape
      · rw [if_pos hk] at he
        obtain rfl := Option.some.inj he
        show s.heap.length < _
        omega
      · rw [if_neg hk] at he
        have := h.2.1 k e he
        omega
    · intro k k' e e' he he' hee
      change (if k = keyFor s key o.shape then _ else s.store k) = some e at he
      change (if k' = keyFor s key o.shape then _ else s.store k') = some e' at he'
      by_cases hk : k = keyFor s key o.shape <;> by_cases hk' : k' = keyFor s key o.shape
      · rw [hk, hk']
      · rw [if_pos hk] at he
        rw [if_neg hk'] at he'
        obtain rfl := Option.some.inj he
        have h1 := h.2.1 k' e' he'
        have h2 : s.heap.length = e'.1 := hee
        omega
      · rw [if_neg hk] at he
        rw [if_pos hk'] at he'
        obtain rfl := Option.some.inj he'
        have h1 := h.2.1 k e he
        have h2 : e.1 = s.heap.length := hee
        omega
      · rw [if_neg hk] at he
        rw [if_neg hk'] at he'
        exact h.2.2 k k' e e' he he' hee
    · intro k e hk he
      show (if k = keyFor s key o.shape then _ else s.store k) = some e
      rw [if_neg]
      · exact he
      · unfold keyFor
        split
        · rintro rfl; exact not_plain_anon _ _ hk
        · rintro rfl; rw [hn] at he; exact absurd he (by simp)
    · intro t a e
      simp only [Res.ok.injEq] at e
      obtain ⟨rfl, rfl⟩ := e
      show s.heap.length < (s.heap ++ [o]).length
      rw [List.length_append, List.length_singleton]
      omega

theorem behind_bind {A B : Type} {x : Res A} {f : State → A → Res B} {s : State} (h : Behind (x.bind f) s) :
    (∃ s1 a, x = .ok s1 a ∧ Behind (f s1 a) s) ∨ ((∀ s1 a, x ≠ .ok s1 a) ∧ Behind x s) := by
  cases x with
  | ok s1 a => exact .inl ⟨s1, a, rfl, h⟩
  | threw s1 => exact .inr ⟨fun _ _ e => absurd e (by simp), h⟩
  | text s1 => exact .inr ⟨fun _ _ e => absurd e (by simp), h⟩
  | ub => exact absurd h (by simp [Res.bind, Behind])

theorem addPart_parts {W : World} {o o' : Obj} {tag : Str} {a : Nat} {sh : Shape}
    (h : addPart W o tag a sh = .ok o') : ∀ p ∈ o'.parts, p ∈ o.parts ∨ p.2 = a := by
  have key : ∀ (pl : Place) (sh' : Shape), o' = ⟨sh', o.parts ++ [(pl, a)]⟩ → ∀ p ∈ o'.parts, p ∈ o.parts ∨ p.2 = a := by
    rintro pl sh' rfl p hp
    rw [List.mem_append, List.mem_singleton] at hp
    rcases hp with hp | rfl
    · exact .inl hp
    · exact .inr rfl
  have named : ∀ sh', addNamed sh' o.parts tag a = .ok o' → ∀ p ∈ o'.parts, p ∈ o.parts ∨ p.2 = a := by
    intro sh' e
    unfold addNamed at e
    split at e
    · exact absurd e (by simp)
    · split at e
      · exact absurd e (by simp)
      · simp only [Added.ok.injEq] at e
        exact key _ _ e.symm
  unfold addPart at h
  split at h
  · unfold addGrid at h
    dsimp only at h
    repeat' (split at h)
    all_goals first
      | exact key _ _ (Added.ok.inj h).symm
      | exact Added.noConfusion h
  · split at h
    · exact absurd h (by simp)
    · unfold addElem at h
      dsimp only at h
      repeat' (split at h)
      all_goals first
        | exact key _ _ (Added.ok.inj h).symm
        | exact Added.noConfusion h
  · exact named _ h

theorem create_parts {W : World} {at_ : Attrs} {o : Obj} (h : create W at_ = some o) : o.parts = [] := by
  rcases create_cases h with ⟨-, rfl⟩ | ⟨-, -, rfl⟩ | ⟨-, -, -, rfl⟩ | ⟨-, -, -, rfl⟩ <;> rfl

mutual
theorem load_inv {W : World} : ∀ (n : Node) (s s' : State), Inv s → Behind (load W n s) s' →
    Inv s' ∧ Keeps s s' ∧ ∀ t a, load W n s = .ok t a → a < t.heap.length
  | .mk tag at_ text kids, s, s', hi, hb => by
    rw [load] at hb ⊢
    cases hr : at_.ref with
    | some r =>
      rw [hr] at hb
      dsimp only at hb ⊢
      cases he : s.store r with
      | none =>
        rw [he] at hb
        obtain rfl : s' = s := hb
        exact ⟨hi, keeps_refl _, fun t a e => absurd e (by simp)⟩
      | some e =>
        rw [he] at hb
        obtain rfl : s' = s := hb
        refine ⟨hi, keeps_refl _, fun t a h => ?_⟩
        simp only [Res.ok.injEq] at h
        obtain ⟨rfl, rfl⟩ := h
        exact hi.2.1 r e he
    | none =>
      rw [hr] at hb
      dsimp only at hb ⊢
      by_cases hk : (needsKids at_ && kids.isEmpty) = true
      · rw [if_pos hk] at hb; exact absurd hb (by simp [Behind])
      · rw [if_neg hk] at hb ⊢
        cases hc : create W at_ with
        | none =>
          rw [hc] at hb
          obtain rfl : s' = s := hb
          exact ⟨hi, keeps_refl _, fun t a e => absurd e (by simp)⟩
        | some o =>
          rw [hc] at hb
          dsimp only at hb ⊢
          have hnil := create_parts hc
          by_cases hp : hasParts o.shape = true
          · rw [if_pos hp] at hb ⊢
            by_cases ht : (kids.isEmpty && text) = true
            · rw [if_pos ht] at hb; exact absurd hb (by simp [Behind])
            · rw [if_neg ht] at hb ⊢
              rcases behind_bind hb with ⟨s1, o', h1, h2⟩ | ⟨h1, h2⟩
              · obtain ⟨a1, a2, a3⟩ := loadKids_inv kids s s1 o hi (by rw [hnil]; simp) (by rw [h1]; rfl)
                have b := inv_register (label := at_.label) a1 (a3 s1 o' h1) s' h2
                refine ⟨b.1, keeps_trans a2 b.2.1, ?_⟩
                rw [h1]
                exact b.2.2
              · obtain ⟨a1, a2, -⟩ := loadKids_inv kids s s' o hi (by rw [hnil]; simp) h2
                refine ⟨a1, a2, fun t a e => ?_⟩
                obtain ⟨s1, o', e1, -⟩ := bind_ok e
                exact absurd e1 (h1 s1 o')
          · rw [if_neg hp] at hb ⊢
            exact inv_register hi (by rw [hnil]; simp) s' hb
theorem loadKids_inv {W : World} : ∀ (ks : List Node) (s s' : State) (o : Obj), Inv s →
    (∀ p ∈ o.parts, p.2 < s.heap.length) → Behind (loadKids W ks s o) s' →
    Inv s' ∧ Keeps s s' ∧ ∀ t o', loadKids W ks s o = .ok t o' → ∀ p ∈ o'.parts, p.2 < t.heap.length
  | [], s, s', o, hi, ho, hb => by
    rw [loadKids] at hb ⊢
    obtain rfl : s' = s := hb
    refine ⟨hi, keeps_refl _, fun t o' e => ?_⟩
    simp only [Res.ok.injEq] at e
    obtain ⟨rfl, rfl⟩ := e
    exact ho
  | k :: ks, s, s', o, hi, ho, hb => by
    rw [loadKids] at hb ⊢
    by_cases ht : tagReady o k.tag = true
    · rw [if_pos ht] at hb ⊢
      rcases behind_bind hb with ⟨s1, a, h1, h2⟩ | ⟨h1, h2⟩
      · obtain ⟨a1, a2, a3⟩ := load_inv k s s1 hi (by rw [h1]; rfl)
        have ha := a3 s1 a h1
        rw [h1]
        show _ ∧ _ ∧ ∀ t o', ((addPart W o k.tag a (shapeAt s1 a)).res s1).bind _ = _ → _
        cases hx : addPart W o k.tag a (shapeAt s1 a) with
        | ok o2 =>
          rw [hx] at h2
          have h3 : Behind (loadKids W ks s1 o2) s' := h2
          have ho2 : ∀ p ∈ o2.parts, p.2 < s1.heap.length := by
            intro p hp
            rcases addPart_parts hx p hp with h | h
            · exact Nat.lt_of_lt_of_le (ho p h) a2.1.length_le
            · rw [h]; exact ha
          obtain ⟨c1, c2, c3⟩ := loadKids_inv ks s1 s' o2 a1 ho2 h3
          exact ⟨c1, keeps_trans a2 c2, c3⟩
        | threw =>
          rw [hx] at h2
          obtain rfl : s' = s1 := h2
          exact ⟨a1, a2, fun t o' e => absurd e (by simp [Added.res, Res.bind])⟩
        | text =>
          rw [hx] at h2
          obtain rfl : s' = s1 := h2
          exact ⟨a1, a2, fun t o' e => absurd e (by simp [Added.res, Res.bind])⟩
        | ub =>
          rw [hx] at h2
          exact absurd h2 (by simp [Added.res, Res.bind, Behind])
      · obtain ⟨a1, a2, -⟩ := load_inv k s s' hi h2
        refine ⟨a1, a2, fun t o' e => ?_⟩
        obtain ⟨s1, a, e1, -⟩ := bind_ok e
        exact absurd e1 (h1 s1 a)
    · rw [if_neg ht] at hb; exact absurd hb (by simp [Behind])
end

/-- The states that can be reached by loading inputs, whether they are accepted or refused with an exception. -/
inductive Reachable (W : World) : State → Prop
  | start : Reachable W State.start
  | load {s s' : State} (n : Node) : Reachable W s → Behind (load W n s) s' → Reachable W s'

theorem inv_reachable {W : World} {s : State} (h : Reachable W s) : Inv s := by
  induction h with
  | start =>
    refine ⟨?_, ?_, ?_⟩
    · intro i o h; exact absurd h (by simp [State.start])
    · intro k e h; exact absurd h (by simp [State.start])
    · intro k k' e e' h; exact absurd h (by simp [State.start])
  | load n _ hb ih => exact (load_inv n _ _ ih hb).1

/-! ### C257 -/

/-- In each state that can be reached, the parts of an operator were complete before it: there are no cycles.  Each
operator has one key at most. -/
theorem C257_acyclic (W : World) (s : State) (h : Reachable W s) :
    (∀ (i : Nat) (o : Obj), s.heap[i]? = some o → ∀ p ∈ o.parts, p.2 < i ∧ p.2 < s.heap.length) ∧
    (∀ k k' a l l', s.store k = some (a, l) → s.store k' = some (a, l') → k = k') := by
  have hi := inv_reachable h
  refine ⟨fun i o ho p hp => ?_, fun k k' a l l' h1 h2 => hi.2.2 k k' _ _ h1 h2 rfl⟩
  have h1 := hi.1 i o ho p hp
  have h2 := (List.getElem?_eq_some_iff.mp ho).1
  exact ⟨h1, by omega⟩

/-- Further inputs, accepted or refused, change neither the operators nor what the keys of users stand for: a reference
gives the same operator, not a copy. -/
theorem C257_shared (W : World) (s s' : State) (h : Reachable W s) (n : Node) (hb : Behind (load W n s) s') (k : Str)
    (hk : Plain k) (a : Nat) (tag : Str) (at_ : Attrs) (text : Bool) (kids : List Node) (href : at_.ref = some k)
    (hl : load W (.mk tag at_ text kids) s = .ok s a) :
    load W (.mk tag at_ text kids) s' = .ok s' a ∧ s'.heap[a]? = s.heap[a]? := by
  obtain ⟨-, hkeep, -⟩ := load_inv n s s' (inv_reachable h) hb
  rw [load, href] at hl ⊢
  dsimp only at hl ⊢
  cases he : s.store k with
  | none => rw [he] at hl; exact absurd hl (by simp)
  | some e =>
    rw [he] at hl
    simp only [Res.ok.injEq, true_and] at hl
    rw [hkeep.2 k e hk he]
    dsimp only
    rw [hl]
    refine ⟨rfl, ?_⟩
    have hlt := (inv_reachable h).2.1 k e he
    obtain ⟨x, hx⟩ := hkeep.1
    rw [← hx, List.getElem?_append_left (by rw [← hl]; exact hlt)]

/-- An operator given with a key is the one a reference to the key gives. -/
theorem C257_reference (W : World) (s s' : State) (tag : Str) (at_ : Attrs) (text : Bool)
    (kids : List Node) (a : Nat) (href : at_.ref = none) (hkey : at_.key ≠ []) (hl : load W (.mk tag at_ text kids) s = .ok s' a)
    (rtag : Str) (rat : Attrs) (rtext : Bool) (rkids : List Node) (hr : rat.ref = some at_.key) :
    load W (.mk rtag rat rtext rkids) s' = .ok s' a := by
  have key : ∀ t o, register t at_.key at_.label o = .ok s' a → ∃ e, s'.store at_.key = some e ∧ e.1 = a := by
    intro t o h
    cases hs : t.store at_.key with
    | some e =>
      unfold register at h
      rw [hs, if_pos (by simp)] at h
      exact absurd h (by simp)
    | none =>
      rw [register_eq _ _ hs] at h
      simp only [Res.ok.injEq] at h
      obtain ⟨rfl, rfl⟩ := h
      refine ⟨entryFor t at_.key at_.label, ?_, rfl⟩
      have hk : keyFor t at_.key o.shape = at_.key := by unfold keyFor; rw [if_neg hkey]
      show (if at_.key = keyFor t at_.key o.shape then some (entryFor t (keyFor t at_.key o.shape) at_.label)
        else t.store at_.key) = _
      rw [hk, if_pos rfl]
  have hreg : ∃ t o, register t at_.key at_.label o = .ok s' a := by
    rw [load, href] at hl
    dsimp only at hl
    split at hl
    · exact absurd hl (by simp)
    · cases hc : create W at_ with
      | none => rw [hc] at hl; exact absurd hl (by simp)
      | some o =>
        rw [hc] at hl
        dsimp only at hl
        split at hl
        · split at hl
          · exact absurd hl (by simp)
          · obtain ⟨s1, o', -, h2⟩ := bind_ok hl
            exact ⟨s1, o', h2⟩
        · exact ⟨s, o, hl⟩
  obtain ⟨t, o, h⟩ := hreg
  obtain ⟨e, e1, e2⟩ := key t o h
  rw [load, hr]
  dsimp only
  rw [e1, ← e2]

mutual
theorem means_keeps {W : World} : ∀ (n : Node) (E E' : Env) (t : Tree), Means W n E t E' →
    ∀ k t', E k = some t' → E' k = some t'
  | .mk tag at_ text kids, E, E', t, h, k, t', hk => by
    rw [Means] at h
    cases hr : at_.ref with
    | some r =>
      rw [hr] at h
      rw [h.2]; exact hk
    | none =>
      rw [hr] at h
      dsimp only at h
      obtain ⟨sh, ts, tags, E1, -, rfl, h3, h4⟩ := h
      have h1 : E1 k = some t' := by
        rcases h4 with ⟨-, -, -, rfl⟩ | ⟨-, -, h5⟩
        · exact hk
        · exact meansAll_keeps kids E E1 ts h5 k t' hk
      unfold Known at h3
      split at h3
      · rw [h3]; exact h1
      · obtain ⟨h3, rfl⟩ := h3
        dsimp only
        rw [if_neg]
        · exact h1
        · rintro rfl; rw [h1] at h3; exact absurd h3 (by simp)
theorem meansAll_keeps {W : World} : ∀ (ks : List Node) (E E' : Env) (ts : List Tree), MeansAll W ks E ts E' →
    ∀ k t', E k = some t' → E' k = some t'
  | [], E, E', ts, h, k, t', hk => by
    rw [MeansAll] at h
    rw [h.2]; exact hk
  | x :: xs, E, E', ts, h, k, t', hk => by
    rw [MeansAll] at h
    obtain ⟨t, E1, ts1, h1, h2, -⟩ := h
    exact meansAll_keeps xs E1 E' ts1 h2 k t' (means_keeps x E E1 t h1 k t' hk)
end

theorem meansAll_ref {W : World} : ∀ (ks : List Node) (E E' : Env) (ts : List Tree), MeansAll W ks E ts E' →
    ∀ tag at_ text kids r, Node.mk tag at_ text kids ∈ ks → at_.ref = some r → ∃ t, E' r = some t := by
  intro ks
  induction ks with
  | nil => intro E E' ts _ tag at_ text kids r h; exact absurd h (by simp)
  | cons k ks ih =>
    intro E E' ts h tag at_ text kids r hm hr
    rw [MeansAll] at h
    obtain ⟨t, E1, ts1, h1, h2, -⟩ := h
    rw [List.mem_cons] at hm
    rcases hm with rfl | hm
    · rw [Means, hr] at h1
      refine ⟨t, meansAll_keeps ks E1 E' ts1 h2 r t ?_⟩
      rw [h1.2]; exact h1.1
    · exact ih E1 E' ts1 h2 tag at_ text kids r hm hr

/-- An operator cannot be a part of itself: a sum, list or matrix with a reference to its own key is refused. -/
theorem C257_self (W : World) (s : State) (E : Env) (hs : Represents s E) (tag : Str) (at_ : Attrs) (text : Bool)
    (kids : List Node) (hreg : Regular (.mk tag at_ text kids)) (href : at_.ref = none) (hkey : at_.key ≠ [])
    (hsingle : ¬ Single W at_) (rtag : Str) (rat : Attrs) (rtext : Bool) (rkids : List Node)
    (hm : Node.mk rtag rat rtext rkids ∈ kids) (hr : rat.ref = some at_.key) (s' : State) (a : Nat) :
    load W (.mk tag at_ text kids) s ≠ .ok s' a := by
  intro h
  obtain ⟨t, E', h1, -⟩ := load_sound _ s s' a E hreg hs h
  rw [Means, href] at h1
  dsimp only at h1
  obtain ⟨sh, ts, tags, E1, -, rfl, h3, h4⟩ := h1
  rcases h4 with ⟨h4, -⟩ | ⟨-, -, h5⟩
  · exact hsingle h4
  · obtain ⟨t', e⟩ := meansAll_ref kids E E1 ts h5 rtag rat rtext rkids at_.key hm hr
    unfold Known at h3
    rw [if_neg hkey, e] at h3
    exact absurd h3.1 (by simp)

/-! ### C258 -/

/-- The result is an operator or an exception. -/
def Answered {A : Type} : Res A → Prop
  | .ok _ _ => True
  | .threw _ => True
  | .text _ => False
  | .ub => False

mutual
/-- Inputs without sums on grids, where matrices have elements with rows and columns and lists with text in them have
elements. -/
def Careful : Node → Prop
  | .mk _ at_ text kids => at_.name ≠ "GridSum".toList ∧ (text = true → kids ≠ []) ∧
      (at_.name = "Multistate".toList ∨ at_.name = "DMultistate".toList → kids ≠ [] ∧
        ∀ k ∈ kids, ∃ p : Nat × Nat, p.1 ≤ 2147483647 ∧ p.2 ≤ 2147483647 ∧ TagIs k.tag p) ∧ CarefulAll kids
def CarefulAll : List Node → Prop
  | [] => True
  | k :: ks => Careful k ∧ CarefulAll ks
end

theorem answered_register (s : State) (key : Str) (label : Option Str) (o : Obj) : Answered (register s key label o) := by
  unfold register
  split <;> trivial

theorem answered_bind {A B : Type} {x : Res A} {f : State → A → Res B} (h : Answered x) (hf : ∀ s a, Answered (f s a)) :
    Answered (x.bind f) := by
  cases x with
  | ok s a => exact hf s a
  | threw s => trivial
  | text s => exact h
  | ub => exact h

/-- Operators under construction to which all parts can be added without undefined behaviour. -/
def Tame (o : Obj) (ks : List Node) : Prop :=
  match o.shape with
  | .gridsum _ => False
  | .matrix _ _ _ => ∀ k ∈ ks, ∃ p : Nat × Nat, p.1 ≤ 2147483647 ∧ p.2 ≤ 2147483647 ∧ TagIs k.tag p
  | _ => True

theorem tame_step {W : World} {o : Obj} {k : Node} {ks : List Node} (h : Tame o (k :: ks)) (a : Nat) (sh : Shape) :
    tagReady o k.tag = true ∧ ((∃ o', addPart W o k.tag a sh = .ok o' ∧ Tame o' ks) ∨ addPart W o k.tag a sh = .threw) := by
  unfold Tame at h
  cases hs : o.shape with
  | gridsum m => rw [hs] at h; exact absurd h (by simp)
  | matrix d u n =>
    rw [hs] at h
    dsimp only at h
    obtain ⟨p, p1, p2, p3⟩ := h k (by simp)
    have hread : readTag k.tag = some ((p.1 : Int), (p.2 : Int)) := readTag_of_tagIs p3 p1 p2
    refine ⟨by unfold tagReady; rw [hs, hread]; rfl, ?_⟩
    unfold addPart
    rw [hs, hread]
    dsimp only
    unfold addElem
    dsimp only
    by_cases hb : (p.1 : Int) ≥ maxStates ∨ (p.2 : Int) ≥ maxStates
    · rw [if_pos hb]; exact .inr rfl
    · rw [if_neg hb, if_neg (by omega)]
      split
      · exact .inr rfl
      · exact .inl ⟨_, rfl, fun x hx => h x (by simp [hx])⟩
  | list n r =>
    refine ⟨by unfold tagReady; rw [hs], ?_⟩
    unfold addPart
    rw [hs]
    dsimp only
    unfold addNamed
    split
    · exact .inr rfl
    · split
      · exact .inr rfl
      · exact .inl ⟨_, rfl, trivial⟩
  | leaf n r =>
    refine ⟨by unfold tagReady; rw [hs], ?_⟩
    unfold addPart
    rw [hs]
    dsimp only
    unfold addNamed
    split
    · exact .inr rfl
    · split
      · exact .inr rfl
      · exact .inl ⟨_, rfl, trivial⟩

mutual
theorem load_answered {W : World} : ∀ (n : Node) (s : State), Careful n → Answered (load W n s)
  | .mk tag at_ text kids, s, hc => by
    rw [Careful] at hc
    obtain ⟨c1, c2, c3, c4⟩ := hc
    rw [load]
    cases hr : at_.ref with
    | some r =>
      dsimp only
      cases s.store r <;> trivial
    | none =>
      dsimp only
      by_cases hk : (needsKids at_ && kids.isEmpty) = true
      · rw [Bool.and_eq_true, List.isEmpty_iff] at hk
        have h1 := hk.1
        unfold needsKids at h1
        rw [decide_eq_true_iff] at h1
        rcases h1 with h1 | h1
        · exact absurd h1 c1
        · exact absurd hk.2 (c3 h1).1
      · rw [if_neg hk]
        cases hcr : create W at_ with
        | none => trivial
        | some o =>
          dsimp only
          by_cases hp : hasParts o.shape = true
          · rw [if_pos hp]
            have ht : ¬ (kids.isEmpty && text) = true := by
              intro e
              rw [Bool.and_eq_true, List.isEmpty_iff] at e
              exact c2 e.2 e.1
            rw [if_neg ht]
            refine answered_bind (loadKids_answered kids s o c4 ?_) (fun _ _ => answered_register _ _ _ _)
            rcases create_cases hcr with ⟨e1, rfl⟩ | ⟨e1, -, rfl⟩ | ⟨e1, e2, -, rfl⟩ | ⟨e1, e2, -, rfl⟩
            · exact absurd e1 c1
            · exact (c3 e1).2
            · trivial
            · trivial
          · rw [if_neg hp]
            exact answered_register _ _ _ _
theorem loadKids_answered {W : World} : ∀ (ks : List Node) (s : State) (o : Obj), CarefulAll ks → Tame o ks →
    Answered (loadKids W ks s o)
  | [], s, o, _, _ => by rw [loadKids]; trivial
  | k :: ks, s, o, hc, ht => by
    rw [CarefulAll] at hc
    rw [loadKids, if_pos (tame_step (W := W) ht 0 (.leaf [] 0)).1]
    refine answered_bind (load_answered k s hc.1) (fun s1 a => ?_)
    rcases (tame_step (W := W) ht a (shapeAt s1 a)).2 with ⟨o', h1, h2⟩ | h1
    · rw [h1]
      exact loadKids_answered ks s1 o' hc.2 h2
    · rw [h1]; trivial
end

/-- A careful input is loaded or refused with an exception, from each state. -/
theorem C258_answered_partial (W : World) (n : Node) (s : State) (h : Careful n) : Answered (load W n s) :=
  load_answered n s h

/-- A sum on a grid with an operator that is not on a grid: a text is thrown instead of an exception, no part of the
program catches it. -/
theorem C258_violated_text (W : World) (s s1 : State) (a : Nat) (at_ : Attrs) (k : Node) (kids : List Node) (text : Bool)
    (hname : at_.name = "GridSum".toList) (href : at_.ref = none) (hl : load W k s = .ok s1 a)
    (hg : ¬ OnGrid W (shapeAt s1 a)) : load W (.mk [] at_ text (k :: kids)) s = .text s1 := by
  rw [load, href]
  dsimp only
  rw [if_neg (by simp), create_grid hname]
  dsimp only
  rw [if_pos (show hasParts (Shape.gridsum 0) = true from rfl), if_neg (by simp), loadKids,
    if_pos (show tagReady ⟨.gridsum 0, []⟩ k.tag = true from rfl), hl]
  show (((addPart W ⟨.gridsum 0, []⟩ k.tag a (shapeAt s1 a)).res s1).bind _).bind _ = _
  have : addPart W ⟨.gridsum 0, []⟩ k.tag a (shapeAt s1 a) = .text := by
    show addGrid W 0 [] a (shapeAt s1 a) = _
    unfold addGrid
    rw [if_neg (fun h => hg ((isGrid_iff W _).mp h))]
  rw [this]
  rfl

/-- Sums on grids and matrices without an element in them: a NULL pointer is used. -/
theorem C258_violated_empty (W : World) (s : State) (at_ : Attrs) (tag : Str) (text : Bool) (href : at_.ref = none)
    (hname : at_.name = "GridSum".toList ∨ at_.name = "Multistate".toList ∨ at_.name = "DMultistate".toList) :
    load W (.mk tag at_ text []) s = .ub := by
  rw [load, href]
  dsimp only
  rw [if_pos]
  have : needsKids at_ = true := by unfold needsKids; rw [decide_eq_true_iff]; exact hname
  rw [this]; rfl

/-- A list with only a comment or white space in it: the same.  Without anything in it the list is empty. -/
theorem C258_violated_comment (W : World) (s : State) (at_ : Attrs) (tag : Str) (href : at_.ref = none)
    (hn : ¬ Special at_.name) (hl : W.load at_.name = some .list) (hi : W.initOk at_.name at_.rest = true)
    (hs : s.store at_.key = none) :
    load W (.mk tag at_ true []) s = .ub ∧
    ∃ s', load W (.mk tag at_ false []) s = .ok s' s.heap.length ∧
      s'.heap = s.heap ++ [⟨.list at_.name at_.rest, []⟩] := by
  replace hn := (needsKids_iff at_).mpr hn
  have hc := create_module hn .list hl hi
  rw [if_pos rfl] at hc
  constructor
  · rw [load, href]
    dsimp only
    rw [hn, if_neg (by simp), hc]
    rfl
  · refine ⟨added s at_.key at_.label ⟨.list at_.name at_.rest, []⟩, ?_, rfl⟩
    rw [load, href]
    dsimp only
    rw [hn, if_neg (by simp), hc]
    dsimp only
    rw [if_pos (show hasParts (Shape.list _ _) = true from rfl), if_neg (by simp), loadKids]
    exact register_eq _ _ hs

/-- A dipole with a generated laser field in a sum on a grid: the clock is NULL. -/
theorem C258_violated_clock (W : World) (s s1 : State) (a : Nat) (at_ : Attrs) (k : Node) (kids : List Node) (text : Bool)
    (hname : at_.name = "GridSum".toList) (href : at_.ref = none) (hl : load W k s = .ok s1 a)
    (hg : OnGrid W (shapeAt s1 a)) (hc : Generates W (shapeAt s1 a)) :
    load W (.mk [] at_ text (k :: kids)) s = .ub := by
  rw [load, href]
  dsimp only
  rw [if_neg (by simp), create_grid hname]
  dsimp only
  rw [if_pos (show hasParts (Shape.gridsum 0) = true from rfl), if_neg (by simp), loadKids,
    if_pos (show tagReady ⟨.gridsum 0, []⟩ k.tag = true from rfl), hl]
  show (((addPart W ⟨.gridsum 0, []⟩ k.tag a (shapeAt s1 a)).res s1).bind _).bind _ = _
  have : addPart W ⟨.gridsum 0, []⟩ k.tag a (shapeAt s1 a) = .ub := by
    show addGrid W 0 [] a (shapeAt s1 a) = _
    unfold addGrid
    rw [if_pos ((isGrid_iff W _).mpr hg), if_neg (by decide)]
    dsimp only
    rw [if_pos rfl, if_neg (by simp), if_pos (by
      by_contra h
      exact (clockCrash_iff W _).mp (by simpa using h) hc)]
  rw [this]
  rfl

/-! ### C259 -/

/-- The default diagonal is the one of the attribute and of the log, if the attribute is there and is a truth value. -/
theorem C259_given_partial (W : World) (at_ : Attrs) (d : Bool) (hname : at_.name = if d then dMultistate else multistate)
    (hs : W.states at_.rest ≤ 64) (b : Bool) (hu : at_.unity = some (if b then "true".toList else "false".toList)) :
    create W at_ = some ⟨.matrix d b (W.states at_.rest), []⟩ ∧ unityLog at_ = b := by
  have h1 : ∀ x, boolOf at_.unity x = b := by
    intro x
    rw [hu]
    cases b <;> cases x <;> decide
  rw [create_matrix d hname hs, h1]
  exact ⟨rfl, h1 false⟩

/-- Without the attribute the diagonal is one, although the handbook and the log say zero. -/
theorem C259_violated_default (W : World) (at_ : Attrs) (d : Bool) (hname : at_.name = if d then dMultistate else multistate)
    (hs : W.states at_.rest ≤ 64) (hu : at_.unity = none) :
    create W at_ = some ⟨.matrix d true (W.states at_.rest), []⟩ ∧ unityLog at_ = false := by
  rw [create_matrix d hname hs, hu]
  refine ⟨rfl, ?_⟩
  unfold unityLog
  rw [hu]
  rfl

/-! ### C260 -/

/-- An operator that is loaded with a label carries it, in each state that can be reached from there without an operator
that replaces its key, which is the only one it has. -/
theorem C260_label_partial (W : World) (s s' : State) (hr : Reachable W s) (tag : Str) (at_ : Attrs) (text : Bool)
    (kids : List Node) (a : Nat) (l : Str) (href : at_.ref = none) (hlab : at_.label = some l)
    (hl : load W (.mk tag at_ text kids) s = .ok s' a) :
    (∃ k, s'.store k = some (a, l)) ∧ ∀ k e, s'.store k = some e → e.1 = a → e.2 = l := by
  have hreg : ∃ t o, register t at_.key at_.label o = .ok s' a := by
    rw [load, href] at hl
    dsimp only at hl
    split at hl
    · exact absurd hl (by simp)
    · cases hc : create W at_ with
      | none => rw [hc] at hl; exact absurd hl (by simp)
      | some o =>
        rw [hc] at hl
        dsimp only at hl
        split at hl
        · split at hl
          · exact absurd hl (by simp)
          · obtain ⟨s1, o', -, h2⟩ := bind_ok hl
            exact ⟨s1, o', h2⟩
        · exact ⟨s, o, hl⟩
  obtain ⟨t, o, h⟩ := hreg
  have hst : ∃ k, s'.store k = some (a, l) := by
    cases hs : t.store at_.key with
    | some e =>
      unfold register at h
      rw [hs, if_pos (by simp)] at h
      exact absurd h (by simp)
    | none =>
      rw [register_eq _ _ hs] at h
      simp only [Res.ok.injEq] at h
      obtain ⟨rfl, rfl⟩ := h
      refine ⟨keyFor t at_.key o.shape, ?_⟩
      show (if keyFor t at_.key o.shape = keyFor t at_.key o.shape then
        some (entryFor t (keyFor t at_.key o.shape) at_.label) else _) = _
      rw [if_pos rfl, hlab]
      rfl
  have hb : Behind (load W (.mk tag at_ text kids) s) s' := by rw [hl]; rfl
  have hi := (load_inv _ s s' (inv_reachable hr) hb).1
  refine ⟨hst, ?_⟩
  intro k e he hea
  obtain ⟨k', hk'⟩ := hst
  have := hi.2.2 k k' e (a, l) he hk' hea
  subst this
  rw [he] at hk'
  rw [Option.some.inj hk']

/-- A label in an element with a reference is ignored, nothing is changed. -/
theorem C260_violated_reference (W : World) (s : State) (tag : Str) (at_ : Attrs) (text : Bool) (kids : List Node)
    (k : Str) (e : Nat × Str) (href : at_.ref = some k) (he : s.store k = some e) :
    load W (.mk tag at_ text kids) s = .ok s e.1 := by
  rw [load, href]
  dsimp only
  rw [he]

/-- An operator without a key and a label takes over the label of an entry with its generated key. -/
theorem C260_violated_inherited (s : State) (o : Obj) (a : Nat) (l : Str)
    (hs : s.store (Registry.anonKey (opName o.shape) s.anon) = some (a, l)) (he : s.store [] = none) :
    ∃ s', register s [] none o = .ok s' s.heap.length ∧
      s'.store (Registry.anonKey (opName o.shape) s.anon) = some (s.heap.length, l) := by
  refine ⟨_, register_eq none o he, ?_⟩
  have hk : keyFor s [] o.shape = Registry.anonKey (opName o.shape) s.anon := by unfold keyFor; rw [if_pos rfl]
  unfold added
  dsimp only
  rw [hk, if_pos rfl]
  unfold entryFor
  rw [hs]
  rfl

end QDng.OpChain
