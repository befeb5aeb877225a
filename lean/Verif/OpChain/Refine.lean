import Verif.OpChain.Lemmas
import Mathlib.Data.List.Forall2

/-
Loading gives the operators the input means, and succeeds exactly if the input has a meaning.
-/

namespace QDng.OpChain

open QDng Spec

/-! ### The words of the specification -/

theorem isGrid_iff (W : World) (sh : Shape) : isGrid W sh = true ↔ OnGrid W sh := by
  cases sh <;> simp [isGrid, OnGrid]

theorem clockCrash_iff (W : World) (sh : Shape) : clockCrash W sh = false ↔ ¬ Generates W sh := by
  cases sh <;> simp [clockCrash, Generates]

theorem sizeOf_eq (W : World) : sizeOf W = gridSize W := by
  funext sh
  cases sh <;> rfl

theorem needsKids_iff (at_ : Attrs) : needsKids at_ = false ↔ ¬ Special at_.name := by
  unfold needsKids Special
  rw [decide_eq_false_iff_not]
  exact Iff.rfl

theorem boolOf_iff (v : Option Str) (u : Bool) : u = boolOf v true ↔ (u = true ↔ v ≠ some "false".toList) := by
  cases v with
  | none => simp [boolOf]
  | some t =>
    unfold boolOf
    dsimp only
    by_cases h1 : t = "true".toList
    · rw [if_pos h1, h1]
      have : (some "true".toList : Option Str) ≠ some "false".toList := by decide
      simp only [this, ne_eq, not_false_eq_true, iff_true]
    · rw [if_neg h1]
      by_cases h2 : t = "false".toList
      · rw [if_pos h2, h2]; simp
      · rw [if_neg h2]
        have : (some t : Option Str) ≠ some "false".toList := fun h => h2 (Option.some.inj h)
        simp only [this, ne_eq, not_false_eq_true, iff_true]

theorem gridParts_iff (W : World) (shs : List Shape) : (∀ p ∈ shs, isGrid W p = true ∧ clockCrash W p = false) ↔
    ∀ p ∈ shs, OnGrid W p ∧ ¬ Generates W p := by
  constructor
  · intro h p hp; exact ⟨(isGrid_iff W p).mp (h p hp).1, (clockCrash_iff W p).mp (h p hp).2⟩
  · intro h p hp; exact ⟨(isGrid_iff W p).mpr (h p hp).1, (clockCrash_iff W p).mpr (h p hp).2⟩

/-! ### The new operator -/

theorem create_cases {W : World} {at_ : Attrs} {o : Obj} (h : create W at_ = some o) :
    (at_.name = gridSum ∧ o = ⟨.gridsum 0, []⟩) ∨
    ((at_.name = multistate ∨ at_.name = dMultistate) ∧ W.states at_.rest ≤ 64 ∧
      o = ⟨.matrix (decide (at_.name = dMultistate)) (boolOf at_.unity true) (W.states at_.rest), []⟩) ∨
    (needsKids at_ = false ∧ W.load at_.name = some .list ∧ W.initOk at_.name at_.rest = true ∧
      o = ⟨.list at_.name at_.rest, []⟩) ∨
    (needsKids at_ = false ∧ (W.load at_.name = some .grid ∨ W.load at_.name = some .plain) ∧
      W.initOk at_.name at_.rest = true ∧ o = ⟨.leaf at_.name at_.rest, []⟩) := by
  unfold create at h
  by_cases h1 : at_.name = gridSum
  · rw [if_pos h1] at h
    exact .inl ⟨h1, (Option.some.inj h).symm⟩
  · rw [if_neg h1] at h
    by_cases h2 : at_.name = multistate ∨ at_.name = dMultistate
    · rw [if_pos h2] at h
      by_cases h3 : W.states at_.rest > maxStates
      · rw [if_pos h3] at h; exact absurd h (by simp)
      · rw [if_neg h3] at h
        unfold maxStates at h3
        exact .inr (.inl ⟨h2, by omega, (Option.some.inj h).symm⟩)
    · rw [if_neg h2] at h
      have hk : needsKids at_ = false := by
        unfold needsKids
        rw [decide_eq_false_iff_not]
        rintro (h | h | h)
        · exact h1 h
        · exact h2 (.inl h)
        · exact h2 (.inr h)
      cases hl : W.load at_.name with
      | none => rw [hl] at h; exact absurd h (by simp)
      | some k =>
        rw [hl] at h
        dsimp only at h
        by_cases hi : W.initOk at_.name at_.rest = true
        · rw [if_pos hi] at h
          cases k with
          | list => exact .inr (.inr (.inl ⟨hk, rfl, hi, (Option.some.inj h).symm⟩))
          | grid => exact .inr (.inr (.inr ⟨hk, .inl rfl, hi, (Option.some.inj h).symm⟩))
          | plain => exact .inr (.inr (.inr ⟨hk, .inr rfl, hi, (Option.some.inj h).symm⟩))
        · rw [if_neg hi] at h; exact absurd h (by simp)

theorem gs_ne_ms : gridSum ≠ multistate := by decide
theorem gs_ne_dms : gridSum ≠ dMultistate := by decide
theorem ms_ne_dms : multistate ≠ dMultistate := by decide

theorem create_grid {W : World} {at_ : Attrs} (h : at_.name = gridSum) : create W at_ = some ⟨.gridsum 0, []⟩ := by
  unfold create
  rw [if_pos h]

theorem create_matrix {W : World} {at_ : Attrs} (d : Bool) (h : at_.name = if d then dMultistate else multistate)
    (hs : W.states at_.rest ≤ 64) :
    create W at_ = some ⟨.matrix d (boolOf at_.unity true) (W.states at_.rest), []⟩ := by
  have h1 : at_.name ≠ gridSum := by
    rw [h]
    cases d
    · exact fun e => gs_ne_ms e.symm
    · exact fun e => gs_ne_dms e.symm
  have h2 : at_.name = multistate ∨ at_.name = dMultistate := by
    rw [h]; cases d
    · exact .inl rfl
    · exact .inr rfl
  have h3 : decide (at_.name = dMultistate) = d := by
    rw [h]; cases d
    · exact decide_eq_false ms_ne_dms
    · exact decide_eq_true rfl
  unfold create
  rw [if_neg h1, if_pos h2, if_neg (by unfold maxStates; omega), h3]

theorem create_module {W : World} {at_ : Attrs} (h : needsKids at_ = false) (k : Kind) (hl : W.load at_.name = some k)
    (hi : W.initOk at_.name at_.rest = true) :
    create W at_ = some ⟨if k = .list then .list at_.name at_.rest else .leaf at_.name at_.rest, []⟩ := by
  unfold needsKids at h
  rw [decide_eq_false_iff_not] at h
  unfold create
  rw [if_neg (fun e => h (.inl e)), if_neg (fun e => h (.inr e)), hl]
  dsimp only
  rw [if_pos hi]
  cases k <;> rfl

theorem zip_fst {ps : List Place} {as : List Nat} (h : ps.length = as.length) : (List.zip ps as).map Prod.fst = ps := by
  rw [List.map_fst_zip]; omega

theorem zip_snd {ps : List Place} {as : List Nat} (h : ps.length = as.length) : (List.zip ps as).map Prod.snd = as := by
  rw [List.map_snd_zip]; omega

theorem forall₂_places {tags : List Str} {ps : List (Nat × Nat)} (h : List.Forall₂ TagIs tags ps) :
    List.Forall₂ (fun tag p => ∃ r c, TagIs tag (r, c) ∧ p = Place.elem r c) tags (ps.map fun p => Place.elem p.1 p.2) := by
  induction h with
  | nil => exact .nil
  | cons h _ ih => exact .cons ⟨_, _, h, rfl⟩ ih

/-- The names of the elements of a matrix. -/
def TagsGood (at_ : Attrs) (tags : List Str) : Prop :=
  at_.name = multistate ∨ at_.name = dMultistate →
    ∃ ps : List (Nat × Nat), List.Forall₂ TagIs tags ps ∧ ∀ p ∈ ps, p.1 ≤ intMax ∧ p.2 ≤ intMax

theorem makes_of_addAll {W : World} {at_ : Attrs} {text : Bool} {tags : List Str} {as : List Nat} {shs : List Shape}
    {o0 o : Obj} (hc : create W at_ = some o0) (hp : hasParts o0.shape = true) (h1 : tags.length = shs.length)
    (h2 : as.length = shs.length) (ht : TagsGood at_ tags) (hn : needsKids at_ = true → tags ≠ [])
    (hx : text = true → tags ≠ []) (h : addAll W o0 tags as shs = some o) :
    Makes W at_ text tags shs o.shape ∧ PlacesOk o.shape tags (o.parts.map Prod.fst) ∧ o.parts.map Prod.snd = as := by
  have hne : tags ≠ [] → shs ≠ [] := by
    intro e1 e2
    rw [e2] at h1
    exact e1 (List.length_eq_zero_iff.mp h1)
  rcases create_cases hc with ⟨e1, rfl⟩ | ⟨e1, e2, rfl⟩ | ⟨e1, e2, e3, rfl⟩ | ⟨e1, e2, e3, rfl⟩
  · obtain ⟨a1, a2, n, a3, rfl⟩ := (addAll_grid W shs tags as 0 [] o h1 h2 (by simp)).mp h
    have hk : needsKids at_ = true := by unfold needsKids; rw [decide_eq_true_iff]; exact .inl e1
    unfold SizesFrom at a3
    rw [if_pos rfl] at a3
    rw [sizeOf_eq] at a3
    refine ⟨⟨e1, hne (hn hk), by simpa using a1, (gridParts_iff W shs).mp a2, a3⟩, ?_, ?_⟩
    · show List.map Prod.fst ([] ++ as.map fun a => (Place.next, a)) = tags.map fun _ => Place.next
      rw [List.nil_append, List.map_map]
      have : (Prod.fst ∘ fun a : Nat => (Place.next, a)) = fun _ => Place.next := rfl
      rw [this, List.map_const', List.map_const', h1, h2]
    · simp only [List.nil_append, List.map_map]
      exact List.map_id as
  · obtain ⟨ps, b1, b2⟩ := ht e1
    obtain ⟨a1, -, a3, n, a4, rfl⟩ := (addAll_matrix W _ _ shs tags as _ ps [] o h1 h2 b1 b2).mp h
    have hk : needsKids at_ = true := by unfold needsKids; rw [decide_eq_true_iff]; exact .inr e1
    have hl := b1.length_eq
    have hl2 : (ps.map fun p => Place.elem p.1 p.2).length = as.length := by rw [List.length_map]; omega
    refine ⟨⟨?_, hne (hn hk), (boolOf_iff _ _).mp rfl, e2, ps, b1, a1, a3, a4⟩, ?_, ?_⟩
    · rcases e1 with e1 | e1
      · rw [e1, decide_eq_false ms_ne_dms]; rfl
      · rw [e1, decide_eq_true rfl]; rfl
    · show List.Forall₂ _ tags (List.map Prod.fst ([] ++ _))
      rw [List.nil_append, zip_fst hl2]
      exact forall₂_places b1
    · show List.map Prod.snd ([] ++ _) = as
      rw [List.nil_append, zip_snd hl2]
  · obtain ⟨a1, -, a3, rfl⟩ := (addAll_list W _ _ shs tags as [] o h1 h2 (by simp)).mp h
    have hl2 : (tags.map Place.named).length = as.length := by rw [List.length_map]; omega
    refine ⟨⟨rfl, rfl, (needsKids_iff _).mp e1, e2, e3, a1, by simpa using a3, hx⟩, ?_, ?_⟩
    · show List.map Prod.fst ([] ++ _) = tags.map Place.named
      rw [List.nil_append, zip_fst hl2]
    · show List.map Prod.snd ([] ++ _) = as
      rw [List.nil_append, zip_snd hl2]
  · exact absurd hp (by simp [hasParts])

theorem addAll_of_makes {W : World} {at_ : Attrs} {text : Bool} {tags : List Str} {shs : List Shape}
    {sh : Shape} (hm : Makes W at_ text tags shs sh) (hs : ¬ Single W at_) (h1 : tags.length = shs.length) :
    ∃ o0, create W at_ = some o0 ∧ hasParts o0.shape = true ∧ (needsKids at_ = true → tags ≠ []) ∧
      (text = true → tags ≠ []) ∧
      ∀ as : List Nat, as.length = shs.length → ∃ o, addAll W o0 tags as shs = some o ∧ o.shape = sh ∧
        PlacesOk sh tags (o.parts.map Prod.fst) ∧ o.parts.map Prod.snd = as := by
  have hne : shs ≠ [] → tags ≠ [] := by
    intro e1 e2
    rw [e2] at h1
    exact e1 (List.length_eq_zero_iff.mp h1.symm)
  cases sh with
  | gridsum n =>
    obtain ⟨m1, m2, m3, m4, m5⟩ := hm
    refine ⟨⟨.gridsum 0, []⟩, create_grid m1, rfl, fun _ => hne m2, fun _ => hne m2, fun as h2 => ?_⟩
    refine ⟨⟨.gridsum n, as.map fun a => (Place.next, a)⟩, ?_, rfl, ?_, ?_⟩
    · rw [addAll_grid W shs tags as 0 [] _ h1 h2 (by simp)]
      refine ⟨by simpa using m3, (gridParts_iff W shs).mpr m4, n, ?_, by simp⟩
      rw [sizeOf_eq]
      unfold SizesFrom
      rw [if_pos rfl]; exact m5
    · show List.map Prod.fst (as.map fun a => (Place.next, a)) = tags.map fun _ => Place.next
      rw [List.map_map]
      have : (Prod.fst ∘ fun a : Nat => (Place.next, a)) = fun _ => Place.next := rfl
      rw [this, List.map_const', List.map_const', h1, h2]
    · simp only [List.map_map]
      exact List.map_id as
  | matrix d u n =>
    obtain ⟨m1, m2, m3, m4, ps, m5, m6, m7, m8⟩ := hm
    refine ⟨_, create_matrix d m1 m4, rfl, fun _ => hne m2, fun _ => hne m2, fun as h2 => ?_⟩
    have hl := m5.length_eq
    have hl2 : (ps.map fun p => Place.elem p.1 p.2).length = as.length := by rw [List.length_map]; omega
    refine ⟨⟨.matrix d u n, List.zip (ps.map fun p => Place.elem p.1 p.2) as⟩, ?_, rfl, ?_, ?_⟩
    · rw [addAll_matrix W d _ shs tags as _ ps [] _ h1 h2 m5 (fun p hp => by have := m7 p hp; unfold intMax; omega)]
      exact ⟨m6, by simp, m7, n, m8, by rw [(boolOf_iff _ _).mpr m3]; simp⟩
    · show List.Forall₂ _ tags (List.map Prod.fst _)
      rw [zip_fst hl2]
      exact forall₂_places m5
    · exact zip_snd hl2
  | list name rest =>
    obtain ⟨rfl, rfl, m3, m4, m5, m6, m7, m8⟩ := hm
    replace m3 := (needsKids_iff at_).mpr m3
    refine ⟨_, create_module m3 .list m4 m5, rfl, (by rw [m3]; simp), m8, fun as h2 => ?_⟩
    have hl2 : (tags.map Place.named).length = as.length := by rw [List.length_map]; omega
    refine ⟨⟨.list at_.name at_.rest, List.zip (tags.map Place.named) as⟩, ?_, rfl, ?_, ?_⟩
    · rw [if_pos rfl, addAll_list W _ _ shs tags as [] _ h1 h2 (by simp)]
      exact ⟨m6, by simp, by simpa using m7, by simp⟩
    · exact zip_fst hl2
    · exact zip_snd hl2
  | leaf name rest =>
    obtain ⟨rfl, rfl, m3, m4, -⟩ := hm
    exact absurd ⟨m3, m4⟩ hs

/-! ### Registration -/

theorem not_plain_anon (name : Str) (n : Nat) : ¬ Plain (Registry.anonKey name n) := by
  intro h
  apply h
  unfold Registry.anonKey
  exact ⟨name ++ ['#'] ++ FileSeq.showNat n, by simp⟩

theorem register_ok {s : State} {E E' : Env} {key : Str} {t : Tree} (label : Option Str) (o : Obj) (hr : Represents s E)
    (hk : Plain key) (hE : Known E key t E') (hd : Denotes (s.heap ++ [o]) t s.heap.length) :
    ∃ s', register s key label o = .ok s' s.heap.length ∧ Represents s' E' ∧ s'.heap = s.heap ++ [o] := by
  have hnone : s.store key = none := by
    unfold Known at hE
    by_cases h : key = []
    · rw [h]; exact hr.1
    · rw [if_neg h] at hE
      exact (hr.2 key hk).1 hE.1
  have hp : s.heap <+: s.heap ++ [o] := List.prefix_append _ _
  unfold register
  rw [if_neg (by rw [hnone]; simp)]
  refine ⟨_, rfl, ⟨?_, ?_⟩, rfl⟩
  · show (if [] = keyFor s key o.shape then _ else s.store []) = none
    rw [if_neg]
    · exact hr.1
    · unfold keyFor
      split
      · unfold Registry.anonKey; simp
      · rename_i h; exact fun e => h e.symm
  · intro k hkp
    unfold Known at hE
    by_cases h : key = []
    · rw [if_pos h] at hE
      subst hE
      have hne : k ≠ keyFor s key o.shape := by
        unfold keyFor
        rw [if_pos h]
        rintro rfl
        exact not_plain_anon _ _ hkp
      constructor
      · intro e
        show (if k = keyFor s key o.shape then _ else s.store k) = none
        rw [if_neg hne]; exact (hr.2 k hkp).1 e
      · intro t' e
        obtain ⟨x, e1, e2⟩ := (hr.2 k hkp).2 t' e
        refine ⟨x, ?_, denotes_mono hp t' x.1 e2⟩
        show (if k = keyFor s key o.shape then _ else s.store k) = some x
        rw [if_neg hne]; exact e1
    · rw [if_neg h] at hE
      obtain ⟨h0, rfl⟩ := hE
      have hkey : keyFor s key o.shape = key := by unfold keyFor; rw [if_neg h]
      by_cases hkk : k = key
      · subst hkk
        constructor
        · intro e; dsimp only at e; rw [if_pos rfl] at e; exact absurd e (by simp)
        · intro t' e
          dsimp only at e
          rw [if_pos rfl] at e
          have := Option.some.inj e
          subst this
          refine ⟨entryFor s k label, ?_, hd⟩
          show (if k = keyFor s k o.shape then some (entryFor s (keyFor s k o.shape) label) else s.store k) = _
          rw [hkey, if_pos rfl]
      · constructor
        · intro e
          dsimp only at e
          rw [if_neg hkk] at e
          show (if k = keyFor s key o.shape then _ else s.store k) = none
          rw [hkey, if_neg hkk]; exact (hr.2 k hkp).1 e
        · intro t' e
          dsimp only at e
          rw [if_neg hkk] at e
          obtain ⟨x, e1, e2⟩ := (hr.2 k hkp).2 t' e
          refine ⟨x, ?_, denotes_mono hp t' x.1 e2⟩
          show (if k = keyFor s key o.shape then _ else s.store k) = some x
          rw [hkey, if_neg hkk]; exact e1

theorem register_known {s s' : State} {E : Env} {key : Str} {label : Option Str} {o : Obj} {a : Nat} (t : Tree)
    (hr : Represents s E) (hk : Plain key) (h : register s key label o = .ok s' a) : ∃ E', Known E key t E' := by
  unfold register at h
  by_cases hs : (s.store key).isSome = true
  · rw [if_pos hs] at h; exact absurd h (by simp)
  · unfold Known
    by_cases hn : key = []
    · exact ⟨E, by rw [if_pos hn]⟩
    · refine ⟨fun k => if k = key then some t else E k, ?_⟩
      rw [if_neg hn]
      refine ⟨?_, rfl⟩
      cases hE : E key with
      | none => rfl
      | some t' =>
        obtain ⟨x, e1, -⟩ := (hr.2 key hk).2 t' hE
        rw [e1] at hs
        exact absurd rfl hs

theorem meansAll_length {W : World} : ∀ (ks : List Node) (E : Env) (ts : List Tree) (E' : Env),
    MeansAll W ks E ts E' → ts.length = ks.length := by
  intro ks
  induction ks with
  | nil => intro E ts E' h; rw [MeansAll] at h; rw [h.1]; rfl
  | cons k ks ih =>
    intro E ts E' h
    rw [MeansAll] at h
    obtain ⟨t, E1, ts1, -, h2, rfl⟩ := h
    simp [ih _ _ _ h2]

theorem tagsGood_of_regular {at_ : Attrs} {kids : List Node}
    (h : at_.name = "Multistate".toList ∨ at_.name = "DMultistate".toList →
        ∀ k ∈ kids, ∃ p : Nat × Nat, p.1 ≤ 2147483647 ∧ p.2 ≤ 2147483647 ∧ TagIs k.tag p) :
    TagsGood at_ (kids.map Node.tag) := by
  intro hn
  have h' := h hn
  clear h hn
  induction kids with
  | nil => exact ⟨[], .nil, by simp⟩
  | cons k ks ih =>
    obtain ⟨ps, h1, h2⟩ := ih (fun x hx => h' x (by simp [hx]))
    obtain ⟨p, p1, p2, p3⟩ := h' k (by simp)
    refine ⟨p :: ps, .cons p3 h1, ?_⟩
    intro q hq
    rw [List.mem_cons] at hq
    rcases hq with rfl | hq
    · exact ⟨p1, p2⟩
    · exact h2 q hq

theorem bind_ok {A B : Type} {x : Res A} {f : State → A → Res B} {s : State} {b : B} (h : x.bind f = .ok s b) :
    ∃ s1 a, x = .ok s1 a ∧ f s1 a = .ok s b := by
  cases x with
  | ok s1 a => exact ⟨s1, a, rfl, h⟩
  | threw s1 => exact absurd h (by simp [Res.bind])
  | text s1 => exact absurd h (by simp [Res.bind])
  | ub => exact absurd h (by simp [Res.bind])

theorem res_ok {x : Added} {s s' : State} {o : Obj} (h : x.res s = .ok s' o) : x = .ok o ∧ s' = s := by
  cases x with
  | ok o' =>
    simp only [Added.res, Res.ok.injEq] at h
    exact ⟨by rw [h.2], h.1.symm⟩
  | threw => exact absurd h (by simp [Added.res])
  | text => exact absurd h (by simp [Added.res])
  | ub => exact absurd h (by simp [Added.res])

theorem not_single {W : World} {at_ : Attrs} {o : Obj} (h : create W at_ = some o) :
    hasParts o.shape = true ↔ ¬ Single W at_ := by
  rcases create_cases h with ⟨e1, rfl⟩ | ⟨e1, -, rfl⟩ | ⟨e1, e2, -, rfl⟩ | ⟨e1, e2, -, rfl⟩
  · have hk : needsKids at_ = true := by unfold needsKids; rw [decide_eq_true_iff]; exact .inl e1
    refine ⟨fun _ hs => ?_, fun _ => rfl⟩
    have hs1 := (needsKids_iff at_).mpr hs.1
    rw [hk] at hs1
    exact absurd hs1 (by simp)
  · have hk : needsKids at_ = true := by unfold needsKids; rw [decide_eq_true_iff]; exact .inr e1
    refine ⟨fun _ hs => ?_, fun _ => rfl⟩
    have hs1 := (needsKids_iff at_).mpr hs.1
    rw [hk] at hs1
    exact absurd hs1 (by simp)
  · refine ⟨fun _ hs => ?_, fun _ => rfl⟩
    obtain ⟨-, hs⟩ := hs
    rw [e2] at hs
    rcases hs with hs | hs <;> exact absurd hs (by simp)
  · refine ⟨fun hp => absurd hp (by simp [hasParts]), fun hs => absurd ⟨(needsKids_iff at_).mp e1, e2⟩ hs⟩

/-! ### Soundness -/

mutual
theorem load_sound {W : World} : ∀ (n : Node) (s s' : State) (a : Nat) (E : Env), Regular n → Represents s E →
    load W n s = .ok s' a → ∃ t E', Means W n E t E' ∧ Denotes s'.heap t a ∧ Represents s' E' ∧ s.heap <+: s'.heap
  | .mk tag at_ text kids, s, s', a, E, hreg, hrep, h => by
    rw [Regular] at hreg
    obtain ⟨g1, g2, g3, g4⟩ := hreg
    rw [load] at h
    cases hr : at_.ref with
    | some r =>
      rw [hr] at h
      dsimp only at h
      cases hE : E r with
      | none => rw [(hrep.2 r (g2 r hr)).1 hE] at h; exact absurd h (by simp)
      | some t =>
        obtain ⟨e, e1, e2⟩ := (hrep.2 r (g2 r hr)).2 t hE
        rw [e1] at h
        simp only [Res.ok.injEq] at h
        obtain ⟨rfl, rfl⟩ := h
        refine ⟨t, E, ?_, e2, hrep, List.prefix_refl _⟩
        rw [Means, hr]
        exact ⟨hE, rfl⟩
    | none =>
      rw [hr] at h
      dsimp only at h
      by_cases hk : (needsKids at_ && kids.isEmpty) = true
      · rw [if_pos hk] at h; exact absurd h (by simp)
      · rw [if_neg hk] at h
        cases hc : create W at_ with
        | none => rw [hc] at h; exact absurd h (by simp)
        | some o =>
          rw [hc] at h
          dsimp only at h
          by_cases hp : hasParts o.shape = true
          · rw [if_pos hp] at h
            by_cases ht : (kids.isEmpty && text) = true
            · rw [if_pos ht] at h; exact absurd h (by simp)
            · rw [if_neg ht] at h
              obtain ⟨s1, o', h1, h2⟩ := bind_ok h
              obtain ⟨ts, as, E1, a1, a2, a3, a4, a5⟩ := loadKids_sound kids s s1 o o' E g4 hrep h1
              have l1 := meansAll_length _ _ _ _ a1
              have l2 := denotesAll_length a4
              have hn : needsKids at_ = true → kids.map Node.tag ≠ [] := by
                intro e1 e2
                rw [List.map_eq_nil_iff] at e2
                rw [e1, e2] at hk; exact hk rfl
              have hx : text = true → kids.map Node.tag ≠ [] := by
                intro e1 e2
                rw [List.map_eq_nil_iff] at e2
                rw [e1, e2] at ht; exact ht rfl
              obtain ⟨m1, m2, m3⟩ := makes_of_addAll hc hp (by simp; omega) (by simp; omega) (tagsGood_of_regular g3) hn hx a5
              obtain ⟨E', hE'⟩ := register_known (.mk o'.shape (kids.map Node.tag) ts) a2 g1 h2
              have hd : Denotes (s1.heap ++ [o']) (.mk o'.shape (kids.map Node.tag) ts) s1.heap.length := by
                rw [Denotes]
                refine ⟨o', by simp, rfl, m2, ?_⟩
                rw [m3]
                exact denotesAll_mono (List.prefix_append _ _) _ _ a4
              obtain ⟨s2, r1, r2, r3⟩ := register_ok at_.label o' a2 g1 hE' hd
              rw [r1] at h2
              simp only [Res.ok.injEq] at h2
              obtain ⟨rfl, rfl⟩ := h2
              refine ⟨_, E', ?_, by rw [r3]; exact hd, r2, ?_⟩
              · rw [Means, hr]
                exact ⟨_, ts, _, E1, m1, rfl, hE', .inr ⟨(not_single hc).mp hp, rfl, a1⟩⟩
              · rw [r3]; exact a3.trans (List.prefix_append _ _)
          · rw [if_neg hp] at h
            have hs : Single W at_ := by
              by_contra hs
              exact hp ((not_single hc).mpr hs)
            rcases create_cases hc with ⟨e1, rfl⟩ | ⟨e1, -, rfl⟩ | ⟨e1, e2, -, rfl⟩ | ⟨e1, e2, e3, rfl⟩
            · exact absurd rfl hp
            · exact absurd rfl hp
            · exact absurd rfl hp
            obtain ⟨E', hE'⟩ := register_known (.mk (.leaf at_.name at_.rest) [] []) hrep g1 h
            have hd : Denotes (s.heap ++ [⟨.leaf at_.name at_.rest, []⟩]) (.mk (.leaf at_.name at_.rest) [] []) s.heap.length := by
              rw [Denotes]
              exact ⟨⟨.leaf at_.name at_.rest, []⟩, by simp, rfl, ⟨rfl, rfl⟩, by rw [DenotesAll]; rfl⟩
            obtain ⟨s2, r1, r2, r3⟩ := register_ok at_.label ⟨.leaf at_.name at_.rest, []⟩ hrep g1 hE' hd
            rw [r1] at h
            simp only [Res.ok.injEq] at h
            obtain ⟨rfl, rfl⟩ := h
            refine ⟨_, E', ?_, by rw [r3]; exact hd, r2, ?_⟩
            · rw [Means, hr]
              exact ⟨.leaf at_.name at_.rest, [], [], E, ⟨rfl, rfl, (needsKids_iff at_).mp e1, e2, e3, rfl, rfl⟩, rfl, hE', .inl ⟨hs, rfl, rfl, rfl⟩⟩
            · rw [r3]; exact List.prefix_append _ _
theorem loadKids_sound {W : World} : ∀ (ks : List Node) (s s' : State) (o o' : Obj) (E : Env), RegularAll ks →
    Represents s E → loadKids W ks s o = .ok s' o' → ∃ ts as E', MeansAll W ks E ts E' ∧ Represents s' E' ∧
      s.heap <+: s'.heap ∧ DenotesAll s'.heap ts as ∧ addAll W o (ks.map Node.tag) as (ts.map Tree.shape) = some o'
  | [], s, s', o, o', E, hreg, hrep, h => by
    rw [loadKids] at h
    simp only [Res.ok.injEq] at h
    obtain ⟨rfl, rfl⟩ := h
    refine ⟨[], [], E, ?_, hrep, List.prefix_refl _, ?_, rfl⟩
    · rw [MeansAll]; exact ⟨rfl, rfl⟩
    · rw [DenotesAll]
  | k :: ks, s, s', o, o', E, hreg, hrep, h => by
    rw [RegularAll] at hreg
    rw [loadKids] at h
    by_cases ht : tagReady o k.tag = true
    · rw [if_pos ht] at h
      obtain ⟨s1, a, h1, h2⟩ := bind_ok h
      obtain ⟨s2, o2, h3, h4⟩ := bind_ok h2
      obtain ⟨h5, rfl⟩ := res_ok h3
      obtain ⟨t, E1, b1, b2, b3, b4⟩ := load_sound k s s2 a E hreg.1 hrep h1
      obtain ⟨ts, as, E', c1, c2, c3, c4, c5⟩ := loadKids_sound ks s2 s' o2 o' E1 hreg.2 b3 h4
      refine ⟨t :: ts, a :: as, E', ?_, c2, b4.trans c3, ?_, ?_⟩
      · rw [MeansAll]; exact ⟨t, E1, ts, b1, c1, rfl⟩
      · rw [DenotesAll]; exact ⟨a, as, rfl, denotes_mono c3 t a b2, c4⟩
      · rw [List.map_cons, List.map_cons, addAll, if_pos ht, ← shapeAt_of_denotes b2, h5]
        exact c5
    · rw [if_neg ht] at h; exact absurd h (by simp)
end

/-! ### Completeness -/

mutual
theorem load_complete {W : World} : ∀ (n : Node) (s : State) (E E' : Env) (t : Tree), Regular n → Represents s E →
    Means W n E t E' → ∃ s' a, load W n s = .ok s' a ∧ Denotes s'.heap t a ∧ Represents s' E' ∧ s.heap <+: s'.heap
  | .mk tag at_ text kids, s, E, E', t, hreg, hrep, h => by
    rw [Regular] at hreg
    obtain ⟨g1, g2, g3, g4⟩ := hreg
    rw [Means] at h
    rw [load]
    cases hr : at_.ref with
    | some r =>
      rw [hr] at h
      dsimp only at h
      obtain ⟨e, e1, e2⟩ := (hrep.2 r (g2 r hr)).2 t h.1
      rw [h.2]
      refine ⟨s, e.1, ?_, e2, hrep, List.prefix_refl _⟩
      dsimp only
      rw [e1]
    | none =>
      rw [hr] at h
      dsimp only at h
      obtain ⟨sh, ts, tags, E1, h1, rfl, h3, h4⟩ := h
      dsimp only
      rcases h4 with ⟨h4, rfl, rfl, rfl⟩ | ⟨h4, rfl, h5⟩
      · cases sh with
        | leaf name rest =>
          obtain ⟨rfl, rfl, m3, m4, m5, -⟩ := h1
          replace m3 := (needsKids_iff at_).mpr m3
          have hc : create W at_ = some ⟨.leaf at_.name at_.rest, []⟩ := by
            rcases m4 with m4 | m4
            · exact create_module m3 .grid m4 m5
            · exact create_module m3 .plain m4 m5
          rw [m3, if_neg (by simp), hc]
          dsimp only
          rw [if_neg (show ¬ hasParts (Shape.leaf at_.name at_.rest) = true by simp [hasParts])]
          have hd : Denotes (s.heap ++ [⟨.leaf at_.name at_.rest, []⟩]) (.mk (.leaf at_.name at_.rest) [] []) s.heap.length := by
            rw [Denotes]
            exact ⟨⟨.leaf at_.name at_.rest, []⟩, by simp, rfl, ⟨rfl, rfl⟩, by rw [DenotesAll]; rfl⟩
          obtain ⟨s2, r1, r2, r3⟩ := register_ok at_.label ⟨.leaf at_.name at_.rest, []⟩ hrep g1 h3 hd
          exact ⟨s2, _, r1, by rw [r3]; exact hd, r2, by rw [r3]; exact List.prefix_append _ _⟩
        | list name rest =>
          obtain ⟨rfl, -, m3, m4, -⟩ := h1
          rcases h4.2 with e | e <;> rw [e] at m4 <;> exact absurd m4 (by simp)
        | gridsum n =>
          exact absurd rfl h1.2.1
        | matrix d u n =>
          exact absurd rfl h1.2.1
      · have l1 := meansAll_length _ _ _ _ h5
        obtain ⟨o0, c1, c2, c3, c4, c5⟩ := addAll_of_makes h1 h4 (by simp; omega)
        have hk : ¬ (needsKids at_ && kids.isEmpty) = true := by
          intro e
          rw [Bool.and_eq_true, List.isEmpty_iff] at e
          exact c3 e.1 (by rw [e.2]; rfl)
        have ht : ¬ (kids.isEmpty && text) = true := by
          intro e
          rw [Bool.and_eq_true, List.isEmpty_iff] at e
          exact c4 e.2 (by rw [e.1]; rfl)
        rw [if_neg hk, c1]
        dsimp only
        rw [if_pos c2, if_neg ht]
        obtain ⟨s1, as, o', k1, k2, k3, k4, k5⟩ := loadKids_complete kids s o0 E E1 ts g4 hrep h5
          (fun as hl => by
            obtain ⟨o, e, -⟩ := c5 as (by simpa using hl)
            exact ⟨o, e⟩)
        have l2 := denotesAll_length k4
        obtain ⟨o'', d1, d2, d3, d4⟩ := c5 as (by simp; omega)
        rw [k5] at d1
        obtain rfl := Option.some.inj d1
        rw [k1]
        have hd : Denotes (s1.heap ++ [o']) (.mk sh (kids.map Node.tag) ts) s1.heap.length := by
          rw [Denotes]
          refine ⟨o', by simp, d2, d3, ?_⟩
          rw [d4]
          exact denotesAll_mono (List.prefix_append _ _) _ _ k4
        obtain ⟨s2, r1, r2, r3⟩ := register_ok at_.label o' k2 g1 h3 hd
        exact ⟨s2, _, r1, by rw [r3]; exact hd, r2, by rw [r3]; exact k3.trans (List.prefix_append _ _)⟩
theorem loadKids_complete {W : World} : ∀ (ks : List Node) (s : State) (o : Obj) (E E' : Env) (ts : List Tree),
    RegularAll ks → Represents s E → MeansAll W ks E ts E' →
    (∀ as : List Nat, as.length = ts.length → ∃ o', addAll W o (ks.map Node.tag) as (ts.map Tree.shape) = some o') →
    ∃ s' as o', loadKids W ks s o = .ok s' o' ∧ Represents s' E' ∧ s.heap <+: s'.heap ∧ DenotesAll s'.heap ts as ∧
      addAll W o (ks.map Node.tag) as (ts.map Tree.shape) = some o'
  | [], s, o, E, E', ts, hreg, hrep, h, ha => by
    rw [MeansAll] at h
    obtain ⟨rfl, rfl⟩ := h
    refine ⟨s, [], o, ?_, hrep, List.prefix_refl _, ?_, rfl⟩
    · rw [loadKids]
    · rw [DenotesAll]
  | k :: ks, s, o, E, E', ts, hreg, hrep, h, ha => by
    rw [RegularAll] at hreg
    rw [MeansAll] at h
    obtain ⟨t, E1, ts1, h1, h2, rfl⟩ := h
    obtain ⟨s1, a, b1, b2, b3, b4⟩ := load_complete k s E E1 t hreg.1 hrep h1
    have hready : tagReady o k.tag = true := by
      obtain ⟨o', e⟩ := ha (a :: List.replicate ts1.length 0) (by simp)
      rw [List.map_cons, List.map_cons, addAll] at e
      by_contra hn
      rw [if_neg hn] at e; exact absurd e (by simp)
    have hadd : ∃ o2, addPart W o k.tag a t.shape = .ok o2 := by
      obtain ⟨o', e⟩ := ha (a :: List.replicate ts1.length 0) (by simp)
      rw [List.map_cons, List.map_cons, addAll, if_pos hready] at e
      cases hx : addPart W o k.tag a t.shape with
      | ok o2 => exact ⟨o2, rfl⟩
      | threw => rw [hx] at e; exact absurd e (by simp)
      | text => rw [hx] at e; exact absurd e (by simp)
      | ub => rw [hx] at e; exact absurd e (by simp)
    obtain ⟨o2, ho2⟩ := hadd
    obtain ⟨s2, as, o', c1, c2, c3, c4, c5⟩ := loadKids_complete ks s1 o2 E1 E' ts1 hreg.2 b3 h2 (fun as hl => by
      obtain ⟨o', e⟩ := ha (a :: as) (by simp [hl])
      rw [List.map_cons, List.map_cons, addAll, if_pos hready, ho2] at e
      exact ⟨o', e⟩)
    refine ⟨s2, a :: as, o', ?_, c2, b4.trans c3, ?_, ?_⟩
    · rw [loadKids, if_pos hready, b1]
      show ((addPart W o k.tag a (shapeAt s1 a)).res s1).bind _ = _
      rw [shapeAt_of_denotes b2, ho2]
      exact c1
    · rw [DenotesAll]; exact ⟨a, as, rfl, denotes_mono c3 t a b2, c4⟩
    · rw [List.map_cons, List.map_cons, addAll, if_pos hready, ho2]
      exact c5
end

end QDng.OpChain
