import Verif.OpChain.Graph

/-! # Cases for the properties C255–C260 -/

namespace QDng.OpChain

open QDng Spec

/-- Modules for the cases: a potential on a grid, a list, and a matrix that is not on a grid. -/
def W0 : World where
  load n := if n = "Pot".toList then some .grid else if n = "Sum".toList then some .list
    else if n = "Mat".toList then some .plain else none
  initOk _ r := r ≠ 9
  gsize _ r := r
  gen _ r := r = 7
  states _ := 0

/-- A potential with a key. -/
def pot (tag key : Str) (r : Nat) : Node := .mk tag { name := "Pot".toList, key := key, rest := r } false []

/-- A reference. -/
def refTo (tag key : Str) : Node := .mk tag { ref := some key } false []

/-- A matrix with a potential on the diagonal, the same for both states, and a sum. -/
def twoState : Node := .mk "H".toList { name := "Multistate".toList, key := "H".toList, label := some "x".toList } true
  [pot "m0.0".toList "V".toList 5, refTo "m1.1".toList "V".toList,
   .mk "m1.0".toList { name := "Sum".toList } false [pot "a".toList [] 5, refTo "b".toList "V".toList]]

/-- What is in memory behind the case. -/
def twoStateHeap : List Obj :=
  [⟨.leaf "Pot".toList 5, []⟩, ⟨.leaf "Pot".toList 5, []⟩,
   ⟨.list "Sum".toList 0, [(.named "a".toList, 1), (.named "b".toList, 0)]⟩,
   ⟨.matrix false true 2, [(.elem 0 0, 0), (.elem 1 1, 0), (.elem 1 0, 2)]⟩]

/-- The result and the operators. -/
def heapOf {A : Type} : Res A → Option (List Obj × A)
  | .ok s a => some (s.heap, a)
  | _ => none

theorem twoState_loads : heapOf (load W0 twoState .start) = some (twoStateHeap, 3) := by
  decide +kernel

theorem show0 : FileSeq.showNat 0 = ['0'] := by rw [FileSeq.showNat]; decide
theorem show1 : FileSeq.showNat 1 = ['1'] := by rw [FileSeq.showNat]; decide

theorem twoState_regular : Regular twoState := by
  have pl : ∀ c r, c ≠ '_' → Plain (c :: r) := by
    rintro c r hc ⟨x, hx⟩
    exact hc (List.cons.inj hx).1.symm
  have pn : Plain [] := by rintro ⟨x, hx⟩; exact absurd hx (by simp)
  have hx : ∀ n : Str, n ≠ "Multistate".toList → n ≠ "DMultistate".toList →
      ¬ (n = "Multistate".toList ∨ n = "DMultistate".toList) := by
    rintro n h1 h2 (h | h)
    · exact h1 h
    · exact h2 h
  unfold twoState pot refTo
  rw [Regular]
  refine ⟨pl _ _ (by decide), fun r h => absurd h (by simp), fun _ => ?_, ?_⟩
  · intro k hk
    simp only [List.mem_cons, List.not_mem_nil, or_false] at hk
    rcases hk with rfl | rfl | rfl
    · exact ⟨(0, 0), by decide, by decide, 'm', by decide, by rw [show0]; rfl⟩
    · exact ⟨(1, 1), by decide, by decide, 'm', by decide, by rw [show1]; rfl⟩
    · exact ⟨(1, 0), by decide, by decide, 'm', by decide, by rw [show0, show1]; rfl⟩
  · rw [RegularAll, RegularAll, RegularAll, RegularAll, Regular, Regular, Regular, RegularAll, RegularAll, RegularAll,
      Regular, Regular, RegularAll]
    refine ⟨⟨pl _ _ (by decide), fun r h => absurd h (by simp), fun h => absurd h (hx _ (by decide) (by decide)), trivial⟩,
      ⟨pn, fun r h => ?_, fun h => absurd h (hx _ (by decide) (by decide)), trivial⟩,
      ⟨pn, fun r h => absurd h (by simp), fun h => absurd h (hx _ (by decide) (by decide)),
        ⟨pn, fun r h => absurd h (by simp), fun h => absurd h (hx _ (by decide) (by decide)), trivial⟩,
        ⟨pn, fun r h => ?_, fun h => absurd h (hx _ (by decide) (by decide)), trivial⟩, trivial⟩, trivial⟩
    · obtain rfl := Option.some.inj h; exact pl _ _ (by decide)
    · obtain rfl := Option.some.inj h; exact pl _ _ (by decide)

theorem twoState_ok : ∃ s, load W0 twoState .start = .ok s 3 ∧ s.heap = twoStateHeap := by
  have h := twoState_loads
  unfold heapOf at h
  split at h
  · rename_i s a heq
    have h' := Option.some.inj h
    have h1 : s.heap = twoStateHeap := congrArg Prod.fst h'
    have h2 : a = 3 := congrArg Prod.snd h'
    subst h2
    exact ⟨s, heq, h1⟩
  · exact absurd h (by simp)

/-- C255: the case meets the hypotheses, so it has a meaning. -/
example : ∃ t E', Means W0 twoState (fun _ => none) t E' ∧ Denotes twoStateHeap t 3 := by
  obtain ⟨s, h1, h2⟩ := twoState_ok
  obtain ⟨t, E', a1, a2, -⟩ := C255_sound_partial W0 twoState .start s 3 _ twoState_regular represents_start h1
  rw [h2] at a2
  exact ⟨t, E', a1, a2⟩

/-- C255: loading the meaning of the case. -/
example : ∃ t E', Means W0 twoState (fun _ => none) t E' ∧ ∃ s' a, load W0 twoState .start = .ok s' a ∧ Denotes s'.heap t a := by
  obtain ⟨s, h1, -⟩ := twoState_ok
  obtain ⟨t, E', a1, -, -⟩ := C255_sound_partial W0 twoState .start s 3 _ twoState_regular represents_start h1
  obtain ⟨s', a, b1, b2, -⟩ := C255_complete_partial W0 twoState .start t _ E' twoState_regular represents_start a1
  exact ⟨t, E', a1, s', a, b1, b2⟩

/-- C255: a key like a generated one. -/
example : ∃ s1 a s2 b, load W0 (.mk [] { name := "Mat".toList, key := Registry.anonKey "Mat".toList 0 } false []) .start =
      .ok s1 a ∧ load W0 (.mk [] { name := "Mat".toList, rest := 1 } false []) s1 = .ok s2 b ∧ a ≠ b := by
  obtain ⟨s1, a, s2, b, h1, h2, h3, -⟩ := C255_violated_underscores { W0 with initOk := fun _ _ => true } .start
    "Mat".toList 0 1 (by decide) (by decide) (by decide) (by decide) (by simp) rfl rfl
  refine ⟨s1, a, s2, b, ?_, ?_, h3⟩
  · rw [← h1]; rfl
  · rw [← h2]; rfl

/-- C256: the element of row 12 and column 3. -/
example : readTag "m12.3".toList = some (12, 3) := by decide

/-- C256: the places of the case. -/
example : ∃ ps : List (Nat × Nat), ps = [(0, 0), (1, 1), (1, 0)] ∧
    (twoStateHeap[3]?).map (fun o => o.parts.map Prod.fst) = some (ps.map fun p => Place.elem p.1 p.2) := by
  exact ⟨_, rfl, by decide⟩

/-- C256: names without a point and without a row, negative rows. -/
example : readTag "m2".toList = some (2, 0) ∧ readTag "m.1".toList = none ∧ readTag "m-1.0".toList = some (-1, 0) := by
  decide

/-- C256: matrices with such names. -/
example : load W0 (.mk [] { name := multistate } false [pot "m.1".toList [] 1]) .start = .ub :=
  C256_violated_empty W0 .start _ [] _ false rfl rfl (by decide) rfl

theorem pot_ok (tag : Str) (r : Nat) (hr : r ≠ 9) : load W0 (pot tag [] r) .start =
    .ok (added .start [] none ⟨.leaf "Pot".toList r, []⟩) 0 := by
  unfold pot
  rw [load]
  dsimp only
  have hk : needsKids { name := "Pot".toList, rest := r } = false := by
    show decide ("Pot".toList = gridSum ∨ "Pot".toList = multistate ∨ "Pot".toList = dMultistate) = false
    decide
  rw [hk, if_neg (by decide), create_module hk .grid (show W0.load "Pot".toList = _ by decide) (by simp [W0, hr])]
  exact register_eq (s := .start) (key := []) none _ rfl

example : load W0 (.mk [] { name := multistate } false [pot "m-1.0".toList [] 1]) .start = .ub :=
  C256_violated_negative W0 .start _ 0 _ [] _ false rfl rfl (by decide) rfl (pot_ok _ 1 (by decide))

theorem twoState_reachable : ∃ s, Reachable W0 s ∧ load W0 twoState .start = .ok s 3 ∧ s.heap = twoStateHeap := by
  obtain ⟨s, h1, h2⟩ := twoState_ok
  exact ⟨s, .load twoState .start (by rw [h1]; rfl), h1, h2⟩

/-- C257: the potential of the case is used three times. -/
example : ((twoStateHeap.map fun o => o.parts.map Prod.snd).flatten.filter (· = 0)).length = 3 := by decide

/-- C257: a reference behind the case, and behind a further input that is refused. -/
example : ∃ s, load W0 twoState .start = .ok s 3 ∧ load W0 (refTo [] "H".toList) s = .ok s 3 ∧
    load W0 twoState s = .threw s := by
  obtain ⟨s, h1, -⟩ := twoState_ok
  have h2 : load W0 (refTo [] "H".toList) s = .ok s 3 := C257_reference W0 .start s _ _ _ _ 3 rfl (by decide) h1 _ _ _ _ rfl
  refine ⟨s, h1, h2, ?_⟩
  have hV : heapOf (match load W0 twoState .start with | .ok s _ => load W0 (refTo [] "V".toList) s | x => x) ≠ none := by
    decide +kernel
  rw [h1] at hV
  have hst : ∃ e, s.store "V".toList = some e := by
    cases h : s.store "V".toList with
    | some e => exact ⟨e, rfl⟩
    | none =>
      exfalso
      apply hV
      dsimp only
      unfold refTo
      rw [load]
      dsimp only
      rw [h]
      rfl
  obtain ⟨e, he⟩ := hst
  have hp : load W0 (pot "m0.0".toList "V".toList 5) s = .threw s := by
    unfold pot
    rw [load]
    dsimp only
    rw [if_neg (by decide), create_module (by decide) .grid (by decide) (by decide)]
    dsimp only
    rw [if_neg (by decide)]
    unfold register
    dsimp only
    rw [he]
    rfl
  unfold twoState
  rw [load]
  dsimp only
  rw [if_neg (by decide), create_matrix false (by decide) (by decide)]
  dsimp only
  rw [if_pos (by rfl), if_neg (by decide), loadKids, if_pos (by decide), hp]
  rfl

/-- C257: a list with itself in it. -/
example (s : State) (a : Nat) : load W0 (.mk [] { name := "Sum".toList, key := "S".toList } false
    [refTo "x".toList "S".toList]) .start ≠ .ok s a := by
  have pl : Plain "S".toList := by
    rintro ⟨x, hx⟩
    exact absurd (List.cons.inj hx).1 (by decide)
  have pn : Plain [] := by rintro ⟨x, hx⟩; exact absurd hx (by simp)
  refine C257_self W0 .start _ represents_start _ _ _ _ ?_ rfl (by decide) ?_ _ _ _ _ (by unfold refTo; exact List.mem_singleton.mpr rfl) rfl s a
  · unfold refTo
    rw [Regular, RegularAll, RegularAll, Regular, RegularAll]
    refine ⟨pl, fun r h => absurd h (by simp), ?_, ⟨pn, ?_, ?_, trivial⟩, trivial⟩
    · rintro (h | h) <;> exact absurd h (by decide)
    · intro r h; obtain rfl := Option.some.inj h; exact pl
    · rintro (h | h) <;> exact absurd h (by decide)
  · rintro ⟨-, h | h⟩ <;> exact absurd h (by decide)

/-- C258: an input with all kinds of operators but sums on grids. -/
example : Careful twoState := by
  unfold twoState pot refTo
  rw [Careful, CarefulAll, CarefulAll, CarefulAll, CarefulAll, Careful, Careful, Careful, CarefulAll, CarefulAll,
    CarefulAll, Careful, Careful, CarefulAll]
  have hx : ∀ (n : Str) (P : Prop), n ≠ "Multistate".toList → n ≠ "DMultistate".toList →
      (n = "Multistate".toList ∨ n = "DMultistate".toList) → P := by
    rintro n P h1 h2 (h | h)
    · exact absurd h h1
    · exact absurd h h2
  refine ⟨by decide, fun _ => by simp, fun _ => ⟨by simp, ?_⟩,
    ⟨by decide, fun h => absurd h (by simp), hx _ _ (by decide) (by decide), trivial⟩,
    ⟨by decide, fun h => absurd h (by simp), hx _ _ (by decide) (by decide), trivial⟩,
    ⟨by decide, fun h => absurd h (by simp), hx _ _ (by decide) (by decide),
      ⟨by decide, fun h => absurd h (by simp), hx _ _ (by decide) (by decide), trivial⟩,
      ⟨by decide, fun h => absurd h (by simp), hx _ _ (by decide) (by decide), trivial⟩, trivial⟩, trivial⟩
  intro k hk
  simp only [List.mem_cons, List.not_mem_nil, or_false] at hk
  rcases hk with rfl | rfl | rfl
  · exact ⟨(0, 0), by decide, by decide, 'm', by decide, by rw [show0]; rfl⟩
  · exact ⟨(1, 1), by decide, by decide, 'm', by decide, by rw [show1]; rfl⟩
  · exact ⟨(1, 0), by decide, by decide, 'm', by decide, by rw [show0, show1]; rfl⟩

/-- C258: a sum on a grid with a matrix in it. -/
example : load W0 (.mk [] { name := "GridSum".toList } false [.mk "a".toList { name := "Mat".toList } false []]) .start =
    .text (added .start [] none ⟨.leaf "Mat".toList 0, []⟩) := by
  refine C258_violated_text W0 .start _ 0 _ _ [] false rfl rfl ?_ (fun h => absurd (show some Kind.plain = some Kind.grid from h) (by decide))
  rw [load]
  dsimp only
  rw [if_neg (by decide), create_module (by decide) .plain (by decide) (by decide)]
  exact register_eq (s := .start) (key := []) none _ rfl

/-- C258: nothing in a matrix, white space in a list, a generated field in a sum on a grid. -/
example : load W0 (.mk [] { name := "Multistate".toList } true []) .start = .ub :=
  C258_violated_empty W0 .start _ _ _ rfl (.inr (.inl rfl))

example : load W0 (.mk [] { name := "Sum".toList } true []) .start = .ub :=
  (C258_violated_comment W0 .start { name := "Sum".toList } [] rfl
    (by rintro (h | h | h) <;> exact absurd h (by decide)) (by decide) (by decide) rfl).1

example : load W0 (.mk [] { name := "GridSum".toList } false [pot [] [] 7]) .start = .ub :=
  C258_violated_clock W0 .start _ 0 _ _ [] false rfl rfl (pot_ok _ 7 (by decide))
    (show W0.load "Pot".toList = some .grid by decide) (show W0.gen "Pot".toList 7 = true by decide)

/-- C259: with and without the attribute. -/
example : create W0 { name := "Multistate".toList, unity := some "false".toList } = some ⟨.matrix false false 0, []⟩ :=
  (C259_given_partial W0 { name := "Multistate".toList, unity := some "false".toList } false rfl (by decide) false rfl).1

example : create W0 { name := "Multistate".toList } = some ⟨.matrix false true 0, []⟩ :=
  (C259_violated_default W0 { name := "Multistate".toList } false rfl (by decide) rfl).1

/-- C260: the label of the case. -/
example : ∃ s k, load W0 twoState .start = .ok s 3 ∧ s.store k = some (3, "x".toList) := by
  obtain ⟨s, h1, -⟩ := twoState_ok
  obtain ⟨⟨k, hk⟩, -⟩ := C260_label_partial W0 .start s .start _ _ _ _ 3 "x".toList rfl rfl h1
  exact ⟨s, k, h1, hk⟩

/-- A state with an operator of a user under a key like a generated one. -/
def taken : State where
  heap := [⟨.leaf "Mat".toList 0, []⟩]
  store k := if k = Registry.anonKey "Mat".toList 0 then some (0, "x".toList) else none
  anon := 0

/-- C260: a label that is taken over. -/
example : ∃ s', register taken [] none ⟨.leaf "Mat".toList 1, []⟩ = .ok s' 1 ∧
    s'.store (Registry.anonKey "Mat".toList 0) = some (1, "x".toList) :=
  C260_violated_inherited taken ⟨.leaf "Mat".toList 1, []⟩ 0 "x".toList (if_pos rfl)
    (by
      show (if [] = Registry.anonKey "Mat".toList 0 then some (0, "x".toList) else none) = none
      exact if_neg (by unfold Registry.anonKey; simp))

end QDng.OpChain
