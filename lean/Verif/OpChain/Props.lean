import Verif.OpChain.Refine

/-! # Properties C255–C260: loading operators from the input

C255: the operator in memory is the one the input describes.
C256: the elements of matrices.
C257: operators are shared, without cycles, and keep their keys.
C258: an input that cannot be used ends in an error message.
C259: the default diagonal of matrices.
C260: labels.
-/

namespace QDng.OpChain

open QDng Spec

/-- The state behind a registration. -/
def added (s : State) (key : Str) (label : Option Str) (o : Obj) : State :=
  { heap := s.heap ++ [o],
    store := fun x => if x = keyFor s key o.shape then some (entryFor s (keyFor s key o.shape) label) else s.store x,
    anon := if key = [] then s.anon + 1 else s.anon }

/-! ### C255 -/

/-- If loading succeeds the input has a meaning, and the operator with all its parts is what the input means. -/
theorem C255_sound_partial (W : World) (n : Node) (s s' : State) (a : Nat) (E : Env) (hn : Regular n)
    (hs : Represents s E) (h : load W n s = .ok s' a) :
    ∃ t E', Means W n E t E' ∧ Denotes s'.heap t a ∧ Represents s' E' := by
  obtain ⟨t, E', h1, h2, h3, -⟩ := load_sound n s s' a E hn hs h
  exact ⟨t, E', h1, h2, h3⟩

/-- Each input with a meaning is loaded. -/
theorem C255_complete_partial (W : World) (n : Node) (s : State) (t : Tree) (E E' : Env) (hn : Regular n)
    (hs : Represents s E) (h : Means W n E t E') :
    ∃ s' a, load W n s = .ok s' a ∧ Denotes s'.heap t a ∧ Represents s' E' := by
  obtain ⟨s', a, h1, h2, h3, -⟩ := load_complete n s E E' t hn hs h
  exact ⟨s', a, h1, h2, h3⟩

/-- At the beginning nothing is known. -/
theorem represents_start : Represents State.start (fun _ => none) := by
  refine ⟨rfl, fun k _ => ⟨fun _ => rfl, fun t h => absurd h (by simp)⟩⟩

theorem register_eq {s : State} {key : Str} (label : Option Str) (o : Obj) (h : s.store key = none) :
    register s key label o = .ok (added s key label o) s.heap.length := by
  unfold register
  rw [if_neg (by rw [h]; simp)]
  rfl

/-- Keys of users that look like the generated ones are replaced by the next operator without a key: the reference gives
another operator. -/
theorem C255_violated_underscores (W : World) (s : State) (m : Str) (r1 r2 : Nat) (hm : m ≠ gridSum)
    (hm1 : m ≠ multistate) (hm2 : m ≠ dMultistate) (hl : W.load m = some .plain) (hi : ∀ r, W.initOk m r = true)
    (hs : s.store (Registry.anonKey m s.anon) = none) (he : s.store [] = none) :
    ∃ s1 a s2 b, load W (.mk [] { name := m, key := Registry.anonKey m s.anon, rest := r1 } false []) s = .ok s1 a ∧
      load W (.mk [] { name := m, rest := r2 } false []) s1 = .ok s2 b ∧ a ≠ b ∧
      load W (.mk [] { ref := some (Registry.anonKey m s.anon) } false []) s2 = .ok s2 b := by
  have hk : ∀ key r, needsKids { name := m, key := key, rest := r } = false := by
    intro key r
    unfold needsKids
    rw [decide_eq_false_iff_not]
    rintro (h | h | h)
    · exact hm h
    · exact hm1 h
    · exact hm2 h
  have hc : ∀ key r, create W { name := m, key := key, rest := r } = some ⟨.leaf m r, []⟩ :=
    fun key r => create_module (hk key r) .plain hl (hi r)
  have hne : Registry.anonKey m s.anon ≠ [] := by unfold Registry.anonKey; simp
  have hload : ∀ key r t, load W (.mk [] { name := m, key := key, rest := r } false []) t =
      register t key none ⟨.leaf m r, []⟩ := by
    intro key r t
    rw [load]
    dsimp only
    rw [hk, if_neg (by simp), hc]
    rfl
  have hk0 : keyFor s (Registry.anonKey m s.anon) (Shape.leaf m r1) = Registry.anonKey m s.anon := by
    unfold keyFor; rw [if_neg hne]
  have e1 := (hload (Registry.anonKey m s.anon) r1 s).trans (register_eq none ⟨.leaf m r1, []⟩ hs)
  have ha : (added s (Registry.anonKey m s.anon) none ⟨.leaf m r1, []⟩).anon = s.anon := by
    unfold added; dsimp only; rw [if_neg hne]
  have h0 : (added s (Registry.anonKey m s.anon) none ⟨.leaf m r1, []⟩).store [] = none := by
    unfold added; dsimp only
    rw [hk0, if_neg (fun h => hne h.symm)]
    exact he
  refine ⟨_, _, _, _, e1, (hload [] r2 _).trans (register_eq none ⟨.leaf m r2, []⟩ h0), ?_, ?_⟩
  · show s.heap.length ≠ (s.heap ++ [_]).length
    rw [List.length_append, List.length_singleton]
    omega
  · generalize added s (Registry.anonKey m s.anon) none ⟨.leaf m r1, []⟩ = s1 at ha
    have hk1 : keyFor s1 [] (Shape.leaf m r2) = Registry.anonKey m s.anon := by
      unfold keyFor; rw [if_pos rfl, ha]; rfl
    have hst : (added s1 [] none ⟨.leaf m r2, []⟩).store (Registry.anonKey m s.anon) =
        some (entryFor s1 (Registry.anonKey m s.anon) none) := by
      unfold added; dsimp only; rw [hk1, if_pos rfl]
    rw [load]
    dsimp only
    rw [hst]
    rfl

/-! ### C256 -/

/-- The name `m<row>.<col>` is read as the row and the column, for all numbers. -/
theorem C256_name (ch : Char) (hch : ch ≠ '.') (r c : Nat) (hr : r ≤ 2147483647) (hc : c ≤ 2147483647) :
    readTag (ch :: (FileSeq.showNat r ++ '.' :: FileSeq.showNat c)) = some ((r : Int), (c : Int)) :=
  readTag_of_tagIs ⟨ch, hch, rfl⟩ hr hc

/-- In a loaded matrix the operators are at the places their elements name: no place is used twice, all places are
within the number of states, and the number of states is the given one or the smallest that is enough. -/
theorem C256_places_partial (W : World) (n : Node) (s s' : State) (a : Nat) (E : Env) (hn : Regular n)
    (hs : Represents s E) (h : load W n s = .ok s' a) (o : Obj) (ho : s'.heap[a]? = some o) (d u : Bool) (m : Int)
    (hm : o.shape = .matrix d u m) (tag : Str) (at_ : Attrs) (text : Bool) (kids : List Node)
    (hnode : n = .mk tag at_ text kids) (href : at_.ref = none) :
    ∃ ps : List (Nat × Nat), List.Forall₂ TagIs (kids.map Node.tag) ps ∧
      o.parts.map Prod.fst = ps.map (fun p => Place.elem p.1 p.2) ∧ ps.Nodup ∧
      StatesFor (W.states at_.rest) ps m ∧ m ≤ 64 := by
  obtain ⟨t, E', h1, h2, -, -⟩ := load_sound n s s' a E hn hs h
  subst hnode
  rw [Means, href] at h1
  dsimp only at h1
  obtain ⟨sh, ts, tags, E1, m1, rfl, -, m4⟩ := h1
  rw [Denotes] at h2
  obtain ⟨o', d1, d2, d3, -⟩ := h2
  rw [ho] at d1
  obtain rfl := Option.some.inj d1
  rw [hm] at d2
  subst d2
  obtain ⟨q1, q2, q3, q4, ps, q5, q6, q7, q8⟩ := m1
  rcases m4 with ⟨-, -, rfl, -⟩ | ⟨-, rfl, -⟩
  · exact absurd rfl q2
  refine ⟨ps, q5, ?_, q6, q8, ?_⟩
  · have d3' : List.Forall₂ (fun tag p => ∃ r c, TagIs tag (r, c) ∧ p = Place.elem r c) (kids.map Node.tag)
        (o.parts.map Prod.fst) := d3
    rw [Regular] at hn
    obtain ⟨qs, b1, b2⟩ := tagsGood_of_regular hn.2.2.1 (by
      rw [q1]; cases d
      · exact .inl rfl
      · exact .inr rfl)
    clear d3 h ho hs hn q6 q8 hm b1 b2
    generalize o.parts.map Prod.fst = pl at d3' ⊢
    generalize kids.map Node.tag = tags at d3' q5
    induction q5 generalizing pl with
    | nil => cases d3'; rfl
    | @cons tg p tgs ps hp _ ih =>
      cases d3' with
      | @cons _ x _ xs hx hxs =>
        obtain ⟨r, c, e1, rfl⟩ := hx
        rw [List.map_cons, ih (fun q hq => q7 q (by simp [hq])) xs hxs]
        -- the same name gives the same place
        have hb := q7 p (by simp)
        have hbig : (r, c) = p := tagIs_exact e1 hp
        rw [← hbig]
  · rcases q8.2.2 with e | ⟨p, hp, e⟩
    · omega
    · have := q7 p hp
      omega

/-- A name without a point is accepted: the operator is in the first column. -/
theorem C256_violated_point (ch : Char) (h1 : isDigit ch = false) (h2 : ch ≠ '-') (h3 : ch ≠ '+') (h4 : ch ≠ '.')
    (r : Nat) (hr : r ≤ 2147483647) : readTag (ch :: FileSeq.showNat r) = some ((r : Int), 0) := by
  have hf : findDot (ch :: FileSeq.showNat r) = none := by
    unfold findDot
    rw [List.findIdx?_eq_none_iff]
    intro x hx
    rw [List.mem_cons] at hx
    rcases hx with rfl | hx
    · simpa using h4
    · have := showNat_digits r x hx
      simp only [decide_eq_false_iff_not]
      rintro rfl
      exact absurd this (by decide)
  unfold readTag rowText colText
  rw [hf]
  dsimp only
  rw [List.drop_one, List.tail_cons, readInt_showNat r hr]
  have : readInt (ch :: FileSeq.showNat r) = some ((readNat (ch :: FileSeq.showNat r) : Nat) : Int) := by
    rw [readInt]
    · simp
    · rintro x h; exact h2 (List.cons.inj h).1
    · rintro x h; exact h3 (List.cons.inj h).1
  rw [this]
  have : readNat (ch :: FileSeq.showNat r) = 0 := by
    unfold readNat
    rw [List.takeWhile_cons, if_neg (by rw [h1]; simp)]
    rfl
  rw [this]
  rfl

/-- Letters are read as zero. -/
theorem C256_violated_letters : readTag "mx.1".toList = some (0, 1) := by decide

/-- A matrix with an element without a row uses an uninitialised number, for all states and matrices. -/
theorem C256_violated_empty (W : World) (s : State) (at_ : Attrs) (kids : List Node) (k : Node) (text : Bool)
    (hname : at_.name = multistate) (href : at_.ref = none) (hst : W.states at_.rest ≤ 64) (hk : k.tag = "m.1".toList) :
    load W (.mk [] at_ text (k :: kids)) s = .ub := by
  rw [load, href]
  dsimp only
  rw [if_neg (by simp), create_matrix false (by rw [hname]; rfl) hst]
  dsimp only
  rw [if_pos (show hasParts (Shape.matrix _ _ _) = true from rfl), if_neg (by simp), loadKids, if_neg (by
    show ¬ (readTag k.tag).isSome = true
    rw [hk]; decide)]
  rfl

/-- Negative numbers are written in front of the matrix. -/
theorem C256_violated_negative (W : World) (s s1 : State) (a : Nat) (at_ : Attrs) (kids : List Node) (k : Node) (text : Bool)
    (hname : at_.name = multistate) (href : at_.ref = none) (hst : W.states at_.rest ≤ 64) (hk : k.tag = "m-1.0".toList)
    (hl : load W k s = .ok s1 a) : load W (.mk [] at_ text (k :: kids)) s = .ub := by
  have ht : readTag "m-1.0".toList = some (-1, 0) := by decide
  rw [load, href]
  dsimp only
  rw [if_neg (by simp), create_matrix false (by rw [hname]; rfl) hst]
  dsimp only
  rw [if_pos (show hasParts (Shape.matrix _ _ _) = true from rfl), if_neg (by simp), loadKids, if_pos (by
    show (readTag k.tag).isSome = true
    rw [hk, ht]; rfl), hl]
  show (((addPart W _ k.tag a (shapeAt s1 a)).res s1).bind _).bind _ = _
  have : ∀ o : Obj, o.shape = .matrix false (boolOf at_.unity true) (W.states at_.rest) →
      addPart W o k.tag a (shapeAt s1 a) = .ub := by
    intro o ho
    unfold addPart
    rw [ho, hk, ht]
    rfl
  rw [this _ rfl]
  rfl

end QDng.OpChain
