import Verif.Params.Lemmas

/-!
# Properties C01 - C05: parameter container

The specification is written in terms of call histories and finite maps, not in terms of the
model's data structures.
-/

namespace QDng.Params

open QDng

/-! ## Specification: histories of calls -/

/-- A history of calls that produces a container.  `ofMap l`/`params h l` pass a `std::map` that was
filled with the pairs `l` one after the other. -/
inductive Hist
  | new
  | ofMap (l : List (Str × Str))
  | set (h : Hist) (k v : Str) (t : Datatype)
  | setBool (h : Hist) (k : Str) (b : Bool)
  | params (h : Hist) (l : List (Str × Str))
  | merge (h g : Hist)
  | assign (h g : Hist)
  | clear (h : Hist)
  | reset (h : Hist)
  | parseLine (h : Hist) (s : Str)

/-- A `std::map` filled by a sequence of assignments `m[k] = v`
(model of the caller side of `/repo/src/tools/ParamContainer.cpp:75,94`). -/
def fillMap (l : List (Str × Str)) : OMap Str Str := l.foldl (fun m p => OMap.insert p.1 p.2 m) []

/-- Run a history on the model (each constructor is the call of the corresponding method of
`/repo/src/tools/ParamContainer.cpp`; a line that makes the parser throw leaves the container as it
was). -/
def Hist.run : Hist → Container
  | .new => Container.empty
  | .ofMap l => Container.ofMap (fillMap l)
  | .set h k v t => h.run.setValue k v t
  | .setBool h k b => h.run.setBool k b
  | .params h l => h.run.setParams (fillMap l)
  | .merge h g => h.run.merge g.run
  | .assign h g => h.run.assign g.run
  | .clear h => h.run.clear
  | .reset h => h.run.resetPosition
  | .parseLine h s => (Params.parseLine h.run s).getD h.run

/-- Last value given to `k` in a list of assignments. -/
def lastVal (l : List (Str × Str)) (k : Str) : Option Str :=
  l.foldl (fun o p => if k = p.1 then some p.2 else o) none

/-- The value a user expects under `k` after a history: the last one stored.  (A parsed line counts as
the assignment it denotes, see `lineDenotes`.) -/
def Hist.value (k : Str) : Hist → Option Str
  | .new => none
  | .ofMap l => lastVal l k
  | .set h k' v _ => if k = k' then some v else h.value k
  | .setBool h k' b => if k = k' then some (if b then "true".toList else "false".toList) else h.value k
  | .params _ l => lastVal l k
  | .merge h g => match g.value k with
    | some v => some v
    | none => h.value k
  | .assign _ g => g.value k
  | .clear _ => none
  | .reset h => h.value k
  | .parseLine h s =>
    match Params.parseLine Container.empty s with
    | none => h.value k
    | some c => match OMap.find k c.params with
      | some v => some v
      | none => h.value k

/-! ## Lemmas connecting the two -/

theorem find_ins {V : Type} (k k' : Str) (v : V) (m : OMap Str V) :
    OMap.find k (OMap.insert k' v m) = if k = k' then some v else OMap.find k m := by
  rw [OMap.find_insert]
  by_cases h : k = k' <;> simp [h]

theorem sorted_fill (l : List (Str × Str)) (m : OMap Str Str) (hm : OMap.Sorted m) :
    OMap.Sorted (l.foldl (fun m p => OMap.insert p.1 p.2 m) m) := by
  induction l generalizing m with
  | nil => exact hm
  | cons p r ih => exact ih _ (OMap.sorted_insert hm)

theorem find_fill (l : List (Str × Str)) (m : OMap Str Str) (k : Str) :
    OMap.find k (l.foldl (fun m p => OMap.insert p.1 p.2 m) m)
      = l.foldl (fun o p => if k = p.1 then some p.2 else o) (OMap.find k m) := by
  induction l generalizing m with
  | nil => rfl
  | cons p r ih =>
    simp only [List.foldl_cons]
    rw [ih, find_ins]

theorem parseLine_cases (c : Container) (s : Str) :
    (Params.parseLine c s = none ∧ Params.parseLine Container.empty s = none) ∨
    (Params.parseLine c s = some c ∧ Params.parseLine Container.empty s = some Container.empty) ∨
    (∃ k v t, Params.parseLine c s = some (c.setValue k v t) ∧
      Params.parseLine Container.empty s = some (Container.empty.setValue k v t)) := by
  unfold Params.parseLine
  split
  · exact Or.inr (Or.inl ⟨rfl, rfl⟩)
  · rename_i pos hpos
    simp only
    split
    · exact Or.inl ⟨rfl, rfl⟩
    · split
      · exact Or.inr (Or.inr ⟨_, _, _, rfl, rfl⟩)
      · exact Or.inr (Or.inl ⟨rfl, rfl⟩)

theorem Hist.sorted (h : Hist) : OMap.Sorted h.run.params ∧ OMap.Sorted h.run.types := by
  induction h with
  | new => exact ⟨OMap.sorted_nil, OMap.sorted_nil⟩
  | ofMap l => exact ⟨sorted_fill l [] OMap.sorted_nil, OMap.sorted_nil⟩
  | set h k v t ih => exact ⟨OMap.sorted_insert ih.1, OMap.sorted_insert ih.2⟩
  | setBool h k b ih => exact ⟨OMap.sorted_insert ih.1, OMap.sorted_insert ih.2⟩
  | params h l ih => exact ⟨sorted_fill l [] OMap.sorted_nil, ih.2⟩
  | merge h g ih1 ih2 => exact ⟨sorted_mergeLoop ih1.1, sorted_mergeLoop ih1.2⟩
  | assign h g ih1 ih2 => exact ih2
  | clear h ih => exact ⟨OMap.sorted_nil, OMap.sorted_nil⟩
  | reset h ih => exact ih
  | parseLine h s ih =>
    show OMap.Sorted ((Params.parseLine h.run s).getD h.run).params ∧
      OMap.Sorted ((Params.parseLine h.run s).getD h.run).types
    rcases parseLine_cases h.run s with ⟨h1, _⟩ | ⟨h1, _⟩ | ⟨k, v, t, h1, _⟩
    · rw [h1]; exact ih
    · rw [h1]; exact ih
    · rw [h1]; exact ⟨OMap.sorted_insert ih.1, OMap.sorted_insert ih.2⟩

theorem Hist.find_params (h : Hist) (k : Str) : OMap.find k h.run.params = h.value k := by
  induction h with
  | new => rfl
  | ofMap l => exact find_fill l [] k
  | set h k' v t ih =>
    show OMap.find k (OMap.insert k' v h.run.params) = _
    rw [find_ins, ih]; rfl
  | setBool h k' b ih =>
    show OMap.find k (OMap.insert k' _ h.run.params) = _
    rw [find_ins, ih]
    cases b <;> rfl
  | params h l ih => exact find_fill l [] k
  | merge h g ih1 ih2 =>
    show OMap.find k (mergeLoop h.run.params g.run.params) = _
    rw [find_mergeLoop g.sorted.1, ih1, ih2]
    simp only [Hist.value]
    cases g.value k <;> rfl
  | assign h g ih1 ih2 => exact ih2
  | clear h ih => rfl
  | reset h ih => exact ih
  | parseLine h s ih =>
    show OMap.find k ((Params.parseLine h.run s).getD h.run).params = _
    simp only [Hist.value]
    rcases parseLine_cases h.run s with ⟨h1, h2⟩ | ⟨h1, h2⟩ | ⟨k', v, t, h1, h2⟩
    · rw [h1, h2]; exact ih
    · rw [h1, h2]; exact ih
    · rw [h1, h2]
      simp only [Option.getD_some, Container.setValue, Container.empty, find_ins, ih]
      simp only [OMap.find]
      split <;> simp_all

/-! ## C01 -/

/-- **C01** (look-ups): after any history of calls, presence, value and default of every key are those
of the last assignment. -/
theorem C01_lookup (h : Hist) (k : Str) :
    h.run.isPresent k = (h.value k).isSome ∧
    (∀ v, h.value k = some v → h.run.getString k = (true, v)) ∧
    (h.value k = none → h.run.getString k = (false, [])) ∧
    (h.value k = some "true".toList → ∀ d, h.run.getBool k d = (true, true)) ∧
    (h.value k = some "false".toList → ∀ d, h.run.getBool k d = (true, false)) ∧
    (h.value k = none → ∀ d, h.run.getBool k d = (false, d)) := by
  have hf := h.find_params k
  unfold Container.isPresent Container.getString Container.getBool
  rw [hf]
  refine ⟨rfl, ?_, ?_, ?_, ?_, ?_⟩
  · intro v hv; rw [hv]
  · intro hv; rw [hv]
  · intro hv d; rw [hv]; rfl
  · intro hv d; rw [hv]; rfl
  · intro hv d; rw [hv]

/-- **C01** (iteration): after `ResetPosition`, repeated `GetNextValue` returns exactly the stored
pairs, each once, in strictly increasing key order, and then `false` for ever. -/
theorem C01_iteration (h : Hist) :
    ∃ l : List (Str × Str),
      l.Pairwise (fun a b => a.1 < b.1) ∧
      (∀ k v, (k, v) ∈ l ↔ h.value k = some v) ∧
      h.run.size = l.length ∧
      ∀ n, h.run.resetPosition.getNextN (l.length + n)
        = some (l.map some ++ List.replicate n none) := by
  refine ⟨h.run.params, h.sorted.1, ?_, rfl, ?_⟩
  · intro k v
    rw [← h.find_params, OMap.find_eq_some_iff h.sorted.1]
  · intro n
    exact Container.getNextN_resetPosition _ h.sorted.1 n

/-- Non-vacuity for C01: a history in which a key is overwritten by a merge. -/
example :
    let h := Hist.merge (.set (.set .new ['a'] ['1'] .int) ['b'] ['2'] .undef)
      (.set .new ['a'] ['3'] .undef)
    h.value ['a'] = some ['3'] ∧ h.value ['b'] = some ['2'] ∧ h.value ['c'] = none ∧
      h.run.resetPosition.getNextN 3
        = some [some (['a'], ['3']), some (['b'], ['2']), none] := by decide

/-- Without `ResetPosition` the iteration misses pairs (the documented restriction of
`/repo/src/tools/ParamContainer.h:32`), and after `clear` it is undefined. -/
example :
    (Hist.set .new ['a'] ['1'] .int).run.getNextN 1 = some [none] ∧
    (Hist.clear (.ofMap [(['a'], ['1'])])).run.getNextN 1 = none := by decide

/-! ## C59: type tags -/

/-- The type a user expects for the value stored under `k`: the one given with the last assignment
(`undef` if it came without a type or if there is no value). -/
def Hist.type (k : Str) : Hist → Datatype
  | .new => .undef
  | .ofMap _ => .undef
  | .set h k' _ t => if k = k' then t else h.type k
  | .setBool h k' _ => if k = k' then .bool else h.type k
  | .params _ _ => .undef
  | .merge h g => match g.value k with
    | some _ => g.type k
    | none => h.type k
  | .assign _ g => g.type k
  | .clear _ => .undef
  | .reset h => h.type k
  | .parseLine h s =>
    match Params.parseLine Container.empty s with
    | none => h.type k
    | some c => match OMap.find k c.types with
      | some t => t
      | none => h.type k

/-- Histories that never pass a bare `std::map` to the container. -/
def Hist.typedOnly : Hist → Prop
  | .new => True
  | .ofMap _ => False
  | .set h _ _ _ => h.typedOnly
  | .setBool h _ _ => h.typedOnly
  | .params _ _ => False
  | .merge h g => h.typedOnly ∧ g.typedOnly
  | .assign _ g => g.typedOnly
  | .clear _ => True
  | .reset h => h.typedOnly
  | .parseLine h _ => h.typedOnly

theorem getType_eq (c : Container) (k : Str) : c.getType k = (OMap.find k c.types).getD .undef := by
  unfold Container.getType
  cases OMap.find k c.types <;> rfl

theorem Hist.types_params (h : Hist) (ht : h.typedOnly) (k : Str) :
    (OMap.find k h.run.types).isSome = (h.value k).isSome ∧ h.run.getType k = h.type k := by
  rw [getType_eq]
  induction h with
  | new => exact ⟨rfl, rfl⟩
  | ofMap l => exact ht.elim
  | set h k' v t ih =>
    have ih := ih ht
    show (OMap.find k (OMap.insert k' t h.run.types)).isSome = _ ∧
      (OMap.find k (OMap.insert k' t h.run.types)).getD .undef = _
    rw [find_ins]
    simp only [Hist.value, Hist.type]
    by_cases hk : k = k'
    · simp [hk]
    · simpa [hk] using ih
  | setBool h k' b ih =>
    have ih := ih ht
    show (OMap.find k (OMap.insert k' .bool h.run.types)).isSome = _ ∧
      (OMap.find k (OMap.insert k' .bool h.run.types)).getD .undef = _
    rw [find_ins]
    simp only [Hist.value, Hist.type]
    by_cases hk : k = k'
    · simp [hk]
    · simpa [hk] using ih
  | params h l ih => exact ht.elim
  | merge h g ih1 ih2 =>
    have ih1 := ih1 ht.1
    have ih2 := ih2 ht.2
    show (OMap.find k (mergeLoop h.run.types g.run.types)).isSome = _ ∧
      (OMap.find k (mergeLoop h.run.types g.run.types)).getD .undef = _
    rw [find_mergeLoop g.sorted.2]
    simp only [Hist.value, Hist.type]
    cases hg : g.value k with
    | none =>
      have h2 : OMap.find k g.run.types = none := by
        have := ih2.1
        rw [hg] at this
        simpa using this
      rw [h2]
      simpa using ih1
    | some v =>
      have h2 : ∃ t, OMap.find k g.run.types = some t := by
        have := ih2.1
        rw [hg] at this
        exact Option.isSome_iff_exists.1 (by simpa using this)
      obtain ⟨t, h2⟩ := h2
      have h3 := ih2.2
      rw [h2] at h3 ⊢
      simpa using h3
  | assign h g ih1 ih2 => exact ih2 ht
  | clear h ih => exact ⟨rfl, rfl⟩
  | reset h ih => exact ih ht
  | parseLine h s ih =>
    have ih := ih ht
    show (OMap.find k ((Params.parseLine h.run s).getD h.run).types).isSome = _ ∧
      (OMap.find k ((Params.parseLine h.run s).getD h.run).types).getD .undef = _
    simp only [Hist.value, Hist.type]
    rcases parseLine_cases h.run s with ⟨h1, h2⟩ | ⟨h1, h2⟩ | ⟨k', v, t, h1, h2⟩
    · rw [h1, h2]; exact ih
    · rw [h1, h2]; exact ih
    · rw [h1, h2]
      simp only [Option.getD_some, Container.setValue, Container.empty, find_ins]
      simp only [OMap.find]
      by_cases hk : k = k'
      · simp [hk]
      · simpa [hk] using ih

/-- **C59** (partial): for histories that do not replace the parameters by a bare map, `GetType`
reports the type given with the last assignment. -/
theorem C59_type_partial (h : Hist) (ht : h.typedOnly) (k : Str) : h.run.getType k = h.type k :=
  (h.types_params ht k).2

/-- **C59** is violated by `Params(map)`: the type of an old value is reported for the new one. -/
theorem C59_violated : ∃ (h : Hist) (k : Str), h.run.getType k ≠ h.type k :=
  ⟨.params (.set .new ['a'] ['1'] .int) [(['a'], ['x'])], ['a'], by decide⟩

example : (Hist.merge (.set .new ['a'] ['1'] .int) (.set .new ['a'] ['x'] .string)).typedOnly ∧
    (Hist.merge (.set .new ['a'] ['1'] .int) (.set .new ['a'] ['x'] .string)).type ['a'] = .string :=
  ⟨⟨trivial, trivial⟩, by decide⟩

/-! ## C03 -/

/-- **C03**: after `a += b` each key has `b`'s value if `b` has one and `a`'s value otherwise. -/
theorem C03_merge_value (a b : Hist) (k : Str) :
    ((b.value k).isSome → (a.run.merge b.run).getString k = b.run.getString k) ∧
    (b.value k = none → (a.run.merge b.run).getString k = a.run.getString k) ∧
    ((a.run.merge b.run).isPresent k = (a.run.isPresent k || b.run.isPresent k)) := by
  have hm := (Hist.merge a b).find_params k
  have ha := a.find_params k
  have hb := b.find_params k
  have hrun : (Hist.merge a b).run = a.run.merge b.run := rfl
  rw [hrun] at hm
  unfold Container.getString Container.isPresent
  rw [hm, ha, hb]
  simp only [Hist.value]
  cases h1 : b.value k <;> cases h2 : a.value k <;> simp

/-- **C03**: merging is idempotent and associative (values and types, i.e. the whole contents). -/
theorem C03_merge_algebra (a b c : Hist) :
    (a.run.merge a.run).params = a.run.params ∧ (a.run.merge a.run).types = a.run.types ∧
    ((a.run.merge b.run).merge c.run).params = (a.run.merge (b.run.merge c.run)).params ∧
    ((a.run.merge b.run).merge c.run).types = (a.run.merge (b.run.merge c.run)).types := by
  obtain ⟨ap, at'⟩ := a.sorted
  obtain ⟨bp, bt⟩ := b.sorted
  obtain ⟨cp, ct⟩ := c.sorted
  refine ⟨?_, ?_, ?_, ?_⟩
  · apply OMap.ext (sorted_mergeLoop ap) ap
    intro k
    show OMap.find k (mergeLoop _ _) = _
    rw [find_mergeLoop ap]
    cases OMap.find k a.run.params <;> rfl
  · apply OMap.ext (sorted_mergeLoop at') at'
    intro k
    show OMap.find k (mergeLoop _ _) = _
    rw [find_mergeLoop at']
    cases OMap.find k a.run.types <;> rfl
  · apply OMap.ext (sorted_mergeLoop (sorted_mergeLoop ap)) (sorted_mergeLoop ap)
    intro k
    show OMap.find k (mergeLoop (mergeLoop _ _) _) = OMap.find k (mergeLoop _ (mergeLoop _ _))
    rw [find_mergeLoop cp, find_mergeLoop bp, find_mergeLoop (sorted_mergeLoop bp),
      find_mergeLoop cp]
    cases OMap.find k c.run.params <;> rfl
  · apply OMap.ext (sorted_mergeLoop (sorted_mergeLoop at')) (sorted_mergeLoop at')
    intro k
    show OMap.find k (mergeLoop (mergeLoop _ _) _) = OMap.find k (mergeLoop _ (mergeLoop _ _))
    rw [find_mergeLoop ct, find_mergeLoop bt, find_mergeLoop (sorted_mergeLoop bt),
      find_mergeLoop ct]
    cases OMap.find k c.run.types <;> rfl

example :
    let a := Hist.set (.set .new ['a'] ['1'] .int) ['b'] ['2'] .int
    let b := Hist.set .new ['b'] ['9'] .int
    (b.value ['b']).isSome ∧ b.value ['a'] = none ∧
      (a.run.merge b.run).params = [(['a'], ['1']), (['b'], ['9'])] := by decide

/-! ## C04 -/

/-- **C04**: an array parameter with at least one comma free element is read back unchanged. -/
theorem C04_array_roundtrip (c : Container) (name : Str) (l : List Str) (t : Datatype)
    (hl : l ≠ []) (h : ∀ x ∈ l, ',' ∉ x) :
    (c.setArray name l t).getArray name = some l := by
  unfold Container.setArray Container.getArray Container.getString Container.setValue
  simp only [find_ins, if_true]
  unfold split
  rw [splitLoop_join l hl h _ ?_]
  have := length_joinComma l
  omega

/-- **C04**: reading any text as an array yields one element more than there are commas, the elements
contain no comma, and joining them with commas gives the text again. -/
theorem C04_array_read (c : Container) (name v : Str) (h : c.getString name = (true, v)) :
    ∃ l, c.getArray name = some l ∧ l.length = v.count ',' + 1 ∧ (∀ x ∈ l, ',' ∉ x) ∧
      joinComma l = v := by
  refine ⟨split v, ?_, ?_⟩
  · unfold Container.getArray
    rw [h]
  · exact splitLoop_spec (v.length + 1) v (by
      have := List.count_le_length (a := ',') (l := v)
      omega)

/-- The empty array is not read back as an empty array: one empty element appears. -/
theorem C04_empty_array (c : Container) (name : Str) (t : Datatype) :
    (c.setArray name [] t).getArray name = some [[]] := by
  unfold Container.setArray Container.getArray Container.getString Container.setValue
  simp only [find_ins, if_true]
  rfl

example : ([['1'], [], ['2', '3']] : List Str) ≠ [] ∧
    (∀ x ∈ ([['1'], [], ['2', '3']] : List Str), ',' ∉ x) ∧
    joinComma [['1'], [], ['2', '3']] = ['1', ',', ',', '2', '3'] := by decide

/-! ## C02 -/

/-- A key that can be represented in the text form. -/
structure RepKey (k : Str) : Prop where
  ne : k ≠ []
  trimmed : Trimmed k
  clean : ∀ c ∈ k, c ≠ '=' ∧ c ≠ '[' ∧ c ≠ ']' ∧ c ≠ '\n' ∧ c ≠ Char.ofNat 0
  noComment : ∀ r, k ≠ '#' :: r

/-- A value that can be represented in the text form. -/
structure RepValue (v : Str) : Prop where
  trimmed : Trimmed v
  clean : ∀ c ∈ v, c ≠ '\n' ∧ c ≠ Char.ofNat 0

/-- All entries of a container are representable and fit in the line buffer. -/
def Representable (c : Container) (withTypes : Bool) : Prop :=
  ∀ p ∈ c.params, RepKey p.1 ∧ RepValue p.2 ∧
    (writeEntry withTypes (c.getType p.1) p.1 p.2).length ≤ maxLineLength

theorem assignCStr_clean (s : Str) (h : ∀ c ∈ s, c ≠ Char.ofNat 0) : assignCStr s = s := by
  unfold assignCStr
  induction s with
  | nil => rfl
  | cons x r ih =>
    rw [List.takeWhile_cons_of_pos (by simpa using h x List.mem_cons_self),
      ih (fun c hc => h c (List.mem_cons_of_mem _ hc))]

theorem not_comment {k : Str} (h : ∀ r, k ≠ '#' :: r) :
    findFirst (fun ch => ch = '#') k ≠ some 0 := by
  intro h0
  obtain ⟨a, c, b, h1, h2, h3, _⟩ := findFirst_some h0
  have : a = [] := List.length_eq_zero_iff.1 h2
  subst this
  simp at h3 h1
  subst h3
  exact h b h1

theorem parseLine_untyped (c : Container) (k v : Str) (hk : RepKey k) (hv : RepValue v) :
    parseLine c (k ++ [' ', '=', ' '] ++ v) = some (c.setValue k v .undef) := by
  unfold parseLine
  have h1 : findFirst (fun ch => ch = '=') (k ++ [' ', '=', ' '] ++ v) = some (k ++ [' ']).length := by
    have := findFirst_append_of_not (p := fun ch => decide (ch = '=')) (a := k ++ [' '])
      (b := ' ' :: v) (c := '=') ?_ (by simp)
    · simpa using this
    · intro x hx
      simp at hx
      rcases hx with hx | hx
      · simpa using (hk.clean x hx).1
      · subst hx; decide
  rw [h1]
  have e : k ++ [' ', '=', ' '] ++ v = (k ++ [' ']) ++ ('=' :: ' ' :: v) := by simp
  have h2 : (k ++ [' ', '=', ' '] ++ v).take (k ++ [' ']).length = k ++ [' '] := by
    rw [e]; exact List.take_left' rfl
  have h3 : (k ++ [' ', '=', ' '] ++ v).drop ((k ++ [' ']).length + 1) = ' ' :: v := by
    rw [e, ← List.drop_drop, List.drop_left' rfl]; rfl
  simp only [h2, h3]
  have h4 : trim (k ++ [' ']) = k := by
    have := trim_ws [] [' '] k (by simp) (by simp [isWs]) hk.trimmed hk.ne
    simpa using this
  rw [h4, trim_space_word v hv.trimmed]
  have h5 : extractType k = some (k, .undef) := by
    unfold extractType
    rw [findFirst_none]
    intro x hx
    simpa using (hk.clean x hx).2.1
  rw [h5]
  have h6 : k.isEmpty = false := by simpa using hk.ne
  have h7 := not_comment hk.noComment
  simp [h6, h7]

theorem type2String_clean (t : Datatype) : ∀ c ∈ type2String t, c ≠ '=' ∧ c ≠ '[' ∧ c ≠ ']' ∧
    c ≠ '\n' ∧ c ≠ Char.ofNat 0 := by cases t <;> decide

theorem string2Type_type2String (t : Datatype) : string2Type (type2String t) = some t := by
  cases t <;> decide

/-- No proper part cut at the wrong length is a type name. -/
theorem string2Type_wrong (t : Datatype) (ht : t ≠ .undef) (n : Nat) (hn : n ≠ 0)
    (hne : n ≠ (type2String t).length) : string2Type ((type2String t ++ [']']).take n) = none := by
  by_cases hbig : n > 7
  · rw [List.take_of_length_le (by cases t <;> simp [type2String] <;> omega)]
    cases t <;> first | exact absurd rfl ht | decide
  · have : n = 1 ∨ n = 2 ∨ n = 3 ∨ n = 4 ∨ n = 5 ∨ n = 6 ∨ n = 7 := by omega
    rcases this with h | h | h | h | h | h | h <;> subst h <;> cases t <;>
      first | exact absurd rfl ht | exact absurd rfl hne | decide

theorem extractType_typed (k : Str) (t : Datatype) (hk : RepKey k) (ht : t ≠ .undef) :
    extractType (k ++ ['['] ++ type2String t ++ [']']) =
      if k.length = (type2String t).length then some (k, t) else none := by
  unfold extractType
  have h1 : findFirst (fun c => c = '[') (k ++ ['['] ++ type2String t ++ [']']) = some k.length := by
    have := findFirst_append_of_not (p := fun ch => decide (ch = '[')) (a := k)
      (b := type2String t ++ [']']) (c := '[')
      (fun x hx => by simpa using (hk.clean x hx).2.1) (by simp)
    simpa using this
  have h2 : findFirst (fun c => c = ']') (k ++ ['['] ++ type2String t ++ [']'])
      = some (k ++ ['['] ++ type2String t).length := by
    have := findFirst_append_of_not (p := fun ch => decide (ch = ']'))
      (a := k ++ ['['] ++ type2String t) (b := []) (c := ']') ?_ (by simp)
    · simpa using this
    · intro x hx
      simp at hx
      rcases hx with hx | hx | hx
      · simpa using (hk.clean x hx).2.2.1
      · subst hx; decide
      · simpa using (type2String_clean t x hx).2.2.1
  rw [h1, h2]
  have e : k ++ ['['] ++ type2String t ++ [']'] = k ++ ('[' :: (type2String t ++ [']'])) := by simp
  have h3 : (k ++ ['['] ++ type2String t ++ [']']).drop (k.length + 1) = type2String t ++ [']'] := by
    rw [e, ← List.drop_drop, List.drop_left' rfl]; rfl
  have h4 : (k ++ ['['] ++ type2String t ++ [']']).take k.length = k := by
    rw [e]; exact List.take_left' rfl
  simp only [h3, h4]
  have hk0 : k.length ≠ 0 := by
    intro h; exact hk.ne (List.length_eq_zero_iff.1 h)
  by_cases hlen : k.length = (type2String t).length
  · rw [if_pos hlen]
    have : (type2String t ++ [']']).take k.length = type2String t := List.take_left' hlen.symm
    rw [this, string2Type_type2String]
    simp only
    rw [trim_word k hk.trimmed]
  · rw [if_neg hlen, string2Type_wrong t ht k.length hk0 hlen]

theorem parseLine_typed (c : Container) (k v : Str) (t : Datatype) (hk : RepKey k) (hv : RepValue v)
    (ht : t ≠ .undef) :
    parseLine c (k ++ ['['] ++ type2String t ++ [']', ' ', '=', ' '] ++ v) =
      if k.length = (type2String t).length then some (c.setValue k v t) else none := by
  unfold parseLine
  have e : k ++ ['['] ++ type2String t ++ [']', ' ', '=', ' '] ++ v
      = (k ++ ['['] ++ type2String t ++ [']', ' ']) ++ ('=' :: ' ' :: v) := by simp
  have h1 : findFirst (fun ch => ch = '=') (k ++ ['['] ++ type2String t ++ [']', ' ', '=', ' '] ++ v)
      = some (k ++ ['['] ++ type2String t ++ [']', ' ']).length := by
    rw [e]
    apply findFirst_append_of_not (p := fun ch => decide (ch = '='))
    · intro x hx
      simp at hx
      rcases hx with hx | hx | hx | hx | hx
      · simpa using (hk.clean x hx).1
      · subst hx; decide
      · simpa using (type2String_clean t x hx).1
      · subst hx; decide
      · subst hx; decide
    · simp
  rw [h1]
  have h2 : (k ++ ['['] ++ type2String t ++ [']', ' ', '=', ' '] ++ v).take
      (k ++ ['['] ++ type2String t ++ [']', ' ']).length
      = k ++ ['['] ++ type2String t ++ [']', ' '] := by
    rw [e]; exact List.take_left' rfl
  have h3 : (k ++ ['['] ++ type2String t ++ [']', ' ', '=', ' '] ++ v).drop
      ((k ++ ['['] ++ type2String t ++ [']', ' ']).length + 1) = ' ' :: v := by
    rw [e, ← List.drop_drop, List.drop_left' rfl]; rfl
  simp only [h2, h3]
  have h4 : trim (k ++ ['['] ++ type2String t ++ [']', ' ']) = k ++ ['['] ++ type2String t ++ [']'] := by
    have := trim_ws [] [' '] (k ++ ['['] ++ type2String t ++ [']']) (by simp) (by simp [isWs]) ?_
      (by simp)
    · simpa using this
    · constructor
      · intro c r h
        cases hk' : k with
        | nil => exact absurd hk' hk.ne
        | cons x s =>
          rw [hk'] at h
          simp at h
          rw [← h.1]
          exact hk.trimmed.1 x s hk'
      · intro c r h
        have := congrArg List.getLast? h
        rw [List.getLast?_append_of_ne_nil _ (by simp), List.getLast?_append_of_ne_nil _ (by simp)] at this
        simp at this
        rw [← this]; decide
  rw [h4, trim_space_word v hv.trimmed, extractType_typed k t hk ht]
  by_cases hlen : k.length = (type2String t).length
  · rw [if_pos hlen, if_pos hlen]
    have h6 : k.isEmpty = false := by simpa using hk.ne
    have h7 := not_comment hk.noComment
    simp [h6, h7]
  · rw [if_neg hlen, if_neg hlen]

/-- What is written for an entry, without the line end (`/repo/src/tools/ParamContainer.cpp:821-830`). -/
def entryLine (withTypes : Bool) (type : Datatype) (key value : Str) : Str :=
  if withTypes = true ∧ type ≠ .undef then
    key ++ ['['] ++ type2String type ++ [']', ' ', '=', ' '] ++ value
  else key ++ [' ', '=', ' '] ++ value

theorem writeEntry_eq (w : Bool) (t : Datatype) (k v : Str) :
    writeEntry w t k v = entryLine w t k v ++ ['\n'] := by
  unfold entryLine writeEntry
  cases w <;> by_cases h : t = .undef <;> simp [h]

theorem entryLine_clean (w : Bool) (t : Datatype) (k v : Str) (hk : RepKey k) (hv : RepValue v) :
    ∀ c ∈ entryLine w t k v, c ≠ '\n' ∧ c ≠ Char.ofNat 0 := by
  have hcase : entryLine w t k v = k ++ [' ', '=', ' '] ++ v ∨
      entryLine w t k v = k ++ ['['] ++ type2String t ++ [']', ' ', '=', ' '] ++ v := by
    unfold entryLine
    split
    · exact Or.inr rfl
    · exact Or.inl rfl
  intro c hc
  rcases hcase with h | h
  · rw [h] at hc
    simp at hc
    rcases hc with h | h | h | h | h
    · exact ⟨(hk.clean c h).2.2.2.1, (hk.clean c h).2.2.2.2⟩
    · subst h; decide
    · subst h; decide
    · subst h; decide
    · exact hv.clean c h
  · rw [h] at hc
    simp at hc
    rcases hc with h | h | h | h | h | h | h | h
    · exact ⟨(hk.clean c h).2.2.2.1, (hk.clean c h).2.2.2.2⟩
    · subst h; decide
    · exact ⟨(type2String_clean t c h).2.2.2.1, (type2String_clean t c h).2.2.2.2⟩
    · subst h; decide
    · subst h; decide
    · subst h; decide
    · subst h; decide
    · exact hv.clean c h

/-- The entries which the reader understands: untyped ones and typed ones whose key is as long as the
type name. -/
def GoodEntry (withTypes : Bool) (t : Datatype) (k : Str) : Prop :=
  withTypes = false ∨ t = .undef ∨ k.length = (type2String t).length

instance (w : Bool) (t : Datatype) (k : Str) : Decidable (GoodEntry w t k) := by
  unfold GoodEntry; infer_instance

theorem parseLine_entry (c : Container) (w : Bool) (t : Datatype) (k v : Str)
    (hk : RepKey k) (hv : RepValue v) :
    parseLine c (entryLine w t k v) =
      if GoodEntry w t k then some (c.setValue k v (if w then t else .undef)) else none := by
  cases w with
  | false =>
    have : entryLine false t k v = k ++ [' ', '=', ' '] ++ v := by simp [entryLine]
    rw [this, parseLine_untyped c k v hk hv]
    simp [GoodEntry]
  | true =>
    by_cases ht : t = .undef
    · subst ht
      have : entryLine true .undef k v = k ++ [' ', '=', ' '] ++ v := by simp [entryLine]
      rw [this, parseLine_untyped c k v hk hv]
      simp [GoodEntry]
    · have : entryLine true t k v = k ++ ['['] ++ type2String t ++ [']', ' ', '=', ' '] ++ v := by
        simp [entryLine, ht]
      rw [this, parseLine_typed c k v t hk hv ht]
      simp [GoodEntry, ht]

theorem parseLoop_entries (w : Bool) (ty : Str → Datatype) (l : OMap Str Str) (c : Container)
    (n : Nat)
    (hl : ∀ p ∈ l, RepKey p.1 ∧ RepValue p.2 ∧ (writeEntry w (ty p.1) p.1 p.2).length ≤ maxLineLength) :
    parseLoop none (l.length + 1 + n)
      { rest := l.flatMap (fun p => writeEntry w (ty p.1) p.1 p.2), eof := false, fail := false } c
    = if ∀ p ∈ l, GoodEntry w (ty p.1) p.1
      then .done (l.foldl (fun c p => c.setValue p.1 p.2 (if w then ty p.1 else .undef)) c)
      else .threw := by
  induction l generalizing c with
  | nil =>
    simp only [List.length_nil, List.flatMap_nil]
    rw [show 0 + 1 + n = n + 1 by omega]
    unfold parseLoop
    simp only [Bool.false_eq_true, if_false]
    have h1 : getline maxLineLength { rest := [], eof := false, fail := false }
        = ([], { rest := [], eof := true, fail := true }) := rfl
    rw [h1]
    have h2 : parseLine c (assignCStr []) = some c := rfl
    simp only [h2]
    cases n <;> simp [parseLoop]
  | cons p r ih =>
    obtain ⟨k, v⟩ := p
    obtain ⟨hk, hv, hlen⟩ := hl (k, v) List.mem_cons_self
    have hr : ∀ p ∈ r, RepKey p.1 ∧ RepValue p.2 ∧
        (writeEntry w (ty p.1) p.1 p.2).length ≤ maxLineLength :=
      fun p hp => hl p (List.mem_cons_of_mem _ hp)
    have hclean := entryLine_clean w (ty k) k v hk hv
    rw [show ((k, v) :: r).length + 1 + n = (r.length + 1 + n) + 1 by simp; omega]
    unfold parseLoop
    simp only [Bool.false_eq_true, if_false, List.flatMap_cons]
    rw [writeEntry_eq]
    simp only [List.append_assoc, List.singleton_append]
    rw [getline_line _ _ (fun h => (hclean _ h).1 rfl) (by
      rw [writeEntry_eq] at hlen; simp at hlen; omega)]
    simp only [assignCStr_clean _ (fun c hc => (hclean c hc).2)]
    rw [parseLine_entry c w (ty k) k v hk hv]
    by_cases hg : GoodEntry w (ty k) k
    · rw [if_pos hg]
      simp only [reduceCtorEq, if_false, List.foldl_cons]
      rw [ih _ hr]
      simp only [List.forall_mem_cons, hg, true_and]
    · rw [if_neg hg]
      simp [hg]

theorem foldl_setValue_params (f : Str × Str → Datatype) (l : OMap Str Str) (c : Container) :
    (l.foldl (fun c p => c.setValue p.1 p.2 (f p)) c).params = mergeLoop c.params l := by
  unfold mergeLoop
  induction l generalizing c with
  | nil => rfl
  | cons p r ih => simp only [List.foldl_cons]; rw [ih]; rfl

theorem foldl_setValue_types (f : Str → Datatype) (l : OMap Str Str) (c : Container) (k : Str)
    (hl : OMap.Sorted l) :
    OMap.find k (l.foldl (fun c p => c.setValue p.1 p.2 (f p.1)) c).types =
      if (OMap.find k l).isSome then some (f k) else OMap.find k c.types := by
  induction l generalizing c with
  | nil => simp [OMap.find]
  | cons p r ih =>
    obtain ⟨kp, vp⟩ := p
    have h1 := List.pairwise_cons.1 hl
    simp only [List.foldl_cons]
    rw [ih _ h1.2]
    simp only [Container.setValue, find_ins, OMap.find]
    by_cases hk : k = kp
    · subst hk
      have : OMap.find k r = none := OMap.find_none_of_lt h1.1
      simp [this]
    · simp [hk]

/-- **C02** (untyped text form, the default of `Write`/`WriteToFile`): every representable container
is read back with the same keys and values, by whatever container reads it. -/
theorem C02_untyped_roundtrip (h : Hist) (d : Container) (hr : Representable h.run false) :
    ∃ c' n, (∀ m, d.parse (h.run.write false) none (n + m) = .done c') ∧
      (∀ k, c'.getString k = h.run.getString k) ∧ c'.size = h.run.size := by
  have hs := h.sorted.1
  refine ⟨h.run.params.foldl (fun c p => c.setValue p.1 p.2 .undef) d.clear, h.run.params.length + 1, ?_, ?_, ?_⟩
  · intro m
    have := parseLoop_entries false h.run.getType h.run.params d.clear m hr
    rw [if_pos (by intro p _; exact Or.inl rfl)] at this
    exact this
  · intro k
    unfold Container.getString
    rw [foldl_setValue_params (fun _ => .undef), find_mergeLoop hs]
    simp [Container.clear, OMap.find]
  · unfold Container.size
    rw [foldl_setValue_params (fun _ => .undef)]
    congr 1
    apply OMap.ext (sorted_mergeLoop OMap.sorted_nil) hs
    intro k
    rw [find_mergeLoop hs]
    simp [Container.clear, OMap.find]

/-- **C02** (typed text form): the container is read back with the same values and types if every
typed key is exactly as long as the name of its type; otherwise reading throws. -/
theorem C02_typed_roundtrip_partial (h : Hist) (d : Container) (hr : Representable h.run true) :
    ((∀ p ∈ h.run.params, h.run.getType p.1 = .undef ∨
        p.1.length = (type2String (h.run.getType p.1)).length) →
      ∃ c' n, (∀ m, d.parse (h.run.write true) none (n + m) = .done c') ∧
        (∀ k, c'.getString k = h.run.getString k) ∧
        (∀ k, (h.value k).isSome → c'.getType k = h.run.getType k)) ∧
    ((∃ p ∈ h.run.params, h.run.getType p.1 ≠ .undef ∧
        p.1.length ≠ (type2String (h.run.getType p.1)).length) →
      ∃ n, ∀ m, d.parse (h.run.write true) none (n + m) = .threw) := by
  have hs := h.sorted.1
  constructor
  · intro hg
    have hg' : ∀ p ∈ h.run.params, GoodEntry true (h.run.getType p.1) p.1 := by
      intro p hp
      rcases hg p hp with h1 | h1
      · exact Or.inr (Or.inl h1)
      · exact Or.inr (Or.inr h1)
    refine ⟨h.run.params.foldl (fun c p => c.setValue p.1 p.2 (h.run.getType p.1)) d.clear,
      h.run.params.length + 1, ?_, ?_, ?_⟩
    · intro m
      have := parseLoop_entries true h.run.getType h.run.params d.clear m hr
      rw [if_pos hg'] at this
      exact this
    · intro k
      unfold Container.getString
      rw [foldl_setValue_params (fun p => h.run.getType p.1),
        find_mergeLoop hs]
      simp [Container.clear, OMap.find]
    · intro k hk
      rw [← h.find_params] at hk
      have h2 := foldl_setValue_types h.run.getType
        h.run.params d.clear k hs
      rw [if_pos hk] at h2
      rw [getType_eq, h2]
      rfl
  · rintro ⟨p, hp, h1, h2⟩
    refine ⟨h.run.params.length + 1, ?_⟩
    intro m
    have := parseLoop_entries true h.run.getType h.run.params d.clear m hr
    rw [if_neg ?_] at this
    · exact this
    · intro hall
      rcases hall p hp with h3 | h3 | h3
      · cases h3
      · exact h1 h3
      · exact h2 h3

theorem Trimmed.of_check {s : Str}
    (h : s.head?.all (fun c => !isWs c) = true ∧ s.getLast?.all (fun c => !isWs c) = true) :
    Trimmed s := by
  constructor
  · intro c r e
    subst e
    simpa using h.1
  · intro c r e
    subst e
    simpa using h.2

theorem RepKey.of_check {s : Str}
    (h : s ≠ [] ∧ (s.head?.all (fun c => !isWs c) = true ∧ s.getLast?.all (fun c => !isWs c) = true) ∧
      (∀ c ∈ s, c ≠ '=' ∧ c ≠ '[' ∧ c ≠ ']' ∧ c ≠ '\n' ∧ c ≠ Char.ofNat 0) ∧ s.head? ≠ some '#') :
    RepKey s := by
  refine ⟨h.1, Trimmed.of_check h.2.1, h.2.2.1, ?_⟩
  intro r e
  subst e
  exact h.2.2.2 rfl

/-- **C02** as stated is violated: a container holding the single typed entry `mass[int] = 1` cannot
be read back from its own text form. -/
theorem C02_violated : ∃ h : Hist, Representable h.run true ∧
    ∀ d : Container, ∃ n, ∀ m, d.parse (h.run.write true) none (n + m) = .threw := by
  have hrep : Representable (Hist.set .new ['m', 'a', 's', 's'] ['1'] .int).run true := by
    intro p hp
    have : p = (['m', 'a', 's', 's'], ['1']) := by
      have hp' : p ∈ [(['m', 'a', 's', 's'], ['1'])] := hp
      simpa using hp'
    subst this
    exact ⟨RepKey.of_check (by decide), ⟨Trimmed.of_check (by decide), by decide⟩, by decide⟩
  refine ⟨_, hrep, ?_⟩
  intro d
  refine (C02_typed_roundtrip_partial _ d hrep).2 ⟨(['m', 'a', 's', 's'], ['1']), ?_, by decide, by decide⟩
  decide

/-- Non-vacuity of the hypotheses of the C02 theorems: a container with a typed entry (read back by
both forms) and the text produced for it. -/
example :
    let h := Hist.set .new ['f', 'o', 'o'] ['1', ' ', '=', '3'] .int
    Representable h.run true ∧ Representable h.run false ∧
    (∀ p ∈ h.run.params, h.run.getType p.1 = .undef ∨
        p.1.length = (type2String (h.run.getType p.1)).length) ∧
    h.run.write true = "foo[int] = 1 =3\n".toList ∧ h.run.write false = "foo = 1 =3\n".toList := by
  have hmem : ∀ p ∈ (Hist.set .new ['f', 'o', 'o'] ['1', ' ', '=', '3'] .int).run.params,
      p = (['f', 'o', 'o'], ['1', ' ', '=', '3']) := by
    intro p hp
    have hp' : p ∈ [(['f', 'o', 'o'], ['1', ' ', '=', '3'])] := hp
    simpa using hp'
  refine ⟨?_, ?_, by decide, by decide, by decide⟩
  · intro p hp
    rw [hmem p hp]
    exact ⟨RepKey.of_check (by decide), ⟨Trimmed.of_check (by decide), by decide⟩, by decide⟩
  · intro p hp
    rw [hmem p hp]
    exact ⟨RepKey.of_check (by decide), ⟨Trimmed.of_check (by decide), by decide⟩, by decide⟩

/-! ## C60: meaning of a line -/

/-- A string of blanks and tabs. -/
def Blank (w : Str) : Prop := ∀ c ∈ w, c = ' ' ∨ c = '\t'

theorem Blank.isWs {w : Str} (h : Blank w) : ∀ c ∈ w, isWs c = true := by
  intro c hc
  rcases h c hc with h | h <;> subst h <;> decide

theorem parseLine_general (c : Container) (w₁ k w₂ w₃ v w₄ : Str) (h₁ : Blank w₁) (h₂ : Blank w₂)
    (h₃ : Blank w₃) (h₄ : Blank w₄) (hk : Trimmed k) (hkn : k ≠ [])
    (hkc : ∀ x ∈ k, x ≠ '=' ∧ x ≠ '[') (hv : Trimmed v) (hvn : v ≠ []) :
    parseLine c (w₁ ++ k ++ w₂ ++ '=' :: (w₃ ++ v ++ w₄)) =
      if k.head? = some '#' then some c else some (c.setValue k v .undef) := by
  unfold parseLine
  have hne : ∀ w, Blank w → ∀ x ∈ w, x ≠ '=' := by
    intro w hw x hx
    rcases hw x hx with h | h <;> subst h <;> decide
  have h1 : findFirst (fun ch => ch = '=') (w₁ ++ k ++ w₂ ++ '=' :: (w₃ ++ v ++ w₄))
      = some (w₁ ++ k ++ w₂).length := by
    apply findFirst_append_of_not (p := fun ch => decide (ch = '='))
    · intro x hx
      simp only [List.mem_append] at hx
      rcases hx with (hx | hx) | hx
      · simpa using hne w₁ h₁ x hx
      · simpa using (hkc x hx).1
      · simpa using hne w₂ h₂ x hx
    · simp
  rw [h1]
  have h2 : (w₁ ++ k ++ w₂ ++ '=' :: (w₃ ++ v ++ w₄)).take (w₁ ++ k ++ w₂).length = w₁ ++ k ++ w₂ :=
    List.take_left' rfl
  have h3 : (w₁ ++ k ++ w₂ ++ '=' :: (w₃ ++ v ++ w₄)).drop ((w₁ ++ k ++ w₂).length + 1)
      = w₃ ++ v ++ w₄ := by
    rw [← List.drop_drop, List.drop_left' rfl]; rfl
  simp only [h2, h3]
  rw [trim_ws w₁ w₂ k h₁.isWs h₂.isWs hk hkn, trim_ws w₃ w₄ v h₃.isWs h₄.isWs hv hvn]
  have h5 : extractType k = some (k, .undef) := by
    unfold extractType
    rw [findFirst_none]
    intro x hx
    simpa using (hkc x hx).2
  rw [h5]
  have h6 : k.isEmpty = false := by simpa using hkn
  by_cases hh : k.head? = some '#'
  · obtain ⟨r, rfl⟩ : ∃ r, k = '#' :: r := by
      cases k with
      | nil => simp at hh
      | cons x r => simp at hh; exact ⟨r, by rw [hh]⟩
    have h7 : findFirst (fun ch => ch = '#') ('#' :: r) = some 0 := by
      simp [findFirst, List.findIdx?_cons]
    simp [h7]
  · have h7 : findFirst (fun ch => ch = '#') k ≠ some 0 :=
      not_comment (by rintro r rfl; simp at hh)
    simp [h6, h7, hh]

/-- **C60**: a line `key = value`, with any amount of blanks around key and value, stores exactly that
value under that key; a line whose key starts with `#`, and a line without an equals sign, change
nothing. -/
theorem C60_line (c : Container) :
    (∀ w₁ k w₂ w₃ v w₄ : Str, Blank w₁ → Blank w₂ → Blank w₃ → Blank w₄ → RepKey k → RepValue v →
      v ≠ [] → ∃ c', parseLine c (w₁ ++ k ++ w₂ ++ '=' :: (w₃ ++ v ++ w₄)) = some c' ∧
        c'.getString k = (true, v) ∧ c'.getType k = .undef ∧
        ∀ k', k' ≠ k → c'.getString k' = c.getString k' ∧ c'.getType k' = c.getType k') ∧
    (∀ w₁ k w₂ w₃ v w₄ : Str, Blank w₁ → Blank w₂ → Blank w₃ → Blank w₄ → Trimmed ('#' :: k) →
      (∀ x ∈ k, x ≠ '=' ∧ x ≠ '[') → Trimmed v → v ≠ [] →
      parseLine c (w₁ ++ ('#' :: k) ++ w₂ ++ '=' :: (w₃ ++ v ++ w₄)) = some c) ∧
    (∀ s : Str, '=' ∉ s → parseLine c s = some c) := by
  refine ⟨?_, ?_, ?_⟩
  · intro w₁ k w₂ w₃ v w₄ h₁ h₂ h₃ h₄ hk hv hvn
    refine ⟨c.setValue k v .undef, ?_, ?_, ?_, ?_⟩
    · rw [parseLine_general c w₁ k w₂ w₃ v w₄ h₁ h₂ h₃ h₄ hk.trimmed hk.ne
        (fun x hx => ⟨(hk.clean x hx).1, (hk.clean x hx).2.1⟩) hv.trimmed hvn, if_neg]
      intro hh
      cases k with
      | nil => simp at hh
      | cons x r => simp at hh; exact hk.noComment r (by rw [hh])
    · simp [Container.getString, Container.setValue, find_ins]
    · simp [Container.getType, Container.setValue, find_ins]
    · intro k' hne
      simp [Container.getString, Container.getType, Container.setValue, find_ins, hne]
  · intro w₁ k w₂ w₃ v w₄ h₁ h₂ h₃ h₄ hk hkc hv hvn
    rw [parseLine_general c w₁ ('#' :: k) w₂ w₃ v w₄ h₁ h₂ h₃ h₄ hk (by simp) ?_ hv hvn]
    · simp
    · intro x hx
      rcases List.mem_cons.1 hx with h | h
      · subst h; decide
      · exact hkc x h
  · intro s hs
    unfold parseLine
    rw [findFirst_none]
    intro x hx
    simp only [decide_eq_false_iff_not]
    rintro rfl
    exact hs hx

example : Blank [' ', '\t'] ∧ RepKey ['m', '1'] ∧ RepValue ['1', ' ', '2'] ∧
    Trimmed ['#', ' ', 'm'] :=
  ⟨by intro c hc; simpa using hc, RepKey.of_check (by decide),
    ⟨Trimmed.of_check (by decide), by decide⟩, Trimmed.of_check (by decide)⟩

/-! ## C05 -/

/-- **C05** (partial): parsing ends, by the end of input or by an exception, for every text all of
whose lines fit the line buffer. -/
theorem C05_terminates_partial (d : Container) (lines : List Str) (last : Str)
    (hl : ∀ l ∈ lines, '\n' ∉ l ∧ l.length < maxLineLength)
    (hlast : '\n' ∉ last ∧ last.length < maxLineLength) (stop : Option Str) :
    ∃ n, d.parse (lines.flatMap (fun l => l ++ ['\n']) ++ last) stop n ≠ .running := by
  refine ⟨lines.length + 1, ?_⟩
  unfold Container.parse
  generalize d.clear = c
  induction lines generalizing c with
  | nil =>
    simp only [List.flatMap_nil, List.nil_append, List.length_nil, Nat.zero_add]
    unfold parseLoop
    simp only [Bool.false_eq_true, if_false]
    have h1 : ∃ f, getline maxLineLength { rest := last, eof := false, fail := false }
        = (last, { rest := [], eof := true, fail := f }) := by
      unfold getline
      simp only [Bool.or_self, Bool.false_eq_true, if_false]
      rw [getlineLoop_last last _ hlast.1 (by omega)]
      exact ⟨_, rfl⟩
    obtain ⟨f, h1⟩ := h1
    rw [h1]
    simp only
    split
    · simp
    · split
      · simp
      · simp [parseLoop]
  | cons l r ih =>
    have hl1 := hl l List.mem_cons_self
    have ih := ih (fun l hl' => hl l (List.mem_cons_of_mem _ hl'))
    have e : (l :: r).flatMap (fun l => l ++ ['\n']) ++ last
        = l ++ '\n' :: (r.flatMap (fun l => l ++ ['\n']) ++ last) := by simp
    rw [e, List.length_cons]
    unfold parseLoop
    simp only [Bool.false_eq_true, if_false]
    rw [getline_line l _ hl1.1 hl1.2]
    simp only
    split
    · simp
    · split
      · simp
      · rename_i c' _
        exact ih c'

/-- **C05** is violated: if some line has 2048 characters or more and the lines before it do not make
the parser stop or throw, parsing never ends. -/
theorem C05_violated (d : Container) (long rest : Str) (hl : '\n' ∉ long)
    (hlen : maxLineLength ≤ long.length)
    (hfirst : parseLine d.clear (assignCStr (getline maxLineLength
      { rest := long ++ rest, eof := false, fail := false }).1) ≠ none) :
    ∀ n, d.parse (long ++ rest) none n = .running := by
  intro n
  unfold Container.parse
  cases n with
  | zero => rfl
  | succ n =>
    unfold parseLoop
    simp only [Bool.false_eq_true, if_false]
    have h1 := getlineLoop_overlong long rest (maxLineLength - 1) hl (by
      unfold maxLineLength at *; omega)
    have h2 : (getline maxLineLength { rest := long ++ rest, eof := false, fail := false }).2
        = { rest := (getline maxLineLength { rest := long ++ rest, eof := false, fail := false }).2.rest,
            eof := false, fail := true } := by
      unfold getline
      simp [h1.1, h1.2]
    generalize getline maxLineLength { rest := long ++ rest, eof := false, fail := false } = g at h2 hfirst
    obtain ⟨line, st⟩ := g
    simp only at h2 hfirst ⊢
    cases hp : parseLine d.clear (assignCStr line) with
    | none => exact absurd hp hfirst
    | some c' =>
      simp only [reduceCtorEq, if_false]
      rw [h2]
      exact parseLoop_stuck n _ c'

theorem getlineLoop_fst_mem (n : Nat) (s : Str) : ∀ c ∈ (getlineLoop n s).1, c ∈ s := by
  induction s generalizing n with
  | nil => intro c hc; cases n <;> simp [getlineLoop] at hc
  | cons x r ih =>
    intro c hc
    cases n with
    | zero =>
      unfold getlineLoop at hc
      split at hc <;> simp at hc
    | succ n =>
      unfold getlineLoop at hc
      split at hc
      · simp at hc
      · simp at hc
        rcases hc with hc | hc
        · subst hc; exact List.mem_cons_self
        · exact List.mem_cons_of_mem _ (ih n c hc)

/-- The hypotheses of `C05_violated` are met, for instance by any line of at least 2048 letters. -/
theorem C05_violated_witness (d : Container) (len : Nat) (hlen : 2048 ≤ len) :
    ∀ n, d.parse (List.replicate len 'a') none n = .running := by
  have hmem : ∀ x ∈ List.replicate len 'a', x = 'a' := fun x h => List.eq_of_mem_replicate h
  have hl : 2048 ≤ (List.replicate len 'a').length := by rw [List.length_replicate]; exact hlen
  generalize List.replicate len 'a' = s at hmem hl
  have := C05_violated d s [] ?_ hl ?_
  · rw [List.append_nil] at this
    exact this
  · intro h
    exact absurd (hmem _ h) (by decide)
  · unfold parseLine
    rw [findFirst_none]
    · simp
    · intro x hx
      unfold assignCStr at hx
      have hx := List.takeWhile_subset _ hx
      unfold getline at hx
      simp only [Bool.or_self, Bool.false_eq_true, if_false] at hx
      have := getlineLoop_fst_mem _ _ x hx
      rw [List.append_nil] at this
      have := hmem _ this
      subst this
      decide

example : (∀ l ∈ (["a = 1".toList] : List Str), '\n' ∉ l ∧ l.length < maxLineLength) := by decide

end QDng.Params
