import Mathlib.Data.List.Forall2
import Verif.PNum.Lemmas

/-
Properties C283 to C286: numbers, arrays and files of parameter containers.
-/

namespace QDng.PNum

open QDng QDng.Common QDng.Params Spec

/-! ## C283 -/

/-- **C283**: an integer that is put into a container is found again by a variable of any integer type that can hold it,
whatever the variable and the container held before. -/
theorem C283_roundtrip (c : Container) (name : Str) (k k' : Kind) (v : Int) (hv : holds k' v) (old : Option Int) :
    getNum k' (setNum k c name v) name old = .val (true, some v) := by
  unfold getNum setNum
  rw [find_setValue, if_pos rfl]
  obtain ⟨neg, n, e, hn⟩ := convert_showInt v
  simp only [e, store_holds hv hn]

/-- **C283**: the text stored is the decimal notation of the number, and all other entries are untouched. -/
theorem C283_others (c : Container) (name : Str) (k : Kind) (v : Int) :
    (∃ s, (setNum k c name v).getString name = (true, s) ∧ notation' s v) ∧
    ∀ other, other ≠ name → (setNum k c name v).getString other = c.getString other ∧
      ∀ k' old, getNum k' (setNum k c name v) other old = getNum k' c other old := by
  refine ⟨⟨FileSeq.showInt v, ?_, showInt_notation v⟩, ?_⟩
  · rw [getString_eq]; unfold setNum; rw [find_setValue, if_pos rfl]
  · intro other ho
    have : OMap.find other (setNum k c name v).params = OMap.find other c.params := by
      unfold setNum; rw [find_setValue, if_neg ho]
    refine ⟨?_, ?_⟩
    · rw [getString_eq, getString_eq, this]
    · intro k' old
      unfold getNum; rw [this]

example : holds .int (-2147483648) ∧ holds .size 18446744073709551615 ∧ ¬ holds .int 2147483648 ∧ ¬ holds .uint (-1) := by
  unfold holds; decide

/-! ## C284 -/

/-- **C284** (part): an entry that begins, after white space, with an integer in decimal notation gives this number if the
variable can hold it; an entry that does not exist is reported and gives zero.  Missing for the full claim: entries that are
not numbers are to be rejected, see the `violated` theorems. -/
theorem C284_number_partial (c : Container) (name : Str) (k : Kind) (old : Option Int) :
    (∀ w t rest v, c.getString name = (true, w ++ t ++ rest) → blank w → notation' t v → noDigitNext rest →
      holds k v → getNum k c name old = .val (true, some v)) ∧
    (c.isPresent name = false → getNum k c name old = .val (false, some 0)) := by
  constructor
  · intro w t rest v hs hw ht hr hv
    rw [getString_eq] at hs
    unfold getNum
    cases hf : OMap.find name c.params with
    | none => rw [hf] at hs; simp at hs
    | some s =>
      rw [hf] at hs
      simp only [Prod.mk.injEq, true_and] at hs
      obtain ⟨neg, n, e, hn⟩ := convert_notation hw ht hr
      simp only [hs, e, store_holds hv hn]
  · intro hp
    unfold Container.isPresent at hp
    unfold getNum
    cases hf : OMap.find name c.params with
    | none => rfl
    | some s => rw [hf] at hp; simp at hp

/-- C284 is violated: whatever follows the digits is ignored without a report.  A number of steps given as `1e5` is
one step. -/
theorem C284_violated_rest (c : Container) (name rest : Str) (k : Kind) (t : Str) (v : Int) (old : Option Int)
    (ht : notation' t v) (hv : holds k v) (hr : noDigitNext rest)
    (hs : c.getString name = (true, t ++ rest)) : getNum k c name old = .val (true, some v) :=
  (C284_number_partial c name k old).1 [] t rest v hs blank_nil ht hr hv

/-- C284 is violated: an entry that does not begin with a number is reported as found, and the variable keeps what it had;
if it was never set it still is not. -/
theorem C284_violated_text (c : Container) (name s : Str) (k : Kind) (old : Option Int)
    (hs : c.getString name = (true, s)) (hn : noNumber s) : getNum k c name old = .val (true, old) := by
  rw [getString_eq] at hs
  unfold getNum
  cases hf : OMap.find name c.params with
  | none => rw [hf] at hs; simp at hs
  | some s' =>
    rw [hf] at hs
    simp only [Prod.mk.injEq, true_and] at hs
    simp only [hs, (convert_none s).2 hn]

/-- C284 is violated: a number that the variable cannot hold has an undefined effect (`int`, `long int`, and
`unsigned int` for numbers above minus two to the 63). -/
theorem C284_violated_range (c : Container) (name t : Str) (k : Kind) (v : Int) (old : Option Int) (hk : k ≠ .size)
    (hu : k = .uint → -2 ^ 63 ≤ v) (ht : notation' t v) (hv : ¬ holds k v) (hs : c.getString name = (true, t)) :
    getNum k c name old = .ub := by
  rw [getString_eq] at hs
  unfold getNum
  cases hf : OMap.find name c.params with
  | none => rw [hf] at hs; simp at hs
  | some s' =>
    rw [hf] at hs
    simp only [Prod.mk.injEq, true_and] at hs
    obtain ⟨neg, n, e, hn⟩ := convert_notation blank_nil ht noDigitNext_nil
    simp only [List.nil_append, List.append_nil] at e
    simp only [hs, e, store_out hv hk hn hu]

/-- C284 is violated: a negative number is accepted for a `size_t` and becomes a huge one. -/
theorem C284_violated_negative (c : Container) (name t : Str) (v : Int) (old : Option Int) (ht : notation' t v)
    (h0 : v < 0) (h1 : -2 ^ 63 ≤ v) (hs : c.getString name = (true, t)) :
    getNum .size c name old = .val (true, some (2 ^ 64 + v)) := by
  rw [getString_eq] at hs
  unfold getNum
  cases hf : OMap.find name c.params with
  | none => rw [hf] at hs; simp at hs
  | some s' =>
    rw [hf] at hs
    simp only [Prod.mk.injEq, true_and] at hs
    obtain ⟨neg, n, e, hn⟩ := convert_notation blank_nil ht noDigitNext_nil
    simp only [List.nil_append, List.append_nil] at e
    have : store .size neg n = some (2 ^ 64 + v) := by
      cases neg
      · simp only [Bool.false_eq_true, if_false] at hn; omega
      · simp only [if_true] at hn
        simp only [store, if_true]
        rw [if_pos (by omega)]
        congr 1
        omega
    simp only [hs, e, this]

/-- The texts of the theorems exist: ` -12` is a number behind white space, `1e5` is one followed by something else, `ten`
is none, `3000000000` does not fit into an `int`, `-1` not into an unsigned type. -/
example :
    (blank [' '] ∧ notation' ['-', '1', '2'] (-12) ∧ holds .int (-12)) ∧
    (notation' ['1'] 1 ∧ noDigitNext ['e', '5'] ∧
      getNum .int (Container.empty.setValue ['s'] ['1', 'e', '5'] .undef) ['s'] none = .val (true, some 1)) ∧
    (noNumber ['t', 'e', 'n'] ∧
      getNum .int (Container.empty.setValue ['s'] ['t', 'e', 'n'] .undef) ['s'] none = .val (true, none)) ∧
    (notation' ['3', '0', '0', '0', '0', '0', '0', '0', '0', '0'] 3000000000 ∧ ¬ holds .int 3000000000) ∧
    notation' ['-', '1'] (-1) := by
  refine ⟨⟨?_, ⟨['1', '2'], 12, ?_, ?_⟩, ?_⟩, ⟨⟨['1'], 1, ?_, ?_⟩, ?_, ?_⟩, ⟨?_, ?_⟩,
    ⟨⟨['3', '0', '0', '0', '0', '0', '0', '0', '0', '0'], 3000000000, ?_, ?_⟩, ?_⟩, ⟨['1'], 1, ?_, ?_⟩⟩
  · unfold blank; decide
  · unfold decimal digitChar; decide
  · decide
  · unfold holds; decide
  · unfold decimal digitChar; decide
  · decide
  · intro c r h
    cases h
    unfold digitChar; decide
  · decide
  · rw [← convert_none]; decide
  · decide
  · unfold decimal digitChar; decide
  · decide
  · unfold holds; decide
  · unfold decimal digitChar; decide
  · decide

/-! ## C285 -/

/-- **C285** (part): a non empty array of integers is read back, by any integer type that can hold its elements, behind
what the array that receives it held; an array that does not exist is reported and nothing is appended.  Missing for the full
claim: the empty array. -/
theorem C285_ints_partial (c : Container) (name : Str) (k k' : Kind) (l a : List Int) :
    (l ≠ [] → (∀ v ∈ l, holds k' v) → getNums k' (setNums k c name l) name a = .val (true, a ++ l)) ∧
    (c.isPresent name = false → getNums k' c name a = .val (false, a)) := by
  constructor
  · intro hl h
    have h1 := C04_array_roundtrip c name (l.map FileSeq.showInt) (tag k) (by simpa using hl) (by
      intro x hx
      obtain ⟨v, -, rfl⟩ := List.mem_map.1 hx
      exact showInt_no_comma v)
    unfold Container.getArray at h1
    unfold getNums setNums
    cases hg : (c.setArray name (l.map FileSeq.showInt) (tag k)).getString name with
    | mk b s =>
      rw [hg] at h1
      cases b
      · cases h1
      · simp only [Option.some.injEq] at h1
        simp only [h1, readNums_show k' l a h]
  · intro hp
    unfold Container.isPresent at hp
    unfold getNums
    rw [getString_eq]
    cases hf : OMap.find name c.params with
    | none => rfl
    | some s => rw [hf] at hp; simp at hp

/-- **C285** (part): the same for truth values. -/
theorem C285_bools_partial (c : Container) (name : Str) (l a : List Bool) (hl : l ≠ []) :
    getBools (setBools c name l) name a = (true, a ++ l) := by
  have h1 := C04_array_roundtrip c name (l.map (fun b => if b then ['t', 'r', 'u', 'e'] else ['f', 'a', 'l', 's', 'e']))
    .bool (by simpa using hl) (by
      intro x hx
      obtain ⟨v, -, rfl⟩ := List.mem_map.1 hx
      cases v <;> decide)
  unfold Container.getArray at h1
  unfold getBools setBools
  cases hg : (c.setArray name (l.map (fun b => if b then ['t', 'r', 'u', 'e'] else ['f', 'a', 'l', 's', 'e']))
      .bool).getString name with
  | mk b s =>
    rw [hg] at h1
    cases b
    · cases h1
    · simp only [Option.some.injEq] at h1
      simp only [h1, List.map_map]
      congr 2
      conv_rhs => rw [← List.map_id l]
      apply List.map_congr_left
      intro b _
      cases b <;> decide

/-- **C285** (part): an array written by the user: as many numbers as there are elements between the commas, each the one
that its element begins with. -/
theorem C285_text_partial (c : Container) (name s : Str) (k : Kind) (parts : List Str) (l a : List Int)
    (hs : c.getArray name = some parts) (hp : c.getString name = (true, s))
    (h : List.Forall₂ (fun p v => (∃ w t rest, p = w ++ t ++ rest ∧ blank w ∧ notation' t v ∧ noDigitNext rest) ∧ holds k v)
      parts l) : getNums k c name a = .val (true, a ++ l) := by
  unfold Container.getArray at hs
  unfold getNums
  rw [hp] at hs ⊢
  simp only [Option.some.injEq] at hs
  simp only
  rw [hs, readNums_all k parts l a]
  refine List.Forall₂.imp ?_ h
  rintro p v ⟨⟨w, t, rest, rfl, hw, ht, hr⟩, hv⟩
  obtain ⟨neg, n, e, hn⟩ := convert_notation hw ht hr
  exact ⟨neg, n, e, store_holds hv hn⟩

/-- C285 is violated: reading an empty array of integers back is undefined (one element without a value appears), and an
empty array of truth values comes back with one element. -/
theorem C285_violated_empty (c : Container) (name : Str) (k k' : Kind) (a : List Int) (b : List Bool) :
    getNums k' (setNums k c name []) name a = .ub ∧ getBools (setBools c name []) name b = (true, b ++ [false]) := by
  constructor
  · have h1 := C04_empty_array c name (tag k)
    unfold Container.getArray at h1
    unfold getNums setNums
    rw [List.map_nil]
    cases hg : (c.setArray name [] (tag k)).getString name with
    | mk b s =>
      rw [hg] at h1
      cases b
      · cases h1
      · simp only [Option.some.injEq] at h1
        simp only [h1]
        rfl
  · have h1 := C04_empty_array c name .bool
    unfold Container.getArray at h1
    unfold getBools setBools
    rw [List.map_nil]
    cases hg : (c.setArray name [] .bool).getString name with
    | mk b s =>
      rw [hg] at h1
      cases b
      · cases h1
      · simp only [Option.some.injEq] at h1
        simp only [h1]
        simp

/-- C285 is violated: an element that is not a number has an undefined effect. -/
theorem C285_violated_text (c : Container) (name s p : Str) (k : Kind) (parts : List Str) (a : List Int)
    (hs : c.getArray name = some parts) (hg : c.getString name = (true, s)) (hp : p ∈ parts) (hn : noNumber p) :
    getNums k c name a = .ub := by
  unfold Container.getArray at hs
  unfold getNums
  rw [hg] at hs ⊢
  simp only [Option.some.injEq] at hs
  simp only
  rw [hs, readNums_ub k parts p a hp hn]

/-- **C285** (part): an array of characters gets one character for each element, the first one of it. -/
theorem C285_chars_partial (c : Container) (name : Str) (parts : List Str) (a : List Char) (hs : c.getArray name = some parts) :
    ∃ l, getChars c name a = (true, a ++ l) ∧ List.Forall₂ (fun p ch => p ≠ [] → ∃ r, p = ch :: r) parts l := by
  unfold Container.getArray at hs
  unfold getChars
  cases hg : c.getString name with
  | mk b s =>
    rw [hg] at hs
    cases b
    · cases hs
    · simp only [Option.some.injEq] at hs
      simp only
      rw [hs]
      refine ⟨_, rfl, ?_⟩
      clear hs
      induction parts with
      | nil => exact List.Forall₂.nil
      | cons p parts ih =>
        refine List.Forall₂.cons ?_ ih
        intro hp
        cases p with
        | nil => exact absurd rfl hp
        | cons x r => exact ⟨r, rfl⟩

example : (∀ v ∈ ([0, -5, 2147483647] : List Int), holds .int v) ∧
    getNums .int (Container.empty.setValue ['s'] ['1', ',', ' ', '-', '2'] .undef) ['s'] [7] = .val (true, [7, 1, -2]) ∧
    getNums .uint (Container.empty.setValue ['s'] ['1', ',', 'x'] .undef) ['s'] [] = .ub ∧
    getChars (Container.empty.setValue ['s'] ['a', 'b', ',', 'c'] .undef) ['s'] [] = (true, ['a', 'c']) := by
  refine ⟨?_, by decide, by decide, by decide⟩
  intro v hv
  simp only [List.mem_cons, List.not_mem_nil, or_false] at hv
  rcases hv with h | h | h <;> subst h <;> (unfold holds; decide)

/-! ## C286 -/

/-- **C286** (part): on a file that can be opened for writing, the call reports success just if the whole text is in the
file, and touches no other file; a container read from a file written this way has the same entries.  A file that is missing is
reported and leaves the container as it was.  Missing for the full claim: the report of a file that cannot be opened for
writing, and the reading of files that cannot be written. -/
theorem C286_partial (h : Hist) (d : Disk) (name : Str) (hw : (d.access name).writes = true) :
    (∀ ty, ((writeToFile h.run d name ty).2 = true ↔
        (writeToFile h.run d name ty).1.files name = some (h.run.write ty)) ∧
      (∀ other, other ≠ name → (writeToFile h.run d name ty).1.files other = d.files other) ∧
      ((d.access name).room = none → (writeToFile h.run d name ty).2 = true)) ∧
    ((writeToFile h.run d name false).2 = true → (d.access name).reads = true → Representable h.run false →
      ∀ c : Container, ∃ c' n, (∀ m, readFromFile c (writeToFile h.run d name false).1 name (n + m) = (true, .done c')) ∧
        ∀ k, c'.getString k = h.run.getString k) ∧
    (d.files name = none → ∀ (c : Container) fuel, readFromFile c d name fuel = (false, .done c)) := by
  have hsplit : ∀ ty, (writeToFile h.run d name ty).2 = true ↔
        (writeToFile h.run d name ty).1.files name = some (h.run.write ty) := by
    intro ty
    unfold writeToFile
    rw [if_pos hw]
    simp
  refine ⟨fun ty => ⟨hsplit ty, ?_, ?_⟩, ?_, ?_⟩
  · intro other ho
    unfold writeToFile
    rw [if_pos hw]
    simp [ho]
  · intro hr
    unfold writeToFile
    rw [if_pos hw]
    simp [taken, hr]
  · intro ht hr hrep c
    obtain ⟨c', n, h1, h2, -⟩ := C02_untyped_roundtrip h c hrep
    refine ⟨c', n, ?_, h2⟩
    intro m
    unfold readFromFile
    rw [(hsplit false).1 ht]
    have ha : (writeToFile h.run d name false).1.access = d.access := by
      unfold writeToFile; rw [if_pos hw]
    simp only [ha, hr, hw, and_self, if_true, h1 m]
  · intro hf c fuel
    unfold readFromFile
    rw [hf]

/-- C286 is violated: if the file cannot be opened for writing nothing is written, and the call reports success all the
same, for every container, name and form. -/
theorem C286_violated_write (c : Container) (d : Disk) (name : Str) (ty : Bool) (hw : (d.access name).writes = false) :
    writeToFile c d name ty = (d, true) := by
  unfold writeToFile
  rw [if_neg (by rw [hw]; simp)]

/-- C286 is violated: a file that exists and can be read is not read if it is write protected. -/
theorem C286_violated_read (c : Container) (d : Disk) (name text : Str) (fuel : Nat) (_hf : d.files name = some text)
    (_hr : (d.access name).reads = true) (hw : (d.access name).writes = false) :
    readFromFile c d name fuel = (false, .done c) := by
  unfold readFromFile
  rw [_hf]
  simp [hw]

/-- A disk with a writable file, a protected file and a device that is full: the outcomes differ. -/
example : ∃ d : Disk, (d.access ['w']).writes = true ∧ (d.access ['p']).writes = false ∧ (d.access ['p']).reads = true ∧
    d.files ['p'] = some ['a', '=', '1'] ∧
    (writeToFile (Hist.run (.set .new ['a'] ['1'] .int)) d ['w'] false).2 = true ∧
    (writeToFile (Hist.run (.set .new ['a'] ['1'] .int)) d ['f'] false).2 = false ∧
    (writeToFile (Hist.run (.set .new ['a'] ['1'] .int)) d ['p'] false).2 = true :=
  ⟨{ files := fun n => if n = ['p'] then some ['a', '=', '1'] else none,
     access := fun n => if n = ['p'] then ⟨true, false, none⟩ else if n = ['f'] then ⟨true, true, some 3⟩
       else ⟨true, true, none⟩ }, by decide, by decide, by decide, by decide, by decide, by decide, by decide⟩

end QDng.PNum
