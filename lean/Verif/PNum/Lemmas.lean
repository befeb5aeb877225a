import Mathlib.Data.List.Induction
import Mathlib.Data.List.TakeWhile
import Verif.PNum.Spec
import Verif.FileSeq.Props
import Verif.OpChain.Lemmas
import Verif.Params.Props

/-
Lemmas about numbers in parameter containers.
-/

namespace QDng.PNum

open QDng QDng.Common QDng.Params Spec

theorem isDigit_iff (c : Char) : isDigit c = true ↔ digitChar c := by
  constructor
  · intro h
    unfold isDigit at h
    rw [Bool.and_eq_true, decide_eq_true_eq, decide_eq_true_eq] at h
    have e : c = Char.ofNat c.toNat := (Char.ofNat_toNat c).symm
    have key : ∀ m, m < 10 → digitChar (Char.ofNat (48 + m)) := by unfold digitChar; decide
    have := key (c.toNat - 48) (by omega)
    rw [show 48 + (c.toNat - 48) = c.toNat from by omega] at this
    rw [e]; exact this
  · intro h
    unfold digitChar at h
    simp only [List.mem_cons, List.not_mem_nil, or_false] at h
    rcases h with h | h | h | h | h | h | h | h | h | h <;> subst h <;> decide

theorem isDigit_false (c : Char) : isDigit c = false ↔ ¬ digitChar c := by
  rw [← isDigit_iff, Bool.not_eq_true]

theorem isSpace_iff (c : Char) : isSpace c = true ↔ c ∈ [' ', '\t', '\n', '\r', Char.ofNat 11, Char.ofNat 12] := by
  simp [isSpace, or_assoc]

theorem isSpace_digit {c : Char} (h : digitChar c) : isSpace c = false := by
  unfold digitChar at h
  simp only [List.mem_cons, List.not_mem_nil, or_false] at h
  rcases h with h | h | h | h | h | h | h | h | h | h <;> subst h <;> decide

theorem digitsVal_ofDigits (s : Str) :
    digitsVal s = Nat.ofDigits 10 (s.reverse.map (fun c => c.toNat - '0'.toNat)) := by
  induction s using List.reverseRecOn with
  | nil => rfl
  | append_singleton s c ih =>
    rw [List.reverse_append]
    simp only [List.reverse_cons, List.reverse_nil, List.nil_append, List.cons_append, List.map_cons, Nat.ofDigits_cons]
    rw [← ih]
    simp only [digitsVal, List.foldl_append, List.foldl_cons, List.foldl_nil]
    have : '0'.toNat = 48 := by decide
    rw [this]
    omega

theorem decimal_val {s : Str} {n : Nat} (h : decimal s n) : digitsVal s = n := by rw [digitsVal_ofDigits]; exact h.2.2.symm

theorem takeWhile_digits (ds r : Str) (h : ∀ c ∈ ds, digitChar c) (hr : noDigitNext r) :
    (ds ++ r).takeWhile isDigit = ds := by
  induction ds with
  | nil =>
    cases r with
    | nil => rfl
    | cons c r => rw [List.nil_append, List.takeWhile_cons, (isDigit_false c).2 (hr c r rfl)]; rfl
  | cons c ds ih =>
    rw [List.cons_append, List.takeWhile_cons, (isDigit_iff c).2 (h c (by simp)), if_pos rfl,
      ih (fun d hd => h d (by simp [hd]))]

theorem dropWhile_blank (w t : Str) (hw : blank w) : (w ++ t).dropWhile isSpace = t.dropWhile isSpace := by
  induction w with
  | nil => rfl
  | cons c w ih =>
    rw [List.cons_append, List.dropWhile_cons, (isSpace_iff c).2 (hw c (by simp)), if_pos rfl,
      ih (fun d hd => hw d (by simp [hd]))]

theorem takeSign_digit {c : Char} (r : Str) (h : digitChar c) : takeSign (c :: r) = (false, c :: r) := by
  have h1 : c ≠ '-' := by rintro rfl; revert h; unfold digitChar; decide
  have h2 : c ≠ '+' := by rintro rfl; revert h; unfold digitChar; decide
  unfold takeSign
  split
  · rename_i e; exact absurd (List.cons.inj e).1 h1
  · rename_i e; exact absurd (List.cons.inj e).1 h2
  · rfl

/-- What is converted from a number in any notation. -/
theorem convert_notation {w t r : Str} {v : Int} (hw : blank w) (ht : notation' t v) (hr : noDigitNext r) :
    ∃ (neg : Bool) (n : Nat), convert (w ++ t ++ r) = some (neg, n) ∧ v = (if neg then -(n : Int) else n) := by
  obtain ⟨ds, n, hd, h⟩ := ht
  obtain ⟨c, ds', e⟩ := List.exists_cons_of_ne_nil hd.1
  have hc : digitChar c := hd.2.1 c (by rw [e]; simp)
  have htw := takeWhile_digits ds r hd.2.1 hr
  have hv := decimal_val hd
  rcases h with ⟨h, rfl⟩ | ⟨h, rfl⟩ | ⟨h, rfl⟩
  · refine ⟨false, n, ?_, by simp⟩
    unfold convert
    rw [List.append_assoc, dropWhile_blank _ _ hw, h]
    have e1 : (ds ++ r).dropWhile isSpace = ds ++ r := by
      rw [e, List.cons_append, List.dropWhile_cons, isSpace_digit hc]; rfl
    have e2 : takeSign (ds ++ r) = (false, ds ++ r) := by
      rw [e, List.cons_append]; exact takeSign_digit _ hc
    rw [e1, e2]
    simp only [htw]
    rw [if_neg hd.1, hv]
  · refine ⟨false, n, ?_, by simp⟩
    unfold convert
    rw [List.append_assoc, dropWhile_blank _ _ hw, h]
    have e1 : ('+' :: ds ++ r).dropWhile isSpace = '+' :: (ds ++ r) := by
      rw [List.cons_append, List.dropWhile_cons]; rfl
    rw [e1]
    simp only [takeSign, htw]
    rw [if_neg hd.1, hv]
  · refine ⟨true, n, ?_, by simp⟩
    unfold convert
    rw [List.append_assoc, dropWhile_blank _ _ hw, h]
    have e1 : ('-' :: ds ++ r).dropWhile isSpace = '-' :: (ds ++ r) := by
      rw [List.cons_append, List.dropWhile_cons]; rfl
    rw [e1]
    simp only [takeSign, htw]
    rw [if_neg hd.1, hv]

theorem takeSign_cases (s : Str) :
    (takeSign s = (true, s.tail) ∧ s = '-' :: s.tail) ∨ (takeSign s = (false, s.tail) ∧ s = '+' :: s.tail) ∨
      takeSign s = (false, s) := by
  unfold takeSign
  split
  · exact Or.inl ⟨rfl, rfl⟩
  · exact Or.inr (Or.inl ⟨rfl, rfl⟩)
  · exact Or.inr (Or.inr rfl)

theorem takeWhile_append_dropWhile' (p : Char → Bool) (s : Str) : s = s.takeWhile p ++ s.dropWhile p :=
  (List.takeWhile_append_dropWhile).symm

/-- Nothing is converted just if the text does not begin with a number. -/
theorem convert_none (s : Str) : convert s = none ↔ noNumber s := by
  constructor
  · rintro h ⟨w, t, rest, v, hw, ht, e⟩
    obtain ⟨ds, n, hd, ho⟩ := ht
    -- move the following digits into the number
    obtain ⟨n', ds', rest', h', hr', e'⟩ : ∃ (n' : Nat) (ds' rest' : Str), decimal ds' n' ∧ noDigitNext rest' ∧
        ds ++ rest = ds' ++ rest' := by
      refine ⟨digitsVal (ds ++ rest.takeWhile isDigit), ds ++ rest.takeWhile isDigit, rest.dropWhile isDigit,
        ⟨?_, ?_, ?_⟩, ?_, ?_⟩
      · intro h0
        exact hd.1 (List.append_eq_nil_iff.1 h0).1
      · intro c hc
        rcases List.mem_append.1 hc with hc | hc
        · exact hd.2.1 c hc
        · exact (isDigit_iff c).1 (List.mem_takeWhile_imp hc)
      · rw [digitsVal_ofDigits]
      · intro c r hcr hcd
        have := List.head?_dropWhile_not isDigit rest
        rw [hcr] at this
        simp only [List.head?_cons] at this
        rw [(isDigit_iff c).2 hcd] at this
        cases this
      · rw [List.append_assoc, List.takeWhile_append_dropWhile]
    rcases ho with ⟨h1, -⟩ | ⟨h1, -⟩ | ⟨h1, -⟩
    · obtain ⟨b, m, hm, -⟩ := convert_notation (v := n') hw ⟨ds', n', h', Or.inl ⟨rfl, rfl⟩⟩ hr'
      rw [e, h1, List.append_assoc, e', ← List.append_assoc, hm] at h
      cases h
    · obtain ⟨b, m, hm, -⟩ := convert_notation (v := n') hw ⟨ds', n', h', Or.inr (Or.inl ⟨rfl, rfl⟩)⟩ hr'
      rw [e, h1, List.append_assoc, List.cons_append, e', ← List.cons_append, ← List.append_assoc, hm] at h
      cases h
    · obtain ⟨b, m, hm, -⟩ := convert_notation (v := -n') hw ⟨ds', n', h', Or.inr (Or.inr ⟨rfl, rfl⟩)⟩ hr'
      rw [e, h1, List.append_assoc, List.cons_append, e', ← List.cons_append, ← List.append_assoc, hm] at h
      cases h
  · intro hn
    by_contra hc
    apply hn
    have hs := takeWhile_append_dropWhile' isSpace s
    generalize hu : s.dropWhile isSpace = u at hs
    have hw : blank (s.takeWhile isSpace) := fun c hc => (isSpace_iff c).1 (List.mem_takeWhile_imp hc)
    have hc' : convert s = (let ds := (takeSign u).2.takeWhile isDigit
        if ds = [] then none else some ((takeSign u).1, digitsVal ds)) := by unfold convert; rw [hu]
    rw [hc'] at hc
    simp only at hc
    have hne : (takeSign u).2.takeWhile isDigit ≠ [] := by
      intro h0; exact hc (if_pos h0)
    have hdec : ∀ q : Str, q.takeWhile isDigit ≠ [] → decimal (q.takeWhile isDigit) (digitsVal (q.takeWhile isDigit)) :=
      fun q hq => ⟨hq, fun c hc => (isDigit_iff c).1 (List.mem_takeWhile_imp hc), digitsVal_ofDigits _⟩
    rcases takeSign_cases u with ⟨h1, h2⟩ | ⟨h1, h2⟩ | h1
    · rw [h1] at hne
      refine ⟨_, '-' :: u.tail.takeWhile isDigit, u.tail.dropWhile isDigit, _, hw,
        ⟨_, _, hdec _ hne, Or.inr (Or.inr ⟨rfl, rfl⟩)⟩, ?_⟩
      rw [List.append_assoc, List.cons_append, List.takeWhile_append_dropWhile, ← h2]; exact hs
    · rw [h1] at hne
      refine ⟨_, '+' :: u.tail.takeWhile isDigit, u.tail.dropWhile isDigit, _, hw,
        ⟨_, _, hdec _ hne, Or.inr (Or.inl ⟨rfl, rfl⟩)⟩, ?_⟩
      rw [List.append_assoc, List.cons_append, List.takeWhile_append_dropWhile, ← h2]; exact hs
    · rw [h1] at hne
      refine ⟨_, u.takeWhile isDigit, u.dropWhile isDigit, _, hw, ⟨_, _, hdec _ hne, Or.inl ⟨rfl, rfl⟩⟩, ?_⟩
      rw [List.append_assoc, List.takeWhile_append_dropWhile]; exact hs

/-- What a variable that can hold the number has after the conversion. -/
theorem store_holds {k : Kind} {v : Int} {neg : Bool} {n : Nat} (hk : holds k v) (hv : v = (if neg then -(n : Int) else n)) :
    store k neg n = some v := by
  cases k <;> cases neg <;> simp only [holds, Bool.false_eq_true, if_false, if_true] at hk hv <;>
    simp only [store, Bool.false_eq_true, if_false, if_true] <;> subst hv
  · rw [if_pos (by omega)]
  · rw [if_pos (by omega)]
  · rw [if_pos (by omega), if_pos (by omega)]
  · have : n = 0 := by omega
    subst this; rfl
  · rw [if_pos (by omega)]
  · rw [if_pos (by omega)]
  · rw [if_pos (by omega)]
  · have : n = 0 := by omega
    subst this; rfl

/-- Where a number does not fit. -/
theorem store_out {k : Kind} {v : Int} {neg : Bool} {n : Nat} (hk : ¬ holds k v) (hs : k ≠ .size)
    (hv : v = (if neg then -(n : Int) else n)) (hu : k = .uint → -2 ^ 63 ≤ v) : store k neg n = none := by
  cases k <;> cases neg <;> simp only [holds, Bool.false_eq_true, if_false, if_true] at hk hv <;>
    simp only [store, Bool.false_eq_true, if_false, if_true] <;> subst hv
  · rw [if_neg (by omega)]
  · rw [if_neg (by omega)]
  · split
    · rw [if_neg (by omega)]
    · rfl
  · have := hu rfl
    rw [if_pos (by omega), if_neg (by omega)]
  · rw [if_neg (by omega)]
  · rw [if_neg (by omega)]
  · exact absurd rfl hs
  · exact absurd rfl hs

theorem showNat_decimal (n : Nat) : decimal (FileSeq.showNat n) n := by
  refine ⟨?_, ?_, ?_⟩
  · obtain ⟨m, t, h⟩ := FileSeq.showNat_head n
    rw [h]; simp
  · intro c hc
    refine (isDigit_iff c).1 ?_
    have h := OpChain.showNat_digits n c hc
    unfold OpChain.isDigit at h
    unfold isDigit
    have h' : '0' ≤ c ∧ c ≤ '9' := by simpa using h
    have a : 48 ≤ c.toNat := h'.1
    have b : c.toNat ≤ 57 := h'.2
    simp [a, b]
  · have h := FileSeq.decVal_showNat n
    have : FileSeq.decVal (FileSeq.showNat n) = digitsVal (FileSeq.showNat n) := rfl
    rw [this, digitsVal_ofDigits] at h
    exact h.symm

theorem showInt_notation (v : Int) : notation' (FileSeq.showInt v) v := by
  refine ⟨FileSeq.showNat v.natAbs, v.natAbs, showNat_decimal _, ?_⟩
  unfold FileSeq.showInt
  split
  · exact Or.inr (Or.inr ⟨rfl, by omega⟩)
  · exact Or.inl ⟨rfl, by omega⟩

theorem noDigitNext_nil : noDigitNext [] := fun c r h => by cases h

theorem blank_nil : blank [] := fun c h => by cases h

theorem convert_showInt (v : Int) :
    ∃ (neg : Bool) (n : Nat), convert (FileSeq.showInt v) = some (neg, n) ∧ v = (if neg then -(n : Int) else n) := by
  have h := convert_notation blank_nil (showInt_notation v) noDigitNext_nil
  simpa using h

theorem showInt_no_comma (v : Int) : ',' ∉ FileSeq.showInt v := by
  intro h
  have h2 : ∀ n, ',' ∉ FileSeq.showNat n := fun n hc => by
    have := (showNat_decimal n).2.1 _ hc
    revert this; unfold digitChar; decide
  unfold FileSeq.showInt at h
  split at h
  · rcases List.mem_cons.1 h with h | h
    · revert h; decide
    · exact h2 _ h
  · exact h2 _ h

theorem find_setValue (c : Container) (name value : Str) (t : Datatype) (k : Str) :
    OMap.find k (c.setValue name value t).params = if k = name then some value else OMap.find k c.params := by
  unfold Container.setValue
  rw [find_ins]

theorem getString_eq (c : Container) (name : Str) :
    c.getString name = match OMap.find name c.params with
      | some v => (true, v)
      | none => (false, []) := rfl

theorem readNums_show (k : Kind) (l : List Int) (a : List Int) (h : ∀ v ∈ l, holds k v) :
    readNums k (l.map FileSeq.showInt) a = .val (a ++ l) := by
  induction l generalizing a with
  | nil => simp [readNums]
  | cons v l ih =>
    obtain ⟨neg, n, e, hv⟩ := convert_showInt v
    rw [List.map_cons]
    unfold readNums
    rw [e]
    simp only [store_holds (h v (by simp)) hv]
    rw [ih _ (fun w hw => h w (by simp [hw]))]
    simp

/-- All elements of an array are read if each is a number. -/
theorem readNums_all (k : Kind) (ss : List Str) (l : List Int) (a : List Int)
    (h : List.Forall₂ (fun s v => ∃ neg n, convert s = some (neg, n) ∧ store k neg n = some v) ss l) :
    readNums k ss a = .val (a ++ l) := by
  induction h generalizing a with
  | nil => simp [readNums]
  | cons h1 _ ih =>
    obtain ⟨neg, n, e1, e2⟩ := h1
    unfold readNums
    rw [e1]; simp only [e2]
    rw [ih]; simp

theorem readNums_ub (k : Kind) (ss : List Str) (s : Str) (a : List Int) (hs : s ∈ ss) (h : noNumber s) :
    readNums k ss a = .ub := by
  induction ss generalizing a with
  | nil => cases hs
  | cons t ss ih =>
    unfold readNums
    cases hc : convert t with
    | none => rfl
    | some p =>
      obtain ⟨neg, n⟩ := p
      simp only
      cases hst : store k neg n with
      | none => rfl
      | some v =>
        simp only
        rcases List.mem_cons.1 hs with hs | hs
        · subst hs
          rw [(convert_none s).2 h] at hc; cases hc
        · exact ih _ hs

end QDng.PNum
