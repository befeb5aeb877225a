import Verif.OpChain.Spec
import Verif.FileSeq.Props
import Mathlib.Data.List.Basic

/-
Lemmas about the loading of operators: names of matrix elements, adding parts, the operators known by a key.
-/

namespace QDng.OpChain

open QDng Spec

/-! ### Names of matrix elements -/

theorem isDigit_digit (n : Nat) : isDigit (FileSeq.digit n) = true := by
  have h : ∀ m, m < 10 → isDigit (Char.ofNat (48 + m)) = true := by decide
  exact h _ (Nat.mod_lt _ (by decide))

theorem showNat_digits (n : Nat) : ∀ c ∈ FileSeq.showNat n, isDigit c = true := by
  induction n using Nat.strongRecOn with
  | ind n ih =>
    rw [FileSeq.showNat]
    split
    · intro c hc
      rw [List.mem_singleton] at hc
      rw [hc]; exact isDigit_digit n
    · intro c hc
      rw [List.mem_append, List.mem_singleton] at hc
      rcases hc with hc | hc
      · exact ih (n / 10) (by omega) c hc
      · rw [hc]; exact isDigit_digit n

theorem takeWhile_all (s : Str) (h : ∀ c ∈ s, isDigit c = true) : s.takeWhile isDigit = s := by
  induction s with
  | nil => rfl
  | cons c s ih => rw [List.takeWhile_cons, if_pos (h c (by simp)), ih (fun d hd => h d (by simp [hd]))]

theorem readInt_showNat (n : Nat) (h : n ≤ intMax) : readInt (FileSeq.showNat n) = some (n : Int) := by
  obtain ⟨m, t, e⟩ := FileSeq.showNat_head n
  have hall := showNat_digits n
  have hv : readNat (FileSeq.showNat n) = n := by
    unfold readNat
    rw [takeWhile_all _ hall]
    have : digitsVal (FileSeq.showNat n) = n := FileSeq.decVal_showNat n
    rw [this]; exact Nat.min_eq_left h
  have hd : isDigit (FileSeq.digit m) = true := isDigit_digit m
  have h1 : FileSeq.digit m ≠ '-' := by intro h; rw [h] at hd; exact absurd hd (by decide)
  have h2 : FileSeq.digit m ≠ '+' := by intro h; rw [h] at hd; exact absurd hd (by decide)
  rw [← hv]
  rw [hv, e]
  rw [readInt]
  · rw [← e, hv]
  · simp
  · rintro r h; exact h1 (List.cons.inj h).1
  · rintro r h; exact h2 (List.cons.inj h).1

theorem findIdx_dot (a b : Str) (ha : ∀ c ∈ a, c ≠ '.') : (a ++ '.' :: b).findIdx? (· = '.') = some a.length := by
  induction a with
  | nil => rfl
  | cons x xs ih =>
    rw [List.cons_append, List.findIdx?_cons, if_neg (by simpa using ha x (by simp)),
      ih (fun c hc => ha c (by simp [hc]))]
    rfl

theorem readTag_of_tagIs {tag : Str} {r c : Nat} (h : TagIs tag (r, c)) (hr : r ≤ intMax) (hc : c ≤ intMax) :
    readTag tag = some ((r : Int), (c : Int)) := by
  obtain ⟨ch, hch, rfl⟩ := h
  dsimp only
  have hdot : ∀ x ∈ ch :: FileSeq.showNat r, x ≠ '.' := by
    intro x hx
    rw [List.mem_cons] at hx
    rcases hx with hx | hx
    · rw [hx]; exact hch
    · intro h
      have := showNat_digits r x hx
      rw [h] at this; exact absurd this (by decide)
  have hf : findDot (ch :: (FileSeq.showNat r ++ '.' :: FileSeq.showNat c)) = some ((FileSeq.showNat r).length + 1) := by
    unfold findDot
    have := findIdx_dot (ch :: FileSeq.showNat r) (FileSeq.showNat c) hdot
    simpa using this
  have h1 : rowText (ch :: (FileSeq.showNat r ++ '.' :: FileSeq.showNat c)) = FileSeq.showNat r := by
    unfold rowText
    rw [hf]
    simp
  have h2 : colText (ch :: (FileSeq.showNat r ++ '.' :: FileSeq.showNat c)) = FileSeq.showNat c := by
    unfold colText
    rw [hf]
    have : ch :: (FileSeq.showNat r ++ '.' :: FileSeq.showNat c) = (ch :: (FileSeq.showNat r ++ ['.'])) ++ FileSeq.showNat c := by
      simp
    dsimp only
    rw [this, List.drop_left' (by simp)]
  unfold readTag
  rw [h1, h2, readInt_showNat r hr, readInt_showNat c hc]

theorem showNat_no_dot (n : Nat) : ∀ c ∈ FileSeq.showNat n, c ≠ '.' := by
  intro c hc h
  have := showNat_digits n c hc
  rw [h] at this; exact absurd this (by decide)

theorem split_dot : ∀ (a b a' b' : Str), (∀ c ∈ a, c ≠ '.') → (∀ c ∈ a', c ≠ '.') →
    a ++ '.' :: b = a' ++ '.' :: b' → a = a' ∧ b = b' := by
  intro a
  induction a with
  | nil =>
    intro b a' b' _ h2 h
    cases a' with
    | nil => exact ⟨rfl, (List.cons.inj h).2⟩
    | cons x xs => exact absurd (List.cons.inj h).1.symm (h2 x (by simp))
  | cons x xs ih =>
    intro b a' b' h1 h2 h
    cases a' with
    | nil => exact absurd (List.cons.inj h).1 (h1 x (by simp))
    | cons y ys =>
      rw [List.cons_append, List.cons_append] at h
      obtain ⟨e1, e2⟩ := ih b ys b' (fun c hc => h1 c (by simp [hc])) (fun c hc => h2 c (by simp [hc])) (List.cons.inj h).2
      exact ⟨by rw [(List.cons.inj h).1, e1], e2⟩

theorem tagIs_exact {tag : Str} {p q : Nat × Nat} (hp : TagIs tag p) (hq : TagIs tag q) : p = q := by
  obtain ⟨c1, -, e1⟩ := hp
  obtain ⟨c2, -, e2⟩ := hq
  rw [e1] at e2
  obtain ⟨h1, h2⟩ := split_dot _ _ _ _ (showNat_no_dot _) (showNat_no_dot _) (List.cons.inj e2).2
  exact Prod.ext (FileSeq.showNat_inj h1) (FileSeq.showNat_inj h2)

/-! ### Operators and trees -/

mutual
theorem denotes_mono {h h' : List Obj} (hp : h <+: h') : ∀ (t : Tree) (a : Nat), Denotes h t a → Denotes h' t a
  | .mk sh tags ts, a, hd => by
    rw [Denotes] at hd ⊢
    obtain ⟨o, h1, h2, h3, h4⟩ := hd
    refine ⟨o, ?_, h2, h3, denotesAll_mono hp ts _ h4⟩
    obtain ⟨e, rfl⟩ := hp
    rw [List.getElem?_append_left]
    · exact h1
    · exact (List.getElem?_eq_some_iff.mp h1).1
theorem denotesAll_mono {h h' : List Obj} (hp : h <+: h') :
    ∀ (ts : List Tree) (as : List Nat), DenotesAll h ts as → DenotesAll h' ts as
  | [], as, hd => by
    rw [DenotesAll] at hd ⊢
    exact hd
  | t :: ts, as, hd => by
    rw [DenotesAll] at hd ⊢
    obtain ⟨a, as', h1, h2, h3⟩ := hd
    exact ⟨a, as', h1, denotes_mono hp t a h2, denotesAll_mono hp ts as' h3⟩
end

theorem shapeAt_of_denotes {s : State} {t : Tree} {a : Nat} (h : Denotes s.heap t a) : shapeAt s a = t.shape := by
  cases t with
  | mk sh tags ts =>
    rw [Denotes] at h
    obtain ⟨o, h1, h2, -⟩ := h
    unfold shapeAt
    rw [h1]
    exact h2

theorem denotesAll_length {h : List Obj} : ∀ {ts : List Tree} {as : List Nat}, DenotesAll h ts as → ts.length = as.length := by
  intro ts
  induction ts with
  | nil => intro as h; rw [DenotesAll] at h; rw [h]; rfl
  | cons t ts ih =>
    intro as h
    rw [DenotesAll] at h
    obtain ⟨a, as', rfl, -, h3⟩ := h
    simp [ih h3]

/-! ### Adding parts one after another -/

/-- All parts are added. -/
def addAll (W : World) : Obj → List Str → List Nat → List Shape → Option Obj
  | o, [], [], [] => some o
  | o, tag :: tags, a :: as, sh :: shs =>
    if tagReady o tag then
      match addPart W o tag a sh with
      | .ok o' => addAll W o' tags as shs
      | _ => none
    else none
  | _, _, _, _ => none

/-- Sizes, where a size is there already. -/
def SizesFrom (m : Nat) (sizes : List Nat) (n : Nat) : Prop :=
  if m = 0 then SameSize sizes n else (∀ x ∈ sizes, x = m) ∧ n = m

theorem sameSize_nil (n : Nat) : SameSize [] n ↔ n = 0 := by
  constructor
  · rintro ⟨z, m, h, h0⟩
    have : (List.replicate z 0 ++ List.replicate m n).length = 0 := by rw [← h]; rfl
    simp at this
    exact h0 this.2
  · rintro rfl; exact ⟨0, 0, rfl, fun _ => rfl⟩

theorem sameSize_cons (x : Nat) (l : List Nat) (n : Nat) : SameSize (x :: l) n ↔ SizesFrom x l n := by
  unfold SizesFrom
  by_cases hx : x = 0
  · subst hx
    rw [if_pos rfl]
    constructor
    · rintro ⟨z, m, h, h0⟩
      cases z with
      | zero =>
        cases m with
        | zero => simp at h
        | succ m =>
          rw [List.replicate_succ] at h
          simp only [List.replicate_zero, List.nil_append] at h
          have h1 := (List.cons.inj h).1
          have h2 := (List.cons.inj h).2
          exact ⟨0, m, by simpa using h2, fun _ => h1.symm⟩
      | succ z =>
        rw [List.replicate_succ, List.cons_append] at h
        exact ⟨z, m, (List.cons.inj h).2, h0⟩
    · rintro ⟨z, m, h, h0⟩
      exact ⟨z + 1, m, by rw [List.replicate_succ, List.cons_append, h], h0⟩
  · rw [if_neg hx]
    constructor
    · rintro ⟨z, m, h, h0⟩
      cases z with
      | zero =>
        cases m with
        | zero => simp at h
        | succ m =>
          rw [List.replicate_succ] at h
          simp only [List.replicate_zero, List.nil_append] at h
          have h1 := (List.cons.inj h).1
          have h2 := (List.cons.inj h).2
          refine ⟨fun y hy => ?_, h1.symm⟩
          rw [h2] at hy
          rw [(List.mem_replicate.mp hy).2, h1]
      | succ z =>
        rw [List.replicate_succ, List.cons_append] at h
        exact absurd (List.cons.inj h).1 hx
    · rintro ⟨h, rfl⟩
      refine ⟨0, l.length + 1, ?_, by simp⟩
      rw [List.replicate_succ]
      simp only [List.replicate_zero, List.nil_append]
      rw [List.cons.injEq]
      exact ⟨rfl, List.eq_replicate_of_mem h⟩

theorem addAll_grid (W : World) : ∀ (shs : List Shape) (tags : List Str) (as : List Nat) (m : Nat)
    (parts : List (Place × Nat)) (o : Obj), tags.length = shs.length → as.length = shs.length → parts.length ≤ 16 →
    (addAll W ⟨.gridsum m, parts⟩ tags as shs = some o ↔
      parts.length + shs.length ≤ 16 ∧ (∀ p ∈ shs, isGrid W p = true ∧ clockCrash W p = false) ∧
        ∃ n, SizesFrom m (shs.map (sizeOf W)) n ∧ o = ⟨.gridsum n, parts ++ as.map fun a => (Place.next, a)⟩) := by
  intro shs
  induction shs with
  | nil =>
    intro tags as m parts o h1 h2 h3
    rw [List.length_eq_zero_iff.mp h1, List.length_eq_zero_iff.mp h2]
    have : (∃ n, SizesFrom m (([] : List Shape).map (sizeOf W)) n ∧
        o = ⟨.gridsum n, parts ++ ([] : List Nat).map fun a => (Place.next, a)⟩) ↔ (⟨.gridsum m, parts⟩ : Obj) = o := by
      constructor
      · rintro ⟨n, hn, rfl⟩
        have : n = m := by
          unfold SizesFrom at hn
          split at hn
          · rename_i h; rw [List.map_nil, sameSize_nil] at hn; omega
          · exact hn.2
        simp [this]
      · rintro rfl
        refine ⟨m, ?_, by simp⟩
        unfold SizesFrom
        split
        · rename_i h; rw [List.map_nil, sameSize_nil]; exact h
        · exact ⟨by simp, rfl⟩
    rw [this]
    simp only [addAll, Option.some.injEq, List.length_nil, Nat.add_zero]
    exact ⟨fun h => ⟨h3, by simp, h⟩, fun h => h.2.2⟩
  | cons sh shs ih =>
    intro tags as m parts o h1 h2 h3
    obtain ⟨tag, tags, rfl⟩ := List.exists_cons_of_length_eq_add_one h1
    obtain ⟨a, as, rfl⟩ := List.exists_cons_of_length_eq_add_one h2
    have hs : ∀ n, SizesFrom m ((sh :: shs).map (sizeOf W)) n ↔
        sizeOf W sh = (if m = 0 then sizeOf W sh else m) ∧
          SizesFrom (if m = 0 then sizeOf W sh else m) (shs.map (sizeOf W)) n := by
      intro n
      by_cases hm : m = 0
      · rw [if_pos hm]
        subst hm
        rw [show SizesFrom 0 ((sh :: shs).map (sizeOf W)) n ↔ SameSize ((sh :: shs).map (sizeOf W)) n by
          unfold SizesFrom; rw [if_pos rfl]]
        rw [List.map_cons, sameSize_cons]
        simp
      · rw [if_neg hm]
        unfold SizesFrom
        rw [if_neg hm, if_neg hm]
        simp [and_assoc]
    rw [addAll, if_pos (show tagReady ⟨.gridsum m, parts⟩ tag = true from rfl)]
    have hadd : addPart W ⟨.gridsum m, parts⟩ tag a sh = addGrid W m parts a sh := rfl
    rw [hadd]
    unfold addGrid
    by_cases hg : isGrid W sh = true
    · rw [if_pos hg]
      by_cases hl : parts.length ≥ maxGrid
      · rw [if_pos hl]
        constructor
        · intro h; exact absurd h (by simp)
        · rintro ⟨h, -⟩
          simp only [List.length_cons] at h
          unfold maxGrid at hl
          omega
      · rw [if_neg hl]
        by_cases hz : sizeOf W sh ≠ (if m = 0 then sizeOf W sh else m)
        · rw [if_pos hz]
          constructor
          · intro h; exact absurd h (by simp)
          · rintro ⟨-, -, n, hn, -⟩
            exact absurd ((hs n).mp hn).1 hz
        · rw [if_neg hz]
          by_cases hc : clockCrash W sh = true
          · rw [if_pos hc]
            constructor
            · intro h; exact absurd h (by simp)
            · rintro ⟨-, h, -⟩
              have := (h sh (by simp)).2
              rw [hc] at this; exact absurd this (by simp)
          · rw [if_neg hc]
            dsimp only
            rw [ih tags as _ _ o (by simpa using h1) (by simpa using h2) (by unfold maxGrid at hl; simp; omega)]
            have hz' : sizeOf W sh = (if m = 0 then sizeOf W sh else m) := not_not.mp hz
            have hc' : clockCrash W sh = false := by simpa using hc
            constructor
            · rintro ⟨e1, e2, n, e3, e4⟩
              refine ⟨?_, ?_, n, (hs n).mpr ⟨hz', e3⟩, ?_⟩
              · simp only [List.length_append, List.length_cons, List.length_nil] at e1 ⊢; omega
              · intro p hp
                rw [List.mem_cons] at hp
                rcases hp with rfl | hp
                · exact ⟨hg, hc'⟩
                · exact e2 p hp
              · rw [e4]; simp
            · rintro ⟨e1, e2, n, e3, e4⟩
              refine ⟨?_, fun p hp => e2 p (by simp [hp]), n, ((hs n).mp e3).2, ?_⟩
              · simp only [List.length_append, List.length_cons, List.length_nil] at e1 ⊢; omega
              · rw [e4]; simp
    · rw [if_neg hg]
      constructor
      · intro h; exact absurd h (by simp)
      · rintro ⟨-, h, -⟩
        exact absurd (h sh (by simp)).1 hg

theorem any_named (parts : List (Place × Nat)) (p : Place) :
    (parts.any fun q => q.1 == p) = true ↔ p ∈ parts.map Prod.fst := by
  simp only [List.any_eq_true, beq_iff_eq, List.mem_map]

theorem addAll_list (W : World) (name : Str) (rest : Nat) : ∀ (shs : List Shape) (tags : List Str) (as : List Nat)
    (parts : List (Place × Nat)) (o : Obj), tags.length = shs.length → as.length = shs.length → parts.length ≤ 128 →
    (addAll W ⟨.list name rest, parts⟩ tags as shs = some o ↔
      tags.Nodup ∧ (∀ t ∈ tags, Place.named t ∉ parts.map Prod.fst) ∧ parts.length + tags.length ≤ 128 ∧
        o = ⟨.list name rest, parts ++ List.zip (tags.map Place.named) as⟩) := by
  intro shs
  induction shs with
  | nil =>
    intro tags as parts o h1 h2 h3
    rw [List.length_eq_zero_iff.mp h1, List.length_eq_zero_iff.mp h2]
    simp only [addAll, Option.some.injEq, List.length_nil, Nat.add_zero, List.map_nil, List.zip_nil_right, List.append_nil]
    exact ⟨fun h => ⟨by simp, by simp, h3, h.symm⟩, fun h => h.2.2.2.symm⟩
  | cons sh shs ih =>
    intro tags as parts o h1 h2 h3
    obtain ⟨tag, tags, rfl⟩ := List.exists_cons_of_length_eq_add_one h1
    obtain ⟨a, as, rfl⟩ := List.exists_cons_of_length_eq_add_one h2
    rw [addAll, if_pos (show tagReady ⟨.list name rest, parts⟩ tag = true from rfl)]
    have hadd : addPart W ⟨.list name rest, parts⟩ tag a sh = addNamed (.list name rest) parts tag a := rfl
    rw [hadd]
    unfold addNamed
    by_cases hn : (parts.any fun p => p.1 == Place.named tag) = true
    · rw [if_pos hn]
      constructor
      · intro h; exact absurd h (by simp)
      · rintro ⟨-, h, -⟩
        exact absurd ((any_named _ _).mp hn) (h tag (by simp))
    · rw [if_neg hn]
      by_cases hl : parts.length ≥ maxList
      · rw [if_pos hl]
        constructor
        · intro h; exact absurd h (by simp)
        · rintro ⟨-, -, h, -⟩
          simp only [List.length_cons] at h
          unfold maxList at hl
          omega
      · rw [if_neg hl]
        dsimp only
        rw [ih tags as _ o (by simpa using h1) (by simpa using h2) (by unfold maxList at hl; simp; omega)]
        have hn' : Place.named tag ∉ parts.map Prod.fst := fun h => hn ((any_named _ _).mpr h)
        constructor
        · rintro ⟨e1, e2, e3, e4⟩
          refine ⟨?_, ?_, ?_, ?_⟩
          · rw [List.nodup_cons]
            refine ⟨fun h => ?_, e1⟩
            have := e2 tag h
            simp at this
          · intro t ht
            rw [List.mem_cons] at ht
            rcases ht with rfl | ht
            · exact hn'
            · intro h
              apply e2 t ht
              simp only [List.map_append, List.mem_append]
              exact .inl h
          · simp only [List.length_append, List.length_cons, List.length_nil] at e3 ⊢; omega
          · rw [e4]; simp
        · rintro ⟨e1, e2, e3, e4⟩
          rw [List.nodup_cons] at e1
          refine ⟨e1.2, ?_, ?_, ?_⟩
          · intro t ht
            simp only [List.map_append, List.map_cons, List.map_nil, List.mem_append, List.mem_singleton, not_or]
            refine ⟨e2 t (by simp [ht]), ?_⟩
            intro h
            injection h with h
            rw [h] at ht
            exact e1.1 ht
          · simp only [List.length_append, List.length_cons, List.length_nil] at e3 ⊢; omega
          · rw [e4]; simp

/-- The number of states behind one more element. -/
def grow (n : Int) (p : Nat × Nat) : Int :=
  if (p.2 : Int) + 1 > (if (p.1 : Int) + 1 > n then (p.1 : Int) + 1 else n) then (p.2 : Int) + 1
  else (if (p.1 : Int) + 1 > n then (p.1 : Int) + 1 else n)

theorem statesFor_cons (m : Int) (p : Nat × Nat) (ps : List (Nat × Nat)) (n : Int) :
    StatesFor m (p :: ps) n ↔ StatesFor (grow m p) ps n := by
  have hg : m ≤ grow m p ∧ (p.1 : Int) < grow m p ∧ (p.2 : Int) < grow m p ∧
      (grow m p = m ∨ grow m p = (p.1 : Int) + 1 ∨ grow m p = (p.2 : Int) + 1) := by
    unfold grow
    split <;> split <;> omega
  unfold StatesFor
  constructor
  · rintro ⟨h1, h2, h3⟩
    have hp := h2 p (by simp)
    refine ⟨by omega, fun q hq => h2 q (by simp [hq]), ?_⟩
    rcases h3 with h3 | ⟨q, hq, h3⟩
    · left; omega
    · rw [List.mem_cons] at hq
      rcases hq with rfl | hq
      · left; omega
      · exact .inr ⟨q, hq, h3⟩
  · rintro ⟨h1, h2, h3⟩
    refine ⟨by omega, ?_, ?_⟩
    · intro q hq
      rw [List.mem_cons] at hq
      rcases hq with rfl | hq
      · omega
      · exact h2 q hq
    · rcases h3 with h3 | ⟨q, hq, h3⟩
      · rcases hg.2.2.2 with e | e | e
        · left; omega
        · exact .inr ⟨p, by simp, by omega⟩
        · exact .inr ⟨p, by simp, by omega⟩
      · exact .inr ⟨q, by simp [hq], h3⟩

theorem statesFor_nil (m n : Int) : StatesFor m [] n ↔ n = m := by
  unfold StatesFor
  simp only [List.not_mem_nil, false_and, exists_false, or_false, false_imp_iff, implies_true, true_and]
  omega

theorem addAll_matrix (W : World) (d u : Bool) : ∀ (shs : List Shape) (tags : List Str) (as : List Nat) (m : Int)
    (ps : List (Nat × Nat)) (parts : List (Place × Nat)) (o : Obj), tags.length = shs.length → as.length = shs.length →
    List.Forall₂ TagIs tags ps → (∀ p ∈ ps, p.1 ≤ intMax ∧ p.2 ≤ intMax) →
    (addAll W ⟨.matrix d u m, parts⟩ tags as shs = some o ↔
      ps.Nodup ∧ (∀ p ∈ ps, Place.elem p.1 p.2 ∉ parts.map Prod.fst) ∧ (∀ p ∈ ps, p.1 < 64 ∧ p.2 < 64) ∧
        ∃ n, StatesFor m ps n ∧
          o = ⟨.matrix d u n, parts ++ List.zip (ps.map fun p => Place.elem p.1 p.2) as⟩) := by
  intro shs
  induction shs with
  | nil =>
    intro tags as m ps parts o h1 h2 h3 h4
    obtain rfl := List.length_eq_zero_iff.mp h1
    obtain rfl := List.length_eq_zero_iff.mp h2
    cases h3
    simp only [addAll, Option.some.injEq, List.map_nil, List.zip_nil_right, List.append_nil, statesFor_nil]
    constructor
    · rintro rfl; exact ⟨by simp, by simp, by simp, m, rfl, rfl⟩
    · rintro ⟨-, -, -, n, rfl, rfl⟩; rfl
  | cons sh shs ih =>
    intro tags as m ps parts o h1 h2 h3 h4
    obtain ⟨tag, tags, rfl⟩ := List.exists_cons_of_length_eq_add_one h1
    obtain ⟨a, as, rfl⟩ := List.exists_cons_of_length_eq_add_one h2
    cases h3 with
    | @cons _ p _ ps hp h3 =>
    have hread : readTag tag = some ((p.1 : Int), (p.2 : Int)) :=
      readTag_of_tagIs hp (h4 p (by simp)).1 (h4 p (by simp)).2
    rw [addAll, if_pos (show tagReady ⟨.matrix d u m, parts⟩ tag = true by
      show (readTag tag).isSome = true
      rw [hread]; rfl)]
    have hadd : addPart W ⟨.matrix d u m, parts⟩ tag a sh = addElem d u m parts a p.1 p.2 := by
      show (match readTag tag with | none => Added.ub | some (r, c) => addElem d u m parts a r c) = _
      rw [hread]
    rw [hadd]
    unfold addElem
    simp only [maxStates]
    by_cases hb : (p.1 : Int) ≥ (64 : Nat) ∨ (p.2 : Int) ≥ (64 : Nat)
    · rw [if_pos hb]
      constructor
      · intro h; exact absurd h (by simp)
      · rintro ⟨-, -, h, -⟩
        have := h p (by simp)
        omega
    · rw [if_neg hb, if_neg (by omega)]
      rw [Int.toNat_natCast, Int.toNat_natCast]
      by_cases hn : (parts.any fun q => q.1 == Place.elem p.1 p.2) = true
      · rw [if_pos hn]
        constructor
        · intro h; exact absurd h (by simp)
        · rintro ⟨-, h, -⟩
          exact absurd ((any_named _ _).mp hn) (h p (by simp))
      · rw [if_neg hn]
        dsimp only
        rw [show (if (p.2 : Int) + 1 > (if (p.1 : Int) + 1 > m then (p.1 : Int) + 1 else m) then (p.2 : Int) + 1
          else (if (p.1 : Int) + 1 > m then (p.1 : Int) + 1 else m)) = grow m p from rfl]
        rw [ih tags as (grow m p) ps _ o (by simpa using h1) (by simpa using h2) h3 (fun q hq => h4 q (by simp [hq]))]
        have hn' : Place.elem p.1 p.2 ∉ parts.map Prod.fst := fun h => hn ((any_named _ _).mpr h)
        constructor
        · rintro ⟨e1, e2, e3, n, e4, e5⟩
          refine ⟨?_, ?_, ?_, n, (statesFor_cons m p ps n).mpr e4, ?_⟩
          · rw [List.nodup_cons]
            refine ⟨fun h => ?_, e1⟩
            have := e2 p h
            simp at this
          · intro q hq
            rw [List.mem_cons] at hq
            rcases hq with rfl | hq
            · exact hn'
            · intro h
              apply e2 q hq
              simp only [List.map_append, List.mem_append]
              exact .inl h
          · intro q hq
            rw [List.mem_cons] at hq
            rcases hq with rfl | hq
            · omega
            · exact e3 q hq
          · rw [e5]; simp
        · rintro ⟨e1, e2, e3, n, e4, e5⟩
          rw [List.nodup_cons] at e1
          refine ⟨e1.2, ?_, fun q hq => e3 q (by simp [hq]), n, (statesFor_cons m p ps n).mp e4, ?_⟩
          · intro q hq
            simp only [List.map_append, List.map_cons, List.map_nil, List.mem_append, List.mem_singleton, not_or]
            refine ⟨e2 q (by simp [hq]), ?_⟩
            intro h
            injection h with ha hb
            apply e1.1
            rw [← Prod.ext ha hb]
            exact hq
          · rw [e5]; simp

end QDng.OpChain
