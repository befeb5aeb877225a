import Verif.GSum.Spec
import Mathlib.Tactic.Linarith

/-!
# Lemmas about sums of grid operators
-/

namespace QDng.GSum

open QDng.Common

theorem put_same {A : Type} (f : Nat → Option A) (a : Nat) (x : Option A) : put f a x a = x := if_pos rfl

theorem put_other {A : Type} (f : Nat → Option A) (a b : Nat) (x : Option A) (h : b ≠ a) : put f a x b = f b := if_neg h

/-! ### Bounds of one operator -/

theorem minLoop_spec (l : List ℝ) : ∀ d, minLoop d l ≤ d ∧ (∀ x ∈ l, minLoop d l ≤ x) ∧
    (minLoop d l = d ∨ minLoop d l ∈ l) := by
  induction l with
  | nil => intro d; exact ⟨le_refl _, by simp, Or.inl rfl⟩
  | cons x l ih =>
    intro d
    unfold minLoop
    by_cases h : x < d
    · rw [if_pos h]
      obtain ⟨h1, h2, h3⟩ := ih x
      refine ⟨by linarith, ?_, ?_⟩
      · intro y hy
        rcases List.mem_cons.1 hy with rfl | hy
        · exact h1
        · exact h2 y hy
      · rcases h3 with h3 | h3
        · exact Or.inr (List.mem_cons.2 (Or.inl h3))
        · exact Or.inr (List.mem_cons.2 (Or.inr h3))
    · rw [if_neg h]
      obtain ⟨h1, h2, h3⟩ := ih d
      refine ⟨h1, ?_, ?_⟩
      · intro y hy
        rcases List.mem_cons.1 hy with rfl | hy
        · linarith
        · exact h2 y hy
      · rcases h3 with h3 | h3
        · exact Or.inl h3
        · exact Or.inr (List.mem_cons.2 (Or.inr h3))

theorem maxLoop_spec (l : List ℝ) : ∀ d, d ≤ maxLoop d l ∧ (∀ x ∈ l, x ≤ maxLoop d l) ∧
    (maxLoop d l = d ∨ maxLoop d l ∈ l) := by
  induction l with
  | nil => intro d; exact ⟨le_refl _, by simp, Or.inl rfl⟩
  | cons x l ih =>
    intro d
    unfold maxLoop
    by_cases h : x > d
    · rw [if_pos h]
      obtain ⟨h1, h2, h3⟩ := ih x
      refine ⟨by linarith, ?_, ?_⟩
      · intro y hy
        rcases List.mem_cons.1 hy with rfl | hy
        · exact h1
        · exact h2 y hy
      · rcases h3 with h3 | h3
        · exact Or.inr (List.mem_cons.2 (Or.inl h3))
        · exact Or.inr (List.mem_cons.2 (Or.inr h3))
    · rw [if_neg h]
      obtain ⟨h1, h2, h3⟩ := ih d
      refine ⟨h1, ?_, ?_⟩
      · intro y hy
        rcases List.mem_cons.1 hy with rfl | hy
        · linarith
        · exact h2 y hy
      · rcases h3 with h3 | h3
        · exact Or.inl h3
        · exact Or.inr (List.mem_cons.2 (Or.inr h3))

theorem emin_spec (o : Pot) (h : o.vals ≠ []) : ∃ d, o.emin = some d ∧ d ∈ o.vals ∧ ∀ x ∈ o.vals, d ≤ x := by
  unfold Pot.emin
  cases hv : o.vals with
  | nil => exact absurd hv h
  | cons x l =>
    obtain ⟨h1, h2, h3⟩ := minLoop_spec l x
    refine ⟨_, rfl, ?_, ?_⟩
    · rcases h3 with h3 | h3
      · rw [h3]; exact List.mem_cons_self
      · exact List.mem_cons_of_mem _ h3
    · intro y hy
      rcases List.mem_cons.1 hy with rfl | hy
      · exact h1
      · exact h2 y hy

theorem emax_spec (o : Pot) (h : o.vals ≠ []) : ∃ d, o.emax = some d ∧ d ∈ o.vals ∧ ∀ x ∈ o.vals, x ≤ d := by
  unfold Pot.emax
  cases hv : o.vals with
  | nil => exact absurd hv h
  | cons x l =>
    obtain ⟨h1, h2, h3⟩ := maxLoop_spec l x
    refine ⟨_, rfl, ?_, ?_⟩
    · rcases h3 with h3 | h3
      · rw [h3]; exact List.mem_cons_self
      · exact List.mem_cons_of_mem _ h3
    · intro y hy
      rcases List.mem_cons.1 hy with rfl | hy
      · exact h1
      · exact h2 y hy

/-! ### The loop over the members -/

theorem members_O {w : World} {s : Nat} {ps : List Nat} (h : Members w s ps) :
    ∃ q, w.sums s = some q ∧ q.n = ps.length ∧ ∀ i (hi : i < ps.length), q.O[i]? = some ps[i] := by
  obtain ⟨h1, h2⟩ := h
  unfold size at h1
  cases hq : w.sums s with
  | none => rw [hq] at h1; cases h1
  | some q =>
    rw [hq] at h1
    simp only at h1
    have hn : q.n = ps.length := by injection h1
    refine ⟨q, rfl, hn, ?_⟩
    intro i hi
    have h3 := h2 i hi
    unfold get at h3
    rw [hq] at h3
    simp only at h3
    rw [if_neg (by omega), if_neg (by omega)] at h3
    cases ho : q.O[i]? with
    | none => rw [Int.toNat_natCast, ho] at h3; cases h3
    | some a =>
      rw [Int.toNat_natCast, ho] at h3
      simp only at h3
      injection h3 with h3
      rw [h3]

theorem sumE_eq (w : World) (f : Pot → Option ℝ) (O : List Nat) (ps : List Nat) (es : List ℝ)
    (hl : ps.length = es.length)
    (hO : ∀ i (hi : i < ps.length), O[i]? = some ps[i])
    (he : ∀ i (hi : i < ps.length), ps[i] ≠ 0 ∧ ∃ o, w.pots ps[i] = some o ∧ f o = some (es[i]'(hl ▸ hi))) :
    sumE w f O ps.length = some es.sum := by
  have key : ∀ k, k ≤ ps.length →
      loop k (fun i d => (memberE w f O i).map (fun e => d + e)) 0 = some (es.take k).sum := by
    intro k
    induction k with
    | zero => intro _; simp [loop]
    | succ k ih =>
      intro hk
      have hk' : k < ps.length := hk
      obtain ⟨h0, o, ho, hf⟩ := he k hk'
      have hm : memberE w f O k = some (es[k]'(hl ▸ hk')) := by
        unfold memberE
        rw [hO k hk']
        simp only
        rw [if_neg h0, ho]
        exact hf
      simp only [loop]
      rw [ih (by omega)]
      simp only [Option.bind_some, hm, Option.map_some]
      rw [List.sum_take_succ es k (hl ▸ hk')]
  have := key ps.length (le_refl _)
  rw [hl, List.take_length, ← hl] at this
  exact this

theorem living_energies (w : World) (f : Pot → Option ℝ) (R : Pot → ℝ → Prop) (hf : ∀ o, o.vals ≠ [] → ∃ d, f o = some d ∧ R o d)
    (ps : List Nat) (os : List Pot) (h : Living w ps os) (hne : ∀ o ∈ os, o.vals ≠ []) :
    ∃ es : List ℝ, List.Forall₂ R os es ∧ ∃ hl : ps.length = es.length,
      ∀ i (hi : i < ps.length), ps[i] ≠ 0 ∧ ∃ o, w.pots ps[i] = some o ∧ f o = some (es[i]'(hl ▸ hi)) := by
  induction h with
  | nil => exact ⟨[], .nil, rfl, fun i hi => absurd hi (Nat.not_lt_zero _)⟩
  | @cons p o ps os hp _ ih =>
    obtain ⟨es, h1, hl, h2⟩ := ih (fun o ho => hne o (List.mem_cons_of_mem _ ho))
    obtain ⟨d, hd, hR⟩ := hf o (hne o List.mem_cons_self)
    refine ⟨d :: es, .cons hR h1, by simp [hl], ?_⟩
    intro i hi
    cases i with
    | zero => exact ⟨hp.1, o, hp.2, hd⟩
    | succ i => exact h2 i (by simpa using hi)

/-! ### Adding -/

/-- Internal state of a sum with the members `ps`. -/
def Rep (q : Sum) (ps : List Nat) : Prop :=
  q.n = ps.length ∧ ps.length ≤ 16 ∧ q.O = ps ++ List.replicate (16 - ps.length) 0

theorem rep_new : Rep Sum.new [] := ⟨rfl, by simp, rfl⟩

theorem rep_get {w : World} {s : Nat} {q : Sum} {ps : List Nat} (hq : w.sums s = some q) (h : Rep q ps) (i : Nat)
    (hi : i < ps.length) : get w s (i : Int) = .val ps[i] := by
  unfold get
  rw [hq]
  simp only
  rw [if_neg (by rw [h.1]; omega), if_neg (by omega), h.2.2, Int.toNat_natCast,
    List.getElem?_append_left hi, List.getElem?_eq_getElem hi]

theorem rep_members {w : World} {s : Nat} {q : Sum} {ps : List Nat} (hq : w.sums s = some q) (h : Rep q ps) :
    Members w s ps := by
  refine ⟨?_, fun i hi => rep_get hq h i hi⟩
  unfold size
  rw [hq]
  simp only
  rw [h.1]

theorem rep_append {q : Sum} {ps : List Nat} (h : Rep q ps) (hl : ps.length < 16) (p pts : Nat) :
    Rep { n := q.n + 1, O := q.O.set q.n p, points := pts } (ps ++ [p]) := by
  refine ⟨by simp [h.1], by simp; omega, ?_⟩
  show q.O.set q.n p = _
  rw [h.2.2, h.1, List.set_append_right _ _ (le_refl _), Nat.sub_self]
  obtain ⟨k, hk⟩ : ∃ k, 16 - ps.length = k + 1 := ⟨15 - ps.length, by omega⟩
  have hk' : 16 - (ps ++ [p]).length = k := by simp; omega
  rw [hk, hk', List.replicate_succ, List.set_cons_zero]
  simp

theorem members_unique {w : World} {s : Nat} {ps qs : List Nat} (h : Members w s ps) (h' : Members w s qs) : ps = qs := by
  have hl : ps.length = qs.length := by
    have := h.1.symm.trans h'.1
    injection this
  refine List.ext_getElem hl fun i h1 h2 => ?_
  have := (h.2 i h1).symm.trans (h'.2 i h2)
  injection this

/-! ### Deleting -/

theorem deleteAll_sums (l : List Nat) : ∀ w, (deleteAll w l).sums = w.sums := by
  induction l with
  | nil => intro w; rfl
  | cons a l ih =>
    intro w
    unfold deleteAll
    rw [ih]
    by_cases h : a ≠ 0
    · rw [if_pos h]; unfold deletePot; rw [if_neg h]
    · rw [if_neg h]

theorem deleteAll_pots (l : List Nat) : ∀ w b, (deleteAll w l).pots b = if b ≠ 0 ∧ b ∈ l then none else w.pots b := by
  induction l with
  | nil => intro w b; simp [deleteAll]
  | cons a l ih =>
    intro w b
    unfold deleteAll
    rw [ih]
    by_cases hb : b ≠ 0 ∧ b ∈ l
    · rw [if_pos hb, if_pos ⟨hb.1, List.mem_cons_of_mem _ hb.2⟩]
    · rw [if_neg hb]
      by_cases ha : a ≠ 0
      · rw [if_pos ha]
        unfold deletePot
        rw [if_neg ha]
        by_cases hab : b = a
        · rw [if_pos ⟨by rw [hab]; exact ha, by rw [hab]; exact List.mem_cons_self⟩]
          show put w.pots a none b = none
          rw [hab, put_same]
        · rw [if_neg (fun h => hb ⟨h.1, (List.mem_cons.1 h.2).resolve_left hab⟩)]
          exact put_other _ _ _ _ hab
      · rw [if_neg ha]
        have ha : a = 0 := not_not.1 ha
        rw [if_neg (fun h => hb ⟨h.1, (List.mem_cons.1 h.2).resolve_left (by rw [ha]; exact h.1)⟩)]

theorem deleteSum_pots {w : World} {s : Nat} {q : Sum} (hq : w.sums s = some q) (b : Nat) :
    (deleteSum w s).pots b = if b ≠ 0 ∧ b ∈ q.O then none else w.pots b := by
  unfold deleteSum
  rw [hq]
  exact deleteAll_pots _ _ _

theorem deleteSum_sums {w : World} {s : Nat} {q : Sum} (hq : w.sums s = some q) :
    (deleteSum w s).sums = put w.sums s none := by
  unfold deleteSum
  rw [hq]
  exact deleteAll_sums _ _

theorem rep_mem {q : Sum} {ps : List Nat} (h : Rep q ps) (b : Nat) (hb : b ≠ 0) : b ∈ q.O ↔ b ∈ ps := by
  rw [h.2.2, List.mem_append, List.mem_replicate]
  constructor
  · rintro (h | h)
    · exact h
    · exact absurd h.2 hb
  · exact Or.inl

end QDng.GSum
