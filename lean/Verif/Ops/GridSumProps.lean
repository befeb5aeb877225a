import Verif.Ops.GridSumModel
import Mathlib.Algebra.BigOperators.Group.List.Basic
import Mathlib.Tactic.ByContra

/-
Property C26: the sum of grid operators.
-/

namespace QDng.Ops

open QDng.Common

/-- Adds the operators one after the other to a sum (src/qdlib/OGridSum.cpp:176-196). -/
def GridSum.addAll {K : Type} [Zero K] : List (GridOp K) → GridSum K → Out (GridSum K)
  | [], s => .ok s
  | o :: os, s => (s.add (some o)).bind (GridSum.addAll os)

/-- The result the property asks for: each point of the source multiplied with the sum of the members at
that point. -/
def pointwise {K : Type} [Add K] [Mul K] [Zero K] (ops : List (GridOp K)) (src : List K) : List K :=
  (List.range src.length).map fun i => src.getD i 0 * (ops.map (fun o => o.next.getD i 0)).sum

structure Holds {K : Type} (s : GridSum K) (ops : List (GridOp K)) (n : Nat) : Prop where
  size : s.size = ops.length
  cap : s.slots.length = 16
  le : ops.length ≤ 16
  slots : ∀ i, i < 16 → s.slots[i]? = some ops[i]?
  vals : s.vals.length = n
  stale : s.upToDate = false

theorem add_holds {K : Type} [Zero K] {s : GridSum K} {ops : List (GridOp K)} {n : Nat} (hn : n ≠ 0)
    (h : Holds s ops n ∨ (s = GridSum.new K ∧ ops = [])) (o : GridOp K) (ho : o.now.length = n)
    (hlt : ops.length < 16) : ∃ s', s.add (some o) = .ok s' ∧ Holds s' (ops ++ [o]) n := by
  rcases h with h | ⟨rfl, rfl⟩
  · have hs := h.size
    have hv := h.vals
    refine ⟨{ slots := s.slots.set s.size (some o), size := s.size + 1, vals := s.vals, upToDate := false },
      ?_, ?_⟩
    · unfold GridSum.add
      rw [if_neg (by omega)]
      dsimp only
      rw [if_neg (show ¬ s.vals.length = 0 by omega), if_neg (by omega)]
    · refine ⟨by simp [hs], by simpa using h.cap, by simp; omega, ?_, hv, rfl⟩
      intro i hi
      show (s.slots.set s.size (some o))[i]? = _
      rw [List.getElem?_set, hs]
      by_cases e : ops.length = i
      · subst e
        rw [if_pos rfl, if_pos (by rw [h.cap]; exact hlt)]
        simp
      · rw [if_neg e, h.slots i hi]
        congr 1
        rw [List.getElem?_append]
        split
        · rfl
        · rw [List.getElem?_eq_none (by omega), List.getElem?_eq_none (by simp; omega)]
  · refine ⟨{ slots := (List.replicate 16 none).set 0 (some o), size := 1,
              vals := List.replicate o.now.length 0, upToDate := false }, ?_, ?_⟩
    · unfold GridSum.add
      rw [if_neg (by simp [GridSum.new])]
      dsimp only
      rw [if_pos (show (GridSum.new K).vals.length = 0 by rfl), if_neg (by simp)]
      rfl
    · refine ⟨by simp [GridSum.new], by simp [GridSum.new], by simp, ?_, by simp [ho], rfl⟩
      intro i hi
      show ((List.replicate 16 none).set 0 (some o))[i]? = _
      rw [List.getElem?_set]
      by_cases e : 0 = i
      · subst e; simp
      · rw [if_neg e, List.getElem?_replicate, if_pos hi]
        simp
        omega

theorem addAll_holds {K : Type} [Zero K] {n : Nat} (hn : n ≠ 0) (os : List (GridOp K)) :
    ∀ (s : GridSum K) (ops : List (GridOp K)),
      (Holds s ops n ∨ (s = GridSum.new K ∧ ops = [])) → (∀ o ∈ os, o.now.length = n) →
      ops.length + os.length ≤ 16 → ops ++ os ≠ [] →
      ∃ s', s.addAll os = .ok s' ∧ Holds s' (ops ++ os) n := by
  induction os with
  | nil =>
    intro s ops h _ _ hne
    rcases h with h | ⟨_, rfl⟩
    · exact ⟨s, rfl, by simpa using h⟩
    · simp at hne
  | cons o os ih =>
    intro s ops h ho hl _
    simp at hl
    obtain ⟨s1, h1, h2⟩ := add_holds hn h o (ho o (List.mem_cons_self ..)) (by omega)
    obtain ⟨s2, h3, h4⟩ := ih s1 (ops ++ [o]) (Or.inl h2)
      (fun o' ho' => ho o' (List.mem_cons_of_mem _ ho')) (by simp; omega) (by simp)
    refine ⟨s2, ?_, by simpa using h4⟩
    simp only [GridSum.addAll, h1, Out.bind, h3]

theorem copy_loop {K : Type} (slots : List (Option (GridOp K))) (o : GridOp K)
    (h0 : slots[0]? = some (some o)) (vals : List K) (hl : o.now.length = vals.length) :
    loop vals.length (copyPoint slots) vals = some o.now := by
  obtain ⟨v, h1, h2, h3⟩ := loop_inv vals.length (copyPoint slots)
    (fun k v => v.length = vals.length ∧ ∀ i, i < k → v[i]? = o.now[i]?) vals
    ⟨rfl, by intro i hi; omega⟩ (by
      intro k hk v ⟨hv, hi⟩
      have hk' : k < o.now.length := by omega
      have hkv : k < v.length := by omega
      refine ⟨v.set k o.now[k], ?_, by simpa using hv, ?_⟩
      · simp only [copyPoint, h0, List.getElem?_eq_getElem hk', upd, List.getElem?_eq_getElem hkv]
      · intro i hik
        rw [List.getElem?_set]
        by_cases e : k = i
        · subst e; rw [if_pos rfl, if_pos hkv, List.getElem?_eq_getElem hk']
        · rw [if_neg e]; exact hi i (by omega))
  rw [h1]
  congr 1
  apply List.ext_getElem?
  intro i
  by_cases e : i < vals.length
  · exact h3 i e
  · rw [List.getElem?_eq_none (by omega), List.getElem?_eq_none (by omega)]

/-- C26, what holds: a sum with exactly one member multiplies each point with the member. -/
theorem C26_single_partial {K : Type} [NonUnitalNonAssocSemiring K] (o : GridOp K) (n : Nat) (hn : n ≠ 0)
    (h1 : o.now.length = n) (h2 : o.next.length = n) (src : List K) (hs : src.length = n) :
    ∃ s s' res, (GridSum.new K).addAll [o] = .ok s ∧ s.apply src = some (s', res) ∧
      res = pointwise [o] src := by
  obtain ⟨s, hadd, hh⟩ := addAll_holds hn [o] (GridSum.new K) [] (Or.inr ⟨rfl, rfl⟩)
    (by simpa using h1) (by simp) (by simp)
  have h0 : s.slots[0]? = some (some o) := by simpa using hh.slots 0 (by omega)
  have hc := hh.cap
  have hupd : updateSlot 0 s.slots = some (s.slots.set 0 (some o.updateTime)) := by
    simp only [updateSlot, h0]
  have hcopy := copy_loop (s.slots.set 0 (some o.updateTime)) o.updateTime
    (by rw [List.getElem?_set_self (by omega)]) s.vals (by
      show o.next.length = _
      rw [h2, hh.vals])
  have hsz : s.size = 1 := by simpa using hh.size
  have hup : s.update = some { s with slots := s.slots.set 0 (some o.updateTime), vals := o.next, upToDate := true } := by
    unfold GridSum.update
    rw [hupd]
    dsimp only
    rw [hcopy]
    dsimp only
    rw [if_neg (by omega)]
    rfl
  refine ⟨s, { s with slots := s.slots.set 0 (some o.updateTime), vals := o.next, upToDate := true }, _,
    hadd, ?_, rfl⟩
  unfold GridSum.apply
  rw [hh.stale, if_neg (by simp), hup]
  simp only [Option.some.injEq, Prod.mk.injEq, true_and]
  apply List.ext_getElem
  · simp [pointwise, hs, h2]
  · intro i a b
    have hi : i < src.length := by simp at a; omega
    simp [pointwise, List.getD_eq_getElem?_getD, List.getElem?_eq_getElem hi,
      List.getElem?_eq_getElem (show i < o.next.length by omega)]

/-- C26 is violated for every sum with two or more members on every grid: applying it (and updating it)
dereferences a null pointer or leaves the array, because the addition loop runs after the loop over the
members with its final index. -/
theorem C26_violated {K : Type} [NonUnitalNonAssocSemiring K] (ops : List (GridOp K)) (n : Nat)
    (hn : n ≠ 0) (h1 : ∀ o ∈ ops, o.now.length = n) (h2 : ∀ o ∈ ops, o.next.length = n)
    (hlen : 2 ≤ ops.length ∧ ops.length ≤ 16) (src : List K) :
    ∃ s, (GridSum.new K).addAll ops = .ok s ∧ s.apply src = none ∧ s.updateTime = none := by
  obtain ⟨s, hadd, hh⟩ := addAll_holds hn ops (GridSum.new K) [] (Or.inr ⟨rfl, rfl⟩)
    h1 (by simpa using hlen.2) (by intro e; simp at e; simp [e] at hlen)
  rw [List.nil_append] at hh
  have hup : s.update = none := by
    obtain ⟨o, os, rfl⟩ : ∃ o os, ops = o :: os := by
      cases ops with
      | nil => simp at hlen
      | cons o os => exact ⟨o, os, rfl⟩
    have hsz := hh.size
    have hcap := hh.cap
    have h0 : s.slots[0]? = some (some o) := by simpa using hh.slots 0 (by omega)
    unfold GridSum.update
    have hupd : updateSlot 0 s.slots = some (s.slots.set 0 (some o.updateTime)) := by
      simp only [updateSlot, h0]
    have hcopy := copy_loop (s.slots.set 0 (some o.updateTime)) o.updateTime
      (by rw [List.getElem?_set_self (by omega)]) s.vals (by
        show o.next.length = _
        rw [h2 o (List.mem_cons_self ..), hh.vals])
    rw [hupd]
    dsimp only
    rw [hcopy]
    dsimp only
    rw [if_pos (by simp at hlen; rw [hsz]; simp; omega)]
    cases hl : loop (s.size - 1) (fun j => updateSlot (j + 1)) (s.slots.set 0 (some o.updateTime)) with
    | none => rfl
    | some slots2 =>
      dsimp only
      have hnone : slots2[s.size]? = none ∨ slots2[s.size]? = some none := by
        have key : ∀ m, m ≤ s.size - 1 → ∀ t, loop m (fun j => updateSlot (j + 1))
            (s.slots.set 0 (some o.updateTime)) = some t →
            t[s.size]? = none ∨ t[s.size]? = some none := by
          intro m
          induction m with
          | zero =>
            intro _ t ht
            simp only [loop, Option.some.injEq] at ht
            subst ht
            rw [List.getElem?_set_ne (by omega)]
            by_cases e : s.size < 16
            · right
              rw [hh.slots _ e, hsz]; simp
            · left
              rw [List.getElem?_eq_none (by omega)]
          | succ m ih =>
            intro hm t ht
            simp only [loop] at ht
            cases hl' : loop m (fun j => updateSlot (j + 1)) (s.slots.set 0 (some o.updateTime)) with
            | none => rw [hl'] at ht; simp at ht
            | some t' =>
              rw [hl'] at ht
              simp only [Option.bind_some, updateSlot] at ht
              have := ih (by omega) t' hl'
              split at ht
              · simp only [Option.some.injEq] at ht
                subst ht
                rw [List.getElem?_set_ne (by omega)]
                exact this
              · simp at ht
        exact key (s.size - 1) (Nat.le_refl _) slots2 hl
      have hlen' : o.updateTime.now.length = n := h2 o (List.mem_cons_self ..)
      rw [hlen']
      have : loop n (addPoint slots2 s.size) o.updateTime.now = none := by
        obtain ⟨m, rfl⟩ : ∃ m, n = m + 1 := ⟨n - 1, by omega⟩
        have bad : ∀ i v, addPoint slots2 s.size i v = none := by
          intro i v
          unfold addPoint
          rcases hnone with h | h <;> rw [h]
        simp only [loop]
        cases loop m (addPoint slots2 s.size) o.updateTime.now with
        | none => rfl
        | some v => exact bad m v
      rw [this]
  refine ⟨s, hadd, ?_, ?_⟩
  · unfold GridSum.apply
    rw [hh.stale, if_neg (by simp), hup]
  · unfold GridSum.updateTime
    rw [if_pos (by rw [hh.size]; omega), hup]

/-- C26: a null operator, an operator on another grid and a seventeenth operator are rejected, without
changing the sum. -/
theorem C26_rejects {K : Type} [Zero K] (ops : List (GridOp K)) (n : Nat) (hn : n ≠ 0)
    (h1 : ∀ o ∈ ops, o.now.length = n) (hlen : 1 ≤ ops.length ∧ ops.length ≤ 16) :
    ∃ s, (GridSum.new K).addAll ops = .ok s ∧ s.add none = .threw s ∧
      (∀ o, o.now.length ≠ n → s.add (some o) = .threw s) ∧
      (ops.length = 16 → ∀ o, s.add o = .threw s) := by
  obtain ⟨s, hadd, hh⟩ := addAll_holds hn ops (GridSum.new K) [] (Or.inr ⟨rfl, rfl⟩)
    h1 (by simpa using hlen.2) (by intro e; simp at e; simp [e] at hlen)
  rw [List.nil_append] at hh
  have hv := hh.vals
  have hs := hh.size
  refine ⟨s, hadd, ?_, ?_, ?_⟩
  · unfold GridSum.add; split <;> rfl
  · intro o ho
    unfold GridSum.add
    split
    · rfl
    · dsimp only
      rw [if_neg (show ¬ s.vals.length = 0 by omega), if_pos (by omega)]
  · intro h16 o
    unfold GridSum.add
    rw [if_pos (by omega)]

/-- The hypotheses of `C26_single_partial`, `C26_violated` and `C26_rejects` are met by potentials on two
points. -/
example : (∀ o ∈ [GridOp.mk [1, 2] [1, 2], GridOp.mk [3, 4] [(3 : Int), 4]], o.now.length = 2) ∧
    pointwise [GridOp.mk [1, 2] [1, 2], GridOp.mk [3, 4] [(3 : Int), 4]] [1, 1] = [4, 6] := by
  decide

end QDng.Ops
