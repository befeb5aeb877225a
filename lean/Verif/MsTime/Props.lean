import Verif.MsTime.Model
import Verif.Multi.Props

/-!
Properties of clock and time update of multistate operators.
-/

namespace QDng.MsTime

open QDng.Common QDng.Multi

variable {Op : Type}

theorem mem_row (t : Table Op) (i : Nat) (o : Op) : ∀ k, o ∈ row t i k ↔ ∃ j, j < k ∧ t i j = some o := by
  intro k
  induction k with
  | zero => exact ⟨fun h => (by cases h), fun ⟨j, h, _⟩ => by omega⟩
  | succ k ih =>
    unfold row
    have step : (∃ j, j < k + 1 ∧ t i j = some o) ↔ (∃ j, j < k ∧ t i j = some o) ∨ t i k = some o := by
      constructor
      · rintro ⟨j, h1, h2⟩
        by_cases hj : j = k
        · right; rw [← hj]; exact h2
        · left; exact ⟨j, by omega, h2⟩
      · rintro (⟨j, h1, h2⟩ | h)
        · exact ⟨j, by omega, h2⟩
        · exact ⟨k, by omega, h⟩
    rw [step, ← ih]
    cases h : t i k with
    | none => simp
    | some p =>
      simp only [List.mem_append, List.mem_singleton, Option.some.injEq]
      exact ⟨fun h => h.imp id Eq.symm, fun h => h.imp id Eq.symm⟩

theorem mem_rows (t : Table Op) (w : Nat → Nat) (o : Op) : ∀ n,
    o ∈ rows t w n ↔ ∃ i j, i < n ∧ j < w i ∧ t i j = some o := by
  intro n
  induction n with
  | zero => exact ⟨fun h => (by cases h), fun ⟨i, _, h, _⟩ => by omega⟩
  | succ n ih =>
    unfold rows
    rw [List.mem_append, ih, mem_row]
    constructor
    · rintro (⟨i, j, h1, h2, h3⟩ | ⟨j, h1, h2⟩)
      · exact ⟨i, j, by omega, h2, h3⟩
      · exact ⟨n, j, by omega, h1, h2⟩
    · rintro ⟨i, j, h1, h2, h3⟩
      by_cases hi : i = n
      · subst hi; right; exact ⟨j, h2, h3⟩
      · left; exact ⟨i, j, by omega, h2, h3⟩

/-- Spec: `o` is one of the blocks of the matrix. -/
def Block (s : MultiOp Op) (o : Op) : Prop := ∃ i j, i < s.nstates ∧ j < s.nstates ∧ s.table i j = some o

/-- **C324 (part: time update of prepared operators).**  After a preparation for a wave function, with up to 63 states or in
hermitian mode, `UpdateTime` reaches exactly the blocks of the matrix. -/
theorem C324_partial (s s' : MultiOp Op) (w : Option Nat) (hr : s.ready = false) (h : s.init w = .ok s') :
    ∃ l, updateTime s' = .val l ∧ ∀ o, o ∈ l ↔ Block s' o := by
  unfold MultiOp.init at h
  by_cases h0 : s.nstates < 1
  · rw [if_pos h0] at h; cases h
  rw [if_neg h0] at h
  cases w with
  | none => cases h
  | some n =>
    simp only [hr, Bool.false_eq_true, if_false] at h
    by_cases h1 : n ≠ s.nstates
    · rw [if_pos h1] at h; cases h
    rw [if_neg h1] at h
    by_cases h2 : s.nstates > maxStates
    · rw [if_pos h2] at h; cases h
    rw [if_neg h2] at h
    by_cases h3 : s.hermitian = true
    · rw [if_pos h3] at h
      injection h with h
      subst h
      unfold updateTime
      simp only [if_neg h2, h3, if_true]
      refine ⟨_, rfl, fun o => ?_⟩
      rw [mem_rows]
      unfold Block
      constructor
      · rintro ⟨i, j, a, b, c⟩
        exact ⟨i, j, a, by show j < s.nstates; omega, c⟩
      · rintro ⟨i, j, a, b, c⟩
        by_cases hij : j < i + 1
        · exact ⟨i, j, a, hij, c⟩
        · refine ⟨j, i, b, by omega, ?_⟩
          have a' : i < s.nstates := a
          have b' : j < s.nstates := b
          have c' : mirror s.nstates s.table i j = some o := c
          rw [mirror_eq, if_pos ⟨a', b'⟩] at c'
          show mirror s.nstates s.table j i = some o
          rw [mirror_eq, if_pos ⟨b', a'⟩, best_comm s.table j i]
          exact c'
    · rw [if_neg h3] at h
      by_cases h4 : s.nstates ≥ maxStates
      · rw [if_pos h4] at h; cases h
      rw [if_neg h4] at h
      by_cases h5 : (List.range s.nstates).any (fun i => (s.table i s.nstates).isSome) = true
      · rw [if_pos h5] at h; cases h
      rw [if_neg h5] at h
      injection h with h
      subst h
      unfold updateTime
      simp only [if_neg h2, if_neg h3, if_neg h4]
      refine ⟨_, rfl, fun o => ?_⟩
      rw [mem_rows]
      unfold Block
      constructor
      · rintro ⟨i, j, a, b, c⟩
        refine ⟨i, j, a, ?_, c⟩
        by_cases hj : j = s.nstates
        · exfalso
          apply h5
          rw [List.any_eq_true]
          refine ⟨i, List.mem_range.2 a, ?_⟩
          rw [← hj, c]
          rfl
        · show j < s.nstates
          omega
      · rintro ⟨i, j, a, b, c⟩
        exact ⟨i, j, a, Nat.lt_succ_of_lt b, c⟩

/-- **C324 (part: clock).**  `Clock` reaches exactly the blocks of the matrix, before and after a preparation. -/
theorem C324_clock_partial (s : MultiOp Op) (hn : s.nstates ≤ 64) :
    ∃ l, clock s = .val l ∧ ∀ o, o ∈ l ↔ Block s o := by
  unfold clock
  rw [if_neg (by unfold maxStates; omega)]
  refine ⟨_, rfl, fun o => ?_⟩
  rw [mem_rows]
  rfl

/-- **C324 is false before a preparation**: a coupling that is given in the upper triangle only is not reached. -/
theorem C324_violated (o : Op) (i j : Nat) (hij : i < j) (hj : j < 64) :
    ∃ s, (MultiOp.new Op).add o i j = .ok s ∧ Block s o ∧ updateTime s = .val [] := by
  have hadd : (MultiOp.new Op).add o i j = .ok
      ⟨true, j + 1, false, (MultiOp.new Op).table.set i j (some o), false⟩ := by
    unfold MultiOp.add
    have e1 : ¬ ((i : Int) ≥ maxStates ∨ (j : Int) ≥ maxStates) := by unfold maxStates; omega
    have e2 : ¬ ((i : Int) < 0 ∨ (j : Int) < 0) := by omega
    have hne : ¬ (j = i ∧ i = j) := by omega
    rw [if_neg e1, if_neg e2]
    simp [MultiOp.new, Table.set, hij, hne]
  refine ⟨_, hadd, ⟨i, j, by show i < j + 1; omega, by show j < j + 1; omega, by simp [Table.set]⟩, ?_⟩
  unfold updateTime
  rw [if_neg (by show ¬ j + 1 > maxStates; unfold maxStates; omega), if_pos rfl]
  congr 1
  rw [List.eq_nil_iff_forall_not_mem]
  intro p hp
  obtain ⟨a, b, h1, h2, h3⟩ := (mem_rows _ _ p _).1 hp
  have : ¬ (a = i ∧ b = j) := by omega
  simp [Table.set, this, MultiOp.new] at h3

/-- **C324 is false for 64 states** that are not in hermitian mode: the array is left. -/
theorem C324_violated_64 (s : MultiOp Op) (hh : s.hermitian = false) (hn : s.nstates = 64) : updateTime s = .ub := by
  unfold updateTime
  simp [hh, hn, maxStates]

/-! ### The hypotheses are met -/

/-- Two states with a coupling in the upper triangle: after the preparation it is reached. -/
example : ∃ s s' : MultiOp Nat, s.ready = false ∧ s.init (some 2) = .ok s' ∧ updateTime s' = .val [5, 7] :=
  ⟨⟨true, 2, false, fun a b => if a = 0 ∧ b = 0 then some 5 else if a = 0 ∧ b = 1 then some 7 else none, false⟩, _, rfl, rfl,
    rfl⟩

/-- Without hermitian mode. -/
example : ∃ s s' : MultiOp Nat, s.ready = false ∧ s.hermitian = false ∧ s.init (some 2) = .ok s'
    ∧ updateTime s' = .val [7, 8] :=
  ⟨⟨false, 2, false, fun a b => if a = 0 ∧ b = 1 then some 7 else if a = 1 ∧ b = 0 then some 8 else none, false⟩, _, rfl, rfl,
    rfl, rfl⟩

/-- 64 states can be asked for in the parameters. -/
example : ∃ s, (MultiOp.new Nat).initParams true true (some 64) = .ok s ∧ s.hermitian = false ∧ s.nstates = 64 :=
  ⟨_, rfl, rfl, rfl⟩

end QDng.MsTime
