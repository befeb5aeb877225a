import Verif.FileSeq.Model

/-! # Property C17: numbered files -/

namespace QDng.FileSeq

open QDng

/-- The number denoted by a digit string (specification). -/
def decVal (s : Str) : Nat := s.foldl (fun a c => 10 * a + (c.toNat - 48)) 0

theorem digit_val (n : Nat) : (digit n).toNat = 48 + n % 10 := by
  have h : ∀ m, m < 10 → (Char.ofNat (48 + m)).toNat = 48 + m := by decide
  exact h _ (Nat.mod_lt _ (by decide))

theorem decVal_append (s : Str) (c : Char) : decVal (s ++ [c]) = 10 * decVal s + (c.toNat - 48) := by
  simp [decVal, List.foldl_append]

theorem decVal_showNat (n : Nat) : decVal (showNat n) = n := by
  induction n using Nat.strongRecOn with
  | ind n ih =>
    rw [showNat]
    split
    · simp only [decVal, List.foldl_cons, List.foldl_nil, digit_val]; omega
    · rw [decVal_append, ih (n / 10) (by omega), digit_val]; omega

theorem showNat_inj {a b : Nat} (h : showNat a = showNat b) : a = b := by
  rw [← decVal_showNat a, h, decVal_showNat]

theorem showNat_head (n : Nat) : ∃ m t, showNat n = digit m :: t := by
  induction n using Nat.strongRecOn with
  | ind n ih =>
    rw [showNat]
    split
    · exact ⟨n, [], rfl⟩
    · obtain ⟨m, t, h⟩ := ih (n / 10) (by omega)
      exact ⟨m, t ++ [digit n], by simp [h]⟩

theorem showInt_inj {a b : Int} (h : showInt a = showInt b) : a = b := by
  have hd : ∀ m, digit m ≠ '-' := by
    intro m hm
    have := digit_val m
    rw [hm] at this
    have : (45 : Nat) = 48 + m % 10 := this
    omega
  unfold showInt at h
  split at h <;> split at h
  · rename_i h1 h2
    have := showNat_inj (List.cons.inj h).2
    omega
  · obtain ⟨m, t, e⟩ := showNat_head b.natAbs
    rw [e] at h
    exact absurd (List.cons.inj h).1.symm (hd m)
  · obtain ⟨m, t, e⟩ := showNat_head a.natAbs
    rw [e] at h
    exact absurd (List.cons.inj h).1 (hd m)
  · have := showNat_inj h
    omega

/-- **C17**: different counters give different file names. -/
theorem C17_names (s : Seq) (hs : s.sequence = true) (c d : Int) :
    (s.setCounter c).fileName = (s.setCounter d).fileName ↔ c = d := by
  constructor
  · intro h
    simp only [Seq.fileName, Seq.setCounter, hs, if_true] at h
    have h1 := List.append_cancel_left h
    exact showInt_inj (List.append_cancel_right (List.cons.inj h1).2)
  · rintro rfl; rfl

theorem advance_seq (s : Seq) (hs : s.sequence = true) : s.advance = s.setCounter (s.counter + s.increment) := by
  unfold Seq.advance Seq.setCounter; rw [if_pos hs]

theorem readAll_of (α : Type) (fs : FS α) (xs : List α) (s : Seq) (hs : s.sequence = true)
    (h : ∀ i, (hi : i < xs.length) → fs ((s.setCounter (s.counter + i * s.increment)).fileName) = some xs[i]) :
    readAll xs.length s fs = some (xs, s.setCounter (s.counter + xs.length * s.increment)) := by
  induction xs generalizing s with
  | nil => simp [readAll, Seq.setCounter]
  | cons x t ih =>
    have h0 := h 0 (by simp)
    have he : s.setCounter (s.counter + ((0 : Nat) : Int) * s.increment) = s := by simp [Seq.setCounter]
    rw [he] at h0
    simp only [List.length_cons, readAll, read]
    rw [h0]
    simp only [Option.map_some, List.getElem_cons_zero]
    rw [advance_seq s hs]
    have := ih (s.setCounter (s.counter + s.increment)) hs (by
      intro i hi
      have := h (i + 1) (by simpa using hi)
      simp only [Seq.setCounter, List.getElem_cons_succ] at this ⊢
      have e : s.counter + s.increment + (i : Int) * s.increment = s.counter + ((i + 1 : Nat) : Int) * s.increment := by
        push_cast
        rw [Int.add_mul]; omega
      rw [e, this])
    rw [this]
    simp only [Seq.setCounter, Option.some.injEq, Prod.mk.injEq, true_and]
    congr 1
    push_cast
    rw [Int.add_mul]; omega

theorem writeAll_spec {α : Type} (xs : List α) (s : Seq) (fs : FS α) (hs : s.sequence = true)
    (hinc : s.increment ≠ 0) :
    (writeAll xs (s, fs)).1 = s.setCounter (s.counter + xs.length * s.increment) ∧
    (∀ i, (hi : i < xs.length) →
      (writeAll xs (s, fs)).2 ((s.setCounter (s.counter + i * s.increment)).fileName) = some xs[i]) ∧
    (∀ n, (∀ i, i < xs.length → n ≠ (s.setCounter (s.counter + i * s.increment)).fileName) →
      (writeAll xs (s, fs)).2 n = fs n) := by
  induction xs generalizing s fs with
  | nil =>
    refine ⟨by simp [writeAll, Seq.setCounter], ?_, ?_⟩
    · intro i hi; simp at hi
    · intro n _; rfl
  | cons x t ih =>
    have hset : ∀ i : Nat, (s.setCounter (s.counter + s.increment)).setCounter
        ((s.setCounter (s.counter + s.increment)).counter + i * (s.setCounter (s.counter + s.increment)).increment)
        = s.setCounter (s.counter + ((i + 1 : Nat) : Int) * s.increment) := by
      intro i
      simp only [Seq.setCounter]
      congr 1
      push_cast
      rw [Int.add_mul]; omega
    obtain ⟨i1, i2, i3⟩ := ih (s.setCounter (s.counter + s.increment))
      (fun n => if n = s.fileName then some x else fs n) hs hinc
    have hw : writeAll (x :: t) (s, fs) = writeAll t (s.setCounter (s.counter + s.increment),
        fun n => if n = s.fileName then some x else fs n) := by
      simp [writeAll, write, advance_seq s hs]
    have hzero : s.setCounter (s.counter + ((0 : Nat) : Int) * s.increment) = s := by simp [Seq.setCounter]
    rw [hw]
    refine ⟨?_, ?_, ?_⟩
    · rw [i1, hset t.length]
      rfl
    · intro i hi
      cases i with
      | zero =>
        rw [i3]
        · rw [hzero]; simp
        · intro j hj hc
          rw [hset j, C17_names s hs] at hc
          push_cast at hc
          rw [Int.zero_mul, Int.add_zero] at hc
          have : ((j : Int) + 1) * s.increment = 0 := by omega
          rcases Int.mul_eq_zero.1 this with h | h
          · omega
          · exact hinc h
      | succ i =>
        have := i2 i (by simpa using hi)
        rw [hset i] at this
        simpa using this
    · intro n hn
      rw [i3]
      · have := hn 0 (by simp)
        rw [hzero] at this
        simp [this]
      · intro j hj
        rw [hset j]
        exact hn (j + 1) (by simpa using hj)

/-- **C17**: a sequence of objects written with numbered files and read with the same start and increment
comes back in order; no other file is changed; the counters agree. -/
theorem C17_roundtrip {α : Type} (xs : List α) (s : Seq) (fs : FS α) (hs : s.sequence = true)
    (hinc : s.increment ≠ 0) :
    readAll xs.length s (writeAll xs (s, fs)).2 = some (xs, (writeAll xs (s, fs)).1) ∧
    ∀ n, (∀ i, i < xs.length → n ≠ (s.setCounter (s.counter + i * s.increment)).fileName) →
      (writeAll xs (s, fs)).2 n = fs n := by
  obtain ⟨h1, h2, h3⟩ := writeAll_spec xs s fs hs hinc
  exact ⟨by rw [h1]; exact readAll_of α _ xs s hs h2, h3⟩

/-- **C17**: reading backwards from the last file gives the objects in reverse order. -/
theorem C17_reverse {α : Type} (xs : List α) (s : Seq) (fs : FS α) (hs : s.sequence = true)
    (hinc : s.increment = 1) :
    ∃ s', readAll xs.length ((s.setCounter (s.counter + (xs.length : Int) - 1)).reverse) (writeAll xs (s, fs)).2
      = some (xs.reverse, s') := by
  obtain ⟨_, h2, _⟩ := writeAll_spec xs s fs hs (by omega)
  have := readAll_of α (writeAll xs (s, fs)).2 xs.reverse
    ((s.setCounter (s.counter + (xs.length : Int) - 1)).reverse) hs (by
      intro i hi
      have hi' : i < xs.length := by simpa using hi
      have := h2 (xs.length - 1 - i) (by omega)
      rw [List.getElem_reverse, ← this]
      simp only [Seq.fileName, Seq.setCounter, Seq.reverse, hs, if_true]
      have e : s.counter + (xs.length : Int) - 1 + (i : Int) * -1
          = s.counter + ((xs.length - 1 - i : Nat) : Int) * s.increment := by
        rw [hinc]; omega
      rw [e])
  rw [List.length_reverse] at this
  exact ⟨_, this⟩

/-- **C17**: setting the counter to the position of object `j` and reading gives object `j` and what follows. -/
theorem C17_seek {α : Type} (xs : List α) (s : Seq) (fs : FS α) (hs : s.sequence = true)
    (hinc : s.increment ≠ 0) (j : Nat) (hj : j ≤ xs.length) :
    ∃ s', readAll (xs.length - j) (s.setCounter (s.counter + j * s.increment)) (writeAll xs (s, fs)).2
      = some (xs.drop j, s') := by
  obtain ⟨_, h2, _⟩ := writeAll_spec xs s fs hs hinc
  have := readAll_of α (writeAll xs (s, fs)).2 (xs.drop j)
    (s.setCounter (s.counter + j * s.increment)) hs (by
      intro i hi
      have hi' : j + i < xs.length := by simp at hi; omega
      have := h2 (j + i) hi'
      rw [List.getElem_drop, ← this]
      simp only [Seq.fileName, Seq.setCounter, hs, if_true]
      have e : s.counter + (j : Int) * s.increment + (i : Int) * s.increment
          = s.counter + ((j + i : Nat) : Int) * s.increment := by
        push_cast; rw [Int.add_mul]; omega
      rw [e])
  rw [List.length_drop] at this
  exact ⟨_, this⟩

/-- The hypothesis on the increment is needed, and met by the default: with increment 0 the second object
replaces the first. -/
theorem C17_increment_zero {α : Type} (x y : α) (s : Seq) (fs : FS α) (hs : s.sequence = true)
    (hinc : s.increment = 0) : ∃ s', readAll 2 s (writeAll [x, y] (s, fs)).2 = some ([y, y], s') := by
  have ha : s.advance = s := by
    rw [advance_seq s hs, hinc]; simp [Seq.setCounter]
  refine ⟨s, ?_⟩
  simp [readAll, read, writeAll, write, ha]

example :
    let s : Seq := { name := "wf".toList, suffix := ".wf".toList, sequence := true, counter := 8, increment := 1 }
    s.increment ≠ 0 ∧ s.fileName = "wf_8.wf".toList ∧ s.advance.advance.fileName = "wf_10.wf".toList ∧
      readAll 3 s (writeAll [5, 6, 7] (s, fun _ => (none : Option Nat))).2
        = some ([5, 6, 7], s.setCounter 11) := by
  decide +kernel

end QDng.FileSeq
