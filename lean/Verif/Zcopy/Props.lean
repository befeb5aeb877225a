import Verif.Zcopy.Model

/-
Properties C209 and C210: copying between memory and streams with their own buffers.
-/

namespace QDng.Zcopy

/-- All bytes an input stream will deliver. -/
def IStream.rest {B : Type} (s : IStream B) : List B := s.pieces.flatten

theorem fill_new {B : Type} (bytes : List (Option B)) (n : Nat) (xs : List B) :
    fill (bytes ++ List.replicate n none) n xs =
      bytes ++ (xs.map some ++ List.replicate (n - xs.length) none) := by
  unfold fill
  have h1 : (bytes ++ List.replicate n none).length - n = bytes.length := by simp
  rw [h1, List.take_left, List.drop_length_add_append, List.drop_replicate]

/-- The loop: what has been written, and how much the last buffer is too long. -/
theorem writeLoop_spec {B : Type} (sizes : List Nat) :
    ∀ (bytes : List (Option B)) (data : List B) (last : Option (Nat × Nat)), data ≠ [] →
      data.length ≤ sizes.sum →
      ∃ left n len pad, writeLoop bytes sizes data last =
        .ok (⟨bytes ++ (data.map some ++ List.replicate pad none), left⟩, some (n, len)) ∧
        pad = n - len ∧ len ≤ n ∧ ∃ used, sizes = used ++ left ∧ used ≠ [] ∧ used.dropLast.sum < data.length := by
  induction sizes with
  | nil =>
    intro bytes data last hne hlen
    cases data with
    | nil => exact absurd rfl hne
    | cons x r => simp at hlen
  | cons n sizes ih =>
    intro bytes data last hne hlen
    cases data with
    | nil => exact absurd rfl hne
    | cons x r =>
      rw [writeLoop]
      by_cases hn : n > (x :: r).length
      · rw [if_pos hn, List.take_length, List.drop_length, fill_new]
        refine ⟨sizes, n, (x :: r).length, n - (x :: r).length, ?_, rfl, Nat.le_of_lt hn, [n], rfl, by simp, ?_⟩
        · cases sizes <;> rfl
        · simp
      · rw [if_neg hn, fill_new, List.length_take, Nat.min_eq_left (Nat.le_of_not_lt hn), Nat.sub_self,
          List.replicate_zero, List.append_nil]
        by_cases he : (x :: r).drop n = []
        · rw [he]
          have hfull : (x :: r).take n = x :: r := by
            have := List.take_append_drop n (x :: r)
            rw [he, List.append_nil] at this
            exact this
          refine ⟨sizes, n, n, 0, ?_, by omega, Nat.le_refl n, [n], rfl, by simp, by simp⟩
          rw [hfull, List.replicate_zero, List.append_nil]
          cases sizes <;> rfl
        · have hl : ((x :: r).drop n).length ≤ sizes.sum := by
            rw [List.length_drop]
            simp only [List.sum_cons] at hlen
            omega
          obtain ⟨left, m, len, pad, h1, h2, h3, used, h4, h5, h6⟩ :=
            ih (bytes ++ ((x :: r).take n).map some) ((x :: r).drop n) (some (n, n)) he hl
          refine ⟨left, m, len, pad, ?_, h2, h3, n :: used, by rw [h4]; rfl, by simp, ?_⟩
          · rw [h1]
            congr 3
            rw [List.append_assoc, ← List.append_assoc (List.map some ((x :: r).take n)), ← List.map_append,
              List.take_append_drop]
          · rw [List.dropLast_cons_of_ne_nil h5, List.sum_cons]
            rw [List.length_drop] at h6
            omega

/-- **C209.**  Writing appends exactly the given bytes to the stream, whatever sizes the buffers of
the stream have, if there is at least one byte and the stream provides enough space: nothing
unspecified stays in the output, and not more buffers are taken than needed. -/
theorem C209_write_partial {B : Type} (s : OStream B) (data : List B) (hne : data ≠ [])
    (hlen : data.length ≤ s.sizes.sum) :
    ∃ left used, write s data = .ok ⟨s.bytes ++ data.map some, left⟩ ∧ s.sizes = used ++ left ∧
      used.dropLast.sum < data.length := by
  obtain ⟨left, n, len, pad, h1, h2, h3, used, h4, h5, h6⟩ :=
    writeLoop_spec s.sizes s.bytes data none hne hlen
  refine ⟨left, used, ?_, h4, h6⟩
  unfold write
  rw [h1]
  simp only
  by_cases hp : n - len > 0
  · rw [if_pos hp]
    congr 2
    rw [h2, ← List.append_assoc]
    have e : (s.bytes ++ data.map some ++ List.replicate (n - len) none).length - (n - len) =
        (s.bytes ++ data.map some).length := by
      rw [List.length_append, List.length_replicate, Nat.add_sub_cancel]
    rw [e, List.take_left]
  · rw [if_neg hp]
    have : pad = 0 := by omega
    rw [this, List.replicate_zero, List.append_nil]

example : ∃ left used, write (⟨[], [2, 0, 4, 4]⟩ : OStream Nat) [1, 2, 3] = .ok ⟨[some 1, some 2, some 3], left⟩ ∧
    [2, 0, 4, 4] = used ++ left ∧ used.dropLast.sum < 3 :=
  C209_write_partial ⟨[], [2, 0, 4, 4]⟩ [1, 2, 3] (by simp) (by simp)

/-- **C209.**  If the stream runs out of space, an exception is thrown. -/
theorem C209_full_partial {B : Type} (s : OStream B) (data : List B) (hlen : s.sizes.sum < data.length) :
    ∃ s', write s data = .threw s' := by
  have hloop : ∀ (sizes : List Nat) (bytes : List (Option B)) (data : List B) (last : Option (Nat × Nat)),
      sizes.sum < data.length → ∃ s' l, writeLoop bytes sizes data last = .threw (s', l) := by
    intro sizes
    induction sizes with
    | nil =>
      intro bytes data last h
      cases data with
      | nil => simp at h
      | cons x r => exact ⟨_, _, rfl⟩
    | cons n sizes ih =>
      intro bytes data last h
      cases data with
      | nil => simp at h
      | cons x r =>
        rw [writeLoop]
        rw [List.sum_cons] at h
        rw [if_neg (by omega)]
        refine ih _ _ _ ?_
        rw [List.length_drop]
        omega
  obtain ⟨s', l, h⟩ := hloop s.sizes s.bytes data none hlen
  refine ⟨s', ?_⟩
  unfold write
  rw [h]

example : ∃ s', write (⟨[], [1, 1]⟩ : OStream Nat) [1, 2, 3] = .threw s' :=
  C209_full_partial _ _ (by simp)

/-- **C209 is violated** for zero bytes: a variable that is not initialised decides whether bytes
written earlier are taken back. -/
theorem C209_violated_empty {B : Type} (s : OStream B) : write s [] = .ub := by
  unfold write
  cases h : s.sizes <;> rfl

/-- The loop of the reader. -/
theorem readLoop_spec {B : Type} (pieces : List (List B)) :
    ∀ (size : Nat) (acc : List B) (last : List B × Nat), last.2 ≤ last.1.length →
      (size = 0 ∨ last.2 = last.1.length) → size ≤ pieces.flatten.length →
      ∃ left p len, readLoop pieces size acc last =
        .ok (acc ++ pieces.flatten.take size, ⟨left⟩, (p, len)) ∧ len ≤ p.length ∧
        p.drop len ++ left.flatten = last.1.drop last.2 ++ pieces.flatten.drop size := by
  induction pieces with
  | nil =>
    intro size acc last hl hs hsize
    have : size = 0 := by simpa using hsize
    subst this
    refine ⟨[], last.1, last.2, ?_, hl, ?_⟩
    · simp [readLoop]
    · simp
  | cons q pieces ih =>
    intro size acc last hl hs hsize
    cases size with
    | zero =>
      refine ⟨q :: pieces, last.1, last.2, ?_, hl, ?_⟩
      · simp [readLoop]
      · simp
    | succ k =>
      rw [readLoop]
      have hlast : last.2 = last.1.length := by
        rcases hs with h | h
        · omega
        · exact h
      by_cases hq : q.length > k + 1
      · rw [if_pos hq, Nat.sub_self]
        refine ⟨pieces, q, k + 1, ?_, by omega, ?_⟩
        · cases pieces <;> (rw [readLoop]; congr 2; rw [List.flatten_cons, List.take_append_of_le_length (by omega)])
        · rw [hlast, List.drop_length, List.nil_append, List.flatten_cons,
            List.drop_append_of_le_length (by omega)]
      · rw [if_neg hq]
        have hle : q.length ≤ k + 1 := Nat.le_of_not_lt hq
        have hrest : k + 1 - q.length ≤ pieces.flatten.length := by
          rw [List.flatten_cons, List.length_append] at hsize
          omega
        obtain ⟨left, p, len, h1, h2, h3⟩ := ih (k + 1 - q.length) (acc ++ q.take q.length) (q, q.length)
          (Nat.le_refl _) (Or.inr rfl) hrest
        refine ⟨left, p, len, ?_, h2, ?_⟩
        · rw [h1]
          congr 2
          rw [List.take_length, List.append_assoc, List.flatten_cons, List.take_append,
            List.take_of_length_le hle]
        · rw [h3, hlast]
          simp only [List.drop_length, List.nil_append, List.flatten_cons]
          rw [List.drop_append, List.drop_of_length_le hle, List.nil_append]

/-- **C210.**  Reading delivers exactly the next `size` bytes of the stream, whatever pieces it
hands out, and leaves the stream directly behind them. -/
theorem C210_read {B : Type} (s : IStream B) (size : Nat) (h : size ≤ s.rest.length) :
    ∃ s', read s size = .ok (s.rest.take size, s') ∧ s'.rest = s.rest.drop size := by
  obtain ⟨left, p, len, h1, h2, h3⟩ := readLoop_spec s.pieces size [] ([], 0) (Nat.le_refl 0) (Or.inr rfl) h
  unfold read
  rw [h1]
  simp only [List.nil_append, List.drop_nil] at h3 ⊢
  by_cases hp : p.length - len > 0
  · rw [if_pos hp]
    exact ⟨⟨p.drop len :: left⟩, rfl, by simpa [IStream.rest] using h3⟩
  · rw [if_neg hp]
    have : p.drop len = [] := List.drop_of_length_le (by omega)
    rw [this, List.nil_append] at h3
    exact ⟨⟨left⟩, rfl, h3⟩

example : ∃ s', read (⟨[[1, 2], [], [3, 4, 5], [6]]⟩ : IStream Nat) 4 = .ok ([1, 2, 3, 4], s') ∧ s'.rest = [5, 6] :=
  C210_read ⟨[[1, 2], [], [3, 4, 5], [6]]⟩ 4 (by decide)

/-- **C210.**  If the stream has fewer bytes, an exception is thrown. -/
theorem C210_short {B : Type} (s : IStream B) (size : Nat) (h : s.rest.length < size) :
    ∃ r, read s size = .threw r := by
  have hloop : ∀ (pieces : List (List B)) (size : Nat) (acc : List B) (last : List B × Nat),
      pieces.flatten.length < size → ∃ a b c, readLoop pieces size acc last = .threw (a, b, c) := by
    intro pieces
    induction pieces with
    | nil =>
      intro size acc last h
      cases size with
      | zero => simp at h
      | succ k => exact ⟨_, _, _, rfl⟩
    | cons q pieces ih =>
      intro size acc last h
      cases size with
      | zero => omega
      | succ k =>
        rw [readLoop]
        rw [List.flatten_cons, List.length_append] at h
        rw [if_neg (by omega)]
        exact ih _ _ _ (by omega)
  obtain ⟨a, b, c, h'⟩ := hloop s.pieces size [] ([], 0) h
  refine ⟨(a, b), ?_⟩
  unfold read
  rw [h']

example : ∃ r, read (⟨[[1, 2], [3]]⟩ : IStream Nat) 4 = .threw r := C210_short _ _ (by decide)

/-- **C210.**  What was written with any buffers is read back from any pieces of the result. -/
theorem C210_round_trip {B : Type} (sizes : List Nat) (data : List B) (hne : data ≠ [])
    (hlen : data.length ≤ sizes.sum) (pieces : List (List B)) (more : List B) :
    ∀ o, write ⟨[], sizes⟩ data = .ok o → (pieces.flatten).map some = o.bytes ++ more.map some →
      ∃ s', read ⟨pieces⟩ data.length = .ok (data, s') ∧ s'.rest = more := by
  intro o ho hp
  obtain ⟨left, used, h1, _, _⟩ := C209_write_partial ⟨[], sizes⟩ data hne hlen
  rw [h1] at ho
  cases ho
  simp only [List.nil_append, ← List.map_append] at hp
  have he : pieces.flatten = data ++ more := by
    have hinj : Function.Injective (List.map (some : B → Option B)) :=
      fun a b h => (List.map_inj_right (fun x y hxy => Option.some.inj hxy)).1 h
    exact hinj hp
  obtain ⟨s', h2, h3⟩ := C210_read ⟨pieces⟩ data.length (by simp [IStream.rest, he])
  refine ⟨s', ?_, ?_⟩
  · rw [h2]
    simp [IStream.rest, he]
  · rw [h3]
    simp [IStream.rest, he]

end QDng.Zcopy
