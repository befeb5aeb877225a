import Verif.Tmp.Model

/-
Properties C218 to C221: temporary files and pipes.
-/

namespace QDng.Tmp

variable {T : Type}

/-! ### Contents -/

/-- The element at a position of a file on which blocks were written one behind the other: the last
block that covers it decides. -/
def lastWrite (old : Nat → Option T) : List (Nat × List T) → Nat → Option T
  | [], i => old i
  | (p, xs) :: ws, i =>
    lastWrite (fun j => if p ≤ j ∧ j < p + xs.length then xs[j - p]? else old j) ws i

/-- One block. -/
theorem put_get (zero : T) (c : List T) (pos : Nat) (xs : List T) (hp : pos ≤ c.length) (j : Nat) :
    (put zero c pos xs)[j]? = if pos ≤ j ∧ j < pos + xs.length then xs[j - pos]? else c[j]? := by
  unfold put
  rw [Nat.sub_eq_zero_of_le hp, List.replicate_zero, List.append_nil]
  have hl : (c.take pos).length = pos := by rw [List.length_take, Nat.min_eq_left hp]
  by_cases h1 : j < pos
  · rw [List.getElem?_append_left (by omega), if_neg (by omega), List.getElem?_take, if_pos h1]
  · rw [List.getElem?_append_right (by omega), hl]
    by_cases h2 : j < pos + xs.length
    · rw [if_pos (by omega), List.getElem?_append_left (by omega)]
    · rw [if_neg (by omega), List.getElem?_append_right (by omega), List.getElem?_drop]
      congr 1
      omega

theorem put_length (zero : T) (c : List T) (pos : Nat) (xs : List T) (hp : pos ≤ c.length) :
    (put zero c pos xs).length = max c.length (pos + xs.length) := by
  unfold put
  rw [Nat.sub_eq_zero_of_le hp, List.replicate_zero, List.append_nil]
  simp only [List.length_append, List.length_take, List.length_drop]
  omega

/-- The user writes a block: `Seek` and `Write`. -/
def block (zero : T) (sz : Nat) (s : State T) (p : Nat) (xs : List T) : Res (State T) Unit :=
  match s.seek sz p with
  | .ok s _ => s.write zero true xs
  | .threw s => .threw s

/-- The user writes blocks one behind the other. -/
def blocks (zero : T) (sz : Nat) : State T → List (Nat × List T) → Res (State T) Unit
  | s, [] => .ok s ()
  | s, (p, xs) :: ws =>
    match block zero sz s p xs with
    | .ok s _ => blocks zero sz s ws
    | .threw s => .threw s

/-- The object is open on a file with the given contents. -/
structure Good (s : State T) (c : List T) : Prop where
  isOpen : s.isOpen = true
  file : s.files s.name = some c
  fd : ∃ p, s.fd = .live p

theorem seek_good (sz : Nat) (s : State T) (c : List T) (h : Good s c) (p : Nat) (hs : seekFails (p * sz) = false) :
    s.seek sz p = .ok { s with fd := .live p } () ∧ Good { s with fd := .live p } c := by
  obtain ⟨q, hq⟩ := h.fd
  refine ⟨?_, h.isOpen, h.file, p, rfl⟩
  unfold State.seek
  rw [hq]
  simp only [hs, Bool.false_eq_true, if_false]

theorem block_good (zero : T) (sz : Nat) (s : State T) (c : List T) (h : Good s c) (p : Nat) (xs : List T)
    (hs : seekFails (p * sz) = false) :
    ∃ s', block zero sz s p xs = .ok s' () ∧ Good s' (put zero c p xs) ∧ s'.name = s.name ∧ s'.size = s.size := by
  obtain ⟨h1, h2⟩ := seek_good sz s c h p hs
  unfold block
  rw [h1]
  simp only
  refine ⟨_, rfl, ⟨h.isOpen, ?_, p + xs.length, rfl⟩, rfl, rfl⟩
  show setFile s.files s.name (some (put zero ((s.files s.name).getD []) p xs)) s.name = _
  rw [h.file]
  exact if_pos rfl

theorem blocks_good (zero : T) (sz : Nat) (ws : List (Nat × List T)) : ∀ (s : State T) (c : List T), Good s c →
    (∀ w ∈ ws, seekFails (w.1 * sz) = false ∧ w.1 + w.2.length ≤ c.length) →
    ∃ s' c', blocks zero sz s ws = .ok s' () ∧ Good s' c' ∧ c'.length = c.length ∧ s'.name = s.name ∧
      ∀ i, c'[i]? = lastWrite (fun j => c[j]?) ws i := by
  induction ws with
  | nil => intro s c h _; exact ⟨s, c, rfl, h, rfl, rfl, fun _ => rfl⟩
  | cons w ws ih =>
    intro s c h hw
    obtain ⟨p, xs⟩ := w
    have hp := hw (p, xs) (by simp)
    have hpl : p ≤ c.length := by have := hp.2; simp only at this; omega
    obtain ⟨s1, h1, h2, h3, h4⟩ := block_good zero sz s c h p xs hp.1
    have hlen : (put zero c p xs).length = c.length := by
      rw [put_length zero c p xs hpl]
      have := hp.2
      simp only at this
      omega
    obtain ⟨s2, c2, g1, g2, g3, g4, g5⟩ := ih s1 (put zero c p xs) h2
      (fun w hw' => by rw [hlen]; exact hw w (List.mem_cons_of_mem _ hw'))
    refine ⟨s2, c2, ?_, g2, by rw [g3, hlen], by rw [g4, h3], fun i => ?_⟩
    · rw [blocks, h1]
      exact g1
    · rw [g5 i, lastWrite]
      congr 1
      funext j
      exact put_get zero c p xs hpl j

theorem read_good (sz : Nat) (s : State T) (c : List T) (h : Good s c) (q n : Nat) (hs : seekFails (q * sz) = false)
    (hn : q + n ≤ c.length) :
    ∃ s1 s2, s.seek sz q = .ok s1 () ∧ s1.read sz n = .ok s2 ((c.drop q).take n, n * sz) := by
  obtain ⟨h1, h2⟩ := seek_good sz s c h q hs
  refine ⟨_, { s with fd := .live (q + n) }, h1, ?_⟩
  unfold State.read
  simp only
  rw [h.file]
  simp only [Option.getD_some]
  have hl : ((c.drop q).take n).length = n := by
    rw [List.length_take, List.length_drop]
    omega
  rw [if_neg (by rw [hl]; simp)]

theorem setFile_twice (files : Str → Option (List T)) (n : Str) (a b : Option (List T)) :
    setFile (setFile files n a) n b = setFile files n b := by
  funext m
  unfold setFile
  by_cases h : m = n
  · rw [if_pos h, if_pos h]
  · rw [if_neg h, if_neg h, if_neg h]

/-- The state behind the opening with a size. -/
theorem open_eq (zero : T) (sz : Nat) (s : State T) (name : Str) (size : Nat) (hsize : 0 < size)
    (hok : seekFails (size * sz - 1) = false) (hnew : s.isOpen = false) :
    s.open zero sz (some name) true true size false =
      .ok ⟨setFile s.files name (some (List.replicate size zero)), name, .live size, size, true, false⟩ .null := by
  have hput : put zero ([] : List T) (size - 1) [zero] = List.replicate size zero := by
    unfold put
    simp only [List.nil_append, List.length_nil, Nat.sub_zero, List.drop_nil, List.append_nil]
    rw [List.take_of_length_le (by simp)]
    have : size = (size - 1) + 1 := by omega
    conv => rhs; rw [this]
    rw [List.replicate_succ']
  have hself : setFile s.files name (some []) name = some [] := if_pos rfl
  unfold State.open State.upsize
  simp only [hnew, Bool.false_eq_true, if_false, hok, Bool.not_true]
  rw [if_pos hsize]
  simp only [hself, Option.getD_some, hput, setFile_twice]

/-- **C218.**  The file works like an array: blocks written one behind the other anywhere in a file that
was opened with a size are read back, at each position the last one, zeros where nothing was written.
Positions in bytes must not be congruent −1 modulo 2^32. -/
theorem C218_array_partial (zero : T) (sz : Nat) (s : State T) (name : Str) (size : Nat) (hsize : 0 < size)
    (hok : seekFails (size * sz - 1) = false) (hnew : s.isOpen = false)
    (ws : List (Nat × List T)) (hw : ∀ w ∈ ws, seekFails (w.1 * sz) = false ∧ w.1 + w.2.length ≤ size)
    (q n : Nat) (hq : seekFails (q * sz) = false) (hn : q + n ≤ size) :
    ∃ s1 s2 s3 s4 xs, s.open zero sz (some name) true true size false = .ok s1 .null ∧
      blocks zero sz s1 ws = .ok s2 () ∧ s2.seek sz q = .ok s3 () ∧ s3.read sz n = .ok s4 (xs, n * sz) ∧
      xs.length = n ∧
      ∀ i, i < n → xs[i]? = lastWrite (fun j => if j < size then some zero else none) ws (q + i) := by
  have hopen : ∃ s1, s.open zero sz (some name) true true size false = .ok s1 .null ∧
      Good s1 (List.replicate size zero) := by
    exact ⟨_, open_eq zero sz s name size hsize hok hnew, rfl, if_pos rfl, size, rfl⟩
  obtain ⟨s1, h1, g1⟩ := hopen
  obtain ⟨s2, c2, h2, g2, l2, _, e2⟩ := blocks_good zero sz ws s1 _ g1
    (fun w h => by rw [List.length_replicate]; exact hw w h)
  rw [List.length_replicate] at l2
  obtain ⟨s3, s4, h3, h4⟩ := read_good sz s2 c2 g2 q n hq (by rw [l2]; exact hn)
  refine ⟨s1, s2, s3, s4, _, h1, h2, h3, h4, ?_, fun i hi => ?_⟩
  · rw [List.length_take, List.length_drop]
    omega
  · rw [List.getElem?_take, if_pos hi, List.getElem?_drop, e2]
    congr 1
    funext j
    rw [List.getElem?_replicate]

example : ∃ s1 s2 s3 s4 xs, (State.new fun _ => none : State Nat).open 0 8 (some "t".toList) true true 4 false = .ok s1 .null ∧
      blocks 0 8 s1 [(0, [5, 6]), (1, [7])] = .ok s2 () ∧ s2.seek 8 0 = .ok s3 () ∧ s3.read 8 3 = .ok s4 (xs, 24) ∧
      xs.length = 3 ∧ ∀ i, i < 3 → xs[i]? = lastWrite (fun j => if j < 4 then some 0 else none) [(0, [5, 6]), (1, [7])] (0 + i) :=
  C218_array_partial 0 8 (State.new fun _ => none) "t".toList 4 (by decide) (by decide) rfl [(0, [5, 6]), (1, [7])]
    (by decide) 0 3 (by decide) (by decide)

/-- The specification on the sample. -/
theorem lastWrite_sample : (List.range 4).map
    (lastWrite (fun j => if j < 4 then some 0 else none) [(0, [5, 6]), (1, [7])]) = [some 5, some 7, some 0, some 0] := by
  decide

/-- **C218 is violated**: directly after the opening with a size the position is the end of the file: a
read fails, a write makes the file longer. -/
theorem C218_violated_position (zero x : T) (sz : Nat) (s : State T) (name : Str) (size : Nat) (hsize : 0 < size)
    (hok : seekFails (size * sz - 1) = false) (hnew : s.isOpen = false) :
    ∃ s1, s.open zero sz (some name) true true size false = .ok s1 .null ∧
      (∃ s2, s1.read sz 1 = .threw s2) ∧
      (∃ s2 c, s1.write zero true [x] = .ok s2 () ∧ s2.files name = some c ∧ c.length = size + 1) := by
  refine ⟨_, open_eq zero sz s name size hsize hok hnew, ?_, ?_⟩
  · refine ⟨⟨setFile s.files name (some (List.replicate size zero)), name, .stale, size, false, false⟩, ?_⟩
    unfold State.read
    simp only [setFile, if_true, Option.getD_some]
    rw [if_pos (by simp)]
  · refine ⟨⟨setFile (setFile s.files name (some (List.replicate size zero))) name
      (some (put zero (List.replicate size zero) size [x])), name, .live (size + 1), size, true, false⟩,
      put zero (List.replicate size zero) size [x], ?_, if_pos rfl, ?_⟩
    · unfold State.write
      simp only [Bool.not_true, Bool.false_eq_true, if_false]
      have hself : setFile s.files name (some (List.replicate size zero)) name = some (List.replicate size zero) :=
        if_pos rfl
      rw [hself]
      rfl
    · rw [put_length _ _ _ _ (by simp)]
      simp

example : seekFails (4 * 8 - 1) = false := by decide

/-- **C218 is violated**: a file whose size in bytes is a multiple of 2^32 cannot be created, although the
system can; a file is left behind that nobody removes. -/
theorem C218_violated_large (zero : T) (sz : Nat) (s : State T) (name : Str) (size k : Nat) (hk : 0 < k)
    (hsz : size * sz = k * 2 ^ 32) (hnew : s.isOpen = false) (memmap mapOk : Bool) :
    ∃ s1, s.open zero sz (some name) true mapOk size memmap = .threw s1 ∧ s1.destroy.files name = some [] := by
  have hf : seekFails (size * sz - 1) = true := by
    unfold seekFails
    have : (size * sz - 1) % 2 ^ 32 = 2 ^ 32 - 1 := by rw [hsz]; omega
    rw [this]
    simp
  have hpos : 0 < size := by
    rcases Nat.eq_zero_or_pos size with h | h
    · subst h
      omega
    · exact h
  unfold State.open State.upsize
  simp only [hnew, Bool.false_eq_true, if_false, hf, if_true]
  rw [if_pos hpos]
  exact ⟨_, rfl, if_pos rfl⟩

example : (2 ^ 29) * 8 = 1 * 2 ^ 32 := by decide

/-! ### Cleaning up -/

/-- The names given by the system for new files are unused. -/
def freshOk (s : State T) : Call T → Bool
  | .open (some n) _ _ _ _ => ((if s.isOpen then s.close true else s).files n).isNone
  | _ => true

/-- Files behind a sequence of calls that all end normally, and whether they do; the names given by the
system for new files are unused at the time. -/
def allOk (zero : T) (sz : Nat) : State T → List (Call T) → Option (State T)
  | s, [] => some s
  | s, c :: cs =>
    if freshOk s c && (s.call zero sz c).2 then allOk zero sz (s.call zero sz c).1 cs else none

/-- The object holds the only additional file. -/
def Only (files : Str → Option (List T)) (s : State T) : Prop :=
  (∀ p, s.fd = .live p → s.isOpen = true) ∧ (s.isOpen = false → s.files = files) ∧
    (s.isOpen = true → files s.name = none ∧ ∀ n, n ≠ s.name → s.files n = files n)

theorem close_only (files : Str → Option (List T)) (s : State T) (h : Only files s) :
    (s.close true).files = files ∧ (s.close true).isOpen = false ∧ ∀ p, (s.close true).fd ≠ .live p := by
  unfold State.close
  cases ho : s.isOpen with
  | false => 
    simp only [Bool.not_false, if_true]
    refine ⟨h.2.1 ho, ho, fun p hp => ?_⟩
    have := h.1 p hp
    rw [ho] at this
    cases this
  | true =>
    simp only [Bool.not_true, Bool.false_eq_true, if_false, if_true]
    refine ⟨?_, trivial, nofun⟩
    funext n
    unfold setFile
    by_cases hn : n = s.name
    · rw [if_pos hn, hn, (h.2.2 ho).1]
    · rw [if_neg hn, (h.2.2 ho).2 n hn]

theorem call_only (zero : T) (sz : Nat) (files : Str → Option (List T)) (s : State T) (h : Only files s) (c : Call T)
    (hkeep : ∀ r, c = .close r → r = true)
    (hfresh : ∀ n a b k m, c = .open (some n) a b k m → (if s.isOpen then s.close true else s).files n = none)
    (hok : (s.call zero sz c).2 = true) : Only files (s.call zero sz c).1 := by
  cases c with
  | «open» temp space mapOk size memmap =>
    have h0 : (if s.isOpen then s.close true else s).files = files := by
      cases ho : s.isOpen with
      | false => simp only [Bool.false_eq_true, if_false]; exact h.2.1 ho
      | true => simp only [if_true]; exact (close_only files s h).1
    unfold State.call State.open at hok ⊢
    cases temp with
    | none => cases hok
    | some n =>
      have hn : files n = none := by rw [← h0]; exact hfresh n space mapOk size memmap rfl
      simp only at hok ⊢
      unfold State.upsize at hok ⊢
      by_cases hs : size > 0
      · simp only [if_pos hs] at hok ⊢
        by_cases h1 : seekFails (size * sz - 1) = true
        · simp only [h1, if_true] at hok
          cases hok
        · simp only [h1, if_false] at hok ⊢
          cases space with
          | false => simp only [Bool.not_false, if_true] at hok; cases hok
          | true =>
            simp only [Bool.not_true, Bool.false_eq_true, if_false] at hok ⊢
            have goal : ∀ c, Only files (⟨setFile (setFile (if s.isOpen then s.close true else s).files n (some [])) n c,
                n, Fd.live size, size, true, memmap⟩ : State T) := by
              intro c
              refine ⟨fun _ _ => rfl, nofun, fun _ => ⟨hn, fun m hm => ?_⟩⟩
              show setFile (setFile _ n (some [])) n c m = _
              unfold setFile
              rw [if_neg hm, if_neg hm, h0]
            cases memmap <;> exact goal _
      · simp only [if_neg hs] at hok ⊢
        have goal : Only files (⟨setFile (if s.isOpen then s.close true else s).files n (some []), n, Fd.live 0, size,
            true, memmap⟩ : State T) := by
          refine ⟨fun _ _ => rfl, nofun, fun _ => ⟨hn, fun m hm => ?_⟩⟩
          show setFile _ n (some []) m = _
          unfold setFile
          rw [if_neg hm, h0]
        cases memmap <;> exact goal
  | close r =>
    rw [hkeep r rfl]
    have := close_only files s h
    exact ⟨fun p hp => absurd hp (this.2.2 p), fun _ => this.1,
      fun ho => by rw [show (s.call zero sz (.close true)).1.isOpen = _ from this.2.1] at ho; cases ho⟩
  | resize space size =>
    unfold State.call State.resize at hok ⊢
    by_cases h1 : s.size = size ∨ s.isOpen = false
    · simp only [if_pos h1]
      exact h
    · simp only [if_neg h1] at hok ⊢
      cases space with
      | false => cases hok
      | true =>
        simp only [Bool.not_true, Bool.false_eq_true, if_false]
        have ho : s.isOpen = true := by
          cases hb : s.isOpen with
          | true => rfl
          | false => exact absurd (Or.inr hb) h1
        refine ⟨fun _ _ => ho, fun (hc : s.isOpen = false) => (by rw [ho] at hc; cases hc), fun _ => ⟨(h.2.2 ho).1, fun m hm => ?_⟩⟩
        show setFile _ _ _ m = _
        unfold setFile
        rw [if_neg hm]
        exact (h.2.2 ho).2 m hm
  | seek p =>
    unfold State.call State.seek at hok ⊢
    cases hf : s.fd with
    | none => rw [hf] at hok; cases hok
    | stale => rw [hf] at hok; cases hok
    | live q =>
      rw [hf] at hok
      simp only at hok ⊢
      by_cases h1 : seekFails (p * sz) = true
      · rw [if_pos h1] at hok; cases hok
      · rw [if_neg h1]
        exact ⟨fun _ _ => h.1 q hf, h.2⟩
  | read n =>
    unfold State.call State.read at hok ⊢
    cases hf : s.fd with
    | none => rw [hf] at hok; cases hok
    | stale => rw [hf] at hok; cases hok
    | live q =>
      rw [hf] at hok
      simp only at hok ⊢
      by_cases h1 : (List.take n (List.drop q ((s.files s.name).getD []))).length ≠ n
      · rw [if_pos h1] at hok; cases hok
      · rw [if_neg h1]
        exact ⟨fun _ _ => h.1 q hf, h.2⟩
  | write space xs =>
    unfold State.call State.write at hok ⊢
    cases hf : s.fd with
    | none => rw [hf] at hok; cases hok
    | stale => rw [hf] at hok; cases hok
    | live q =>
      rw [hf] at hok
      simp only at hok ⊢
      cases space with
      | false => cases hok
      | true =>
        simp only [Bool.not_true, Bool.false_eq_true, if_false]
        have ho := h.1 q hf
        refine ⟨fun _ _ => ho, fun (hc : s.isOpen = false) => (by rw [ho] at hc; cases hc), fun _ => ⟨(h.2.2 ho).1, fun m hm => ?_⟩⟩
        show setFile _ _ _ m = _
        unfold setFile
        rw [if_neg hm]
        exact (h.2.2 ho).2 m hm

theorem allOk_only (zero : T) (sz : Nat) (files : Str → Option (List T)) (cs : List (Call T)) :
    ∀ (s s' : State T), Only files s → (∀ c ∈ cs, ∀ r, c = .close r → r = true) → allOk zero sz s cs = some s' →
      Only files s' := by
  induction cs with
  | nil => intro s s' h _ hs; cases hs; exact h
  | cons c cs ih =>
    intro s s' h hk hs
    rw [allOk] at hs
    split at hs
    · rename_i hc
      rw [Bool.and_eq_true] at hc
      refine ih _ s' (call_only zero sz files s h c (hk c (by simp)) ?_ hc.2) (fun d hd => hk d (List.mem_cons_of_mem _ hd)) hs
      intro n a b k m he
      subst he
      exact Option.isNone_iff_eq_none.1 hc.1
    · cases hs

/-- **C219.**  Whatever is done with the object, when it is destroyed the file system is as it was
before, if no call failed and no file was kept on purpose; with several openings as well. -/
theorem C219_clean_partial (zero : T) (sz : Nat) (files : Str → Option (List T)) (cs : List (Call T)) (s : State T)
    (hkeep : ∀ c ∈ cs, ∀ r, c = .close r → r = true) (h : allOk zero sz (State.new files) cs = some s) :
    s.destroy.files = files :=
  (close_only files s (allOk_only zero sz files cs _ s ⟨(fun p hp => nomatch (hp : Fd.none = Fd.live p)), fun _ => rfl, (fun ho => nomatch (ho : false = true))⟩ hkeep h)).1

example : ∃ s, allOk 0 8 (State.new fun _ => none : State Nat)
    [.open (some "a".toList) true true 4 false, .seek 1, .write true [5, 6, 7], .seek 0, .read 4,
     .open (some "b".toList) true true 0 false, .write true [1]] = some s ∧ s.destroy.files = fun _ => none := by
  have e : ∃ s, allOk 0 8 (State.new fun _ => none : State Nat)
      [.open (some "a".toList) true true 4 false, .seek 1, .write true [5, 6, 7], .seek 0, .read 4,
       .open (some "b".toList) true true 0 false, .write true [1]] = some s := ⟨_, rfl⟩
  obtain ⟨s, hs⟩ := e
  exact ⟨s, hs, C219_clean_partial 0 8 _ _ s (by simp) hs⟩

/-- **C219.**  If the disk is full while the file is created, the file is removed. -/
theorem C219_full_partial (zero : T) (sz : Nat) (s : State T) (name : Str) (size : Nat) (hsize : 0 < size)
    (hok : seekFails (size * sz - 1) = false) (hnew : s.isOpen = false) (hfresh : s.files name = none)
    (mapOk memmap : Bool) :
    ∃ s1, s.open zero sz (some name) false mapOk size memmap = .threw s1 ∧ s1.files = s.files := by
  unfold State.open State.upsize
  simp only [hnew, Bool.false_eq_true, if_false, hok, Bool.not_false, if_true]
  rw [if_pos hsize]
  refine ⟨_, rfl, ?_⟩
  simp only [setFile_twice]
  funext m
  unfold setFile
  by_cases h : m = name
  · rw [if_pos h, h, hfresh]
  · rw [if_neg h]

example : ∃ s1, (State.new fun _ => none : State Nat).open 0 8 (some "a".toList) false true 4 true = .threw s1 ∧
    s1.files = fun _ => none :=
  C219_full_partial 0 8 (State.new fun _ => none) "a".toList 4 (by decide) (by decide) rfl rfl true true

/-- **C219 is violated**: after a read beyond the end, or a write to a full disk, the file stays behind
for ever, and the object cannot be used any more. -/
theorem C219_violated_error (zero : T) (sz : Nat) (s : State T) (c : List T) (h : Good s c) (n : Nat)
    (hn : c.length < n) :
    (∃ s1, s.read sz n = .threw s1 ∧ s1.destroy.files s.name = some c ∧ ∀ p, ∃ s2, s1.seek sz p = .threw s2) ∧
    (∀ xs, ∃ s1, s.write zero false xs = .threw s1 ∧ s1.destroy.files s.name = some c) := by
  obtain ⟨p, hp⟩ := h.fd
  refine ⟨⟨{ s with fd := .stale, isOpen := false }, ?_, ?_, fun q => ⟨_, rfl⟩⟩, fun xs =>
    ⟨{ s with fd := .stale, isOpen := false }, ?_, ?_⟩⟩
  · unfold State.read
    rw [hp]
    simp only
    rw [if_pos]
    rw [h.file, Option.getD_some, List.length_take, List.length_drop]
    omega
  · exact h.file
  · unfold State.write
    rw [hp]
    rfl
  · exact h.file

example : Good (⟨fun _ => some [1, 2], [], .live 1, 0, true, false⟩ : State Nat) [1, 2] := ⟨rfl, rfl, 1, rfl⟩

/-! ### Size -/

/-- **C220.**  After the opening the object reports the size that was asked for, the file has this
size, and after closing it reports zero. -/
theorem C220_size_partial (zero : T) (sz : Nat) (s : State T) (name : Str) (size : Nat) (hsize : 0 < size)
    (hok : seekFails (size * sz - 1) = false) (hnew : s.isOpen = false) :
    ∃ s1 c, s.open zero sz (some name) true true size false = .ok s1 .null ∧ s1.size = size ∧ s1.isOpen = true ∧
      s1.files name = some c ∧ c.length = size ∧ ∀ r, (s1.close r).size = 0 ∧ (s1.close r).isOpen = false :=
  ⟨_, List.replicate size zero, open_eq zero sz s name size hsize hok hnew, rfl, rfl, if_pos rfl,
    List.length_replicate, fun _ => ⟨rfl, rfl⟩⟩

example : ∃ s1 c, (State.new fun _ => none : State Nat).open 0 8 (some "a".toList) true true 4 false = .ok s1 .null ∧
    s1.size = 4 ∧ s1.isOpen = true ∧ s1.files "a".toList = some c ∧ c.length = 4 ∧
    ∀ r, (s1.close r).size = 0 ∧ (s1.close r).isOpen = false :=
  C220_size_partial 0 8 (State.new fun _ => none) "a".toList 4 (by decide) (by decide) rfl

/-- **C220.**  Resizing changes the length of the file, keeps what is in both and fills with zeros. -/
theorem C220_resize_partial (zero : T) (s : State T) (c : List T) (h : Good s c) (size : Nat) (hs : s.size ≠ size) :
    ∃ s1 c1, s.resize zero true size = .ok s1 () ∧ Good s1 c1 ∧ c1.length = size ∧
      ∀ i, i < size → c1[i]? = if i < c.length then c[i]? else some zero := by
  have hn : ¬ (s.size = size ∨ s.isOpen = false) := by
    rintro (e | e)
    · exact hs e
    · rw [h.isOpen] at e; cases e
  refine ⟨{ s with files := setFile s.files s.name (some ((c ++ List.replicate (size - c.length) zero).take size)) },
    (c ++ List.replicate (size - c.length) zero).take size, ?_, ⟨h.isOpen, if_pos rfl, h.fd⟩, ?_, fun i hi => ?_⟩
  · unfold State.resize
    rw [if_neg hn, h.file]
    rfl
  · simp only [List.length_take, List.length_append, List.length_replicate]
    omega
  · rw [List.getElem?_take, if_pos hi]
    by_cases hc : i < c.length
    · rw [if_pos hc, List.getElem?_append_left hc]
    · rw [if_neg hc, List.getElem?_append_right (by omega), List.getElem?_replicate, if_pos (by omega)]

example : ∃ s1 c1, (⟨fun _ => some [1, 2], [], .live 1, 2, true, false⟩ : State Nat).resize 0 true 3 = .ok s1 () ∧ Good s1 c1 ∧
    c1.length = 3 ∧ ∀ i, i < 3 → c1[i]? = if i < 2 then ([1, 2] : List Nat)[i]? else some 0 :=
  C220_resize_partial 0 _ [1, 2] ⟨rfl, rfl, 1, rfl⟩ 3 (by decide)

/-- **C220 is violated**: after resizing the object still reports the old size; going back to the
original size then does nothing, the file keeps the other length. -/
theorem C220_violated_resize (zero : T) (s : State T) (c : List T) (h : Good s c) (size : Nat) (hs : s.size ≠ size)
    (hc : c.length = s.size) :
    ∃ s1 s2 c2, s.resize zero true size = .ok s1 () ∧ s1.size = s.size ∧ s1.resize zero true s.size = .ok s2 () ∧
      s2.files s.name = some c2 ∧ c2.length ≠ c.length := by
  obtain ⟨s1, c1, h1, h2, h3, _⟩ := C220_resize_partial zero s c h size hs
  have hsz : s1.size = s.size ∧ s1.name = s.name := by
    unfold State.resize at h1
    split at h1
    · cases h1; exact ⟨rfl, rfl⟩
    · cases h1; exact ⟨rfl, rfl⟩
  refine ⟨s1, s1, c1, h1, hsz.1, ?_, ?_, ?_⟩
  · unfold State.resize
    rw [if_pos (Or.inl hsz.1)]
  · rw [← hsz.2]; exact h2.file
  · rw [h3, hc]; exact Ne.symm hs

example : Good (⟨fun _ => some [1, 2], [], .live 1, 2, true, false⟩ : State Nat) [1, 2] := ⟨rfl, rfl, 1, rfl⟩

/-- **C220 is violated**: if the mapping into memory fails, the opening succeeds and hands out the value
that stands for the failure as if it was an address. -/
theorem C220_violated_map (zero : T) (sz : Nat) (s : State T) (name : Str) (hnew : s.isOpen = false) :
    ∃ s1, s.open zero sz (some name) true false 0 true = .ok s1 .failed := by
  unfold State.open
  simp only [hnew, Bool.false_eq_true, if_false]
  exact ⟨_, rfl⟩

/-! ### Pipes -/

theorem rx_ne_tx (name : Str) : name ++ "rx".toList ≠ name ++ "tx".toList := by
  intro h
  have := List.append_cancel_left h
  exact absurd this (by decide)

/-- **C221.**  If no file with the names of the two pipes exists, the pair is created, nothing else is
touched, and after destruction everything is as before. -/
theorem C221_pair_partial (names : Str → Bool) (name : Str) (hr : names (name ++ "rx".toList) = false)
    (ht : names (name ++ "tx".toList) = false) :
    (fifoOpen true names name).2 = true ∧
      (∀ n, (fifoOpen true names name).1 n = true ↔
        names n = true ∨ n = name ++ "rx".toList ∨ n = name ++ "tx".toList) ∧
      fifoDestroy (fifoOpen true names name).1 name = names := by
  have hne := rx_ne_tx name
  have e : fifoOpen true names name = ((fun n => if n = name ++ "tx".toList then true else
      if n = name ++ "rx".toList then true else names n), true) := by
    unfold fifoOpen
    simp only
    rw [if_neg (by rw [hr]; decide), if_neg hne.symm, if_neg (by rw [ht]; decide)]
  rw [e]
  refine ⟨rfl, fun n => ?_, ?_⟩
  · simp only
    by_cases h1 : n = name ++ "tx".toList
    · rw [if_pos h1]; simp [h1]
    · rw [if_neg h1]
      by_cases h2 : n = name ++ "rx".toList
      · rw [if_pos h2]; simp [h2]
      · rw [if_neg h2]; exact ⟨Or.inl, fun h => h.elim id fun h => h.elim (absurd · h2) (absurd · h1)⟩
  · funext n
    unfold fifoDestroy
    simp only
    by_cases h1 : n = name ++ "tx".toList
    · rw [if_pos (Or.inr h1), h1, ht]
    · by_cases h2 : n = name ++ "rx".toList
      · rw [if_pos (Or.inl h2), h2, hr]
      · rw [if_neg (by simp only [not_or]; exact ⟨h2, h1⟩), if_neg h1, if_neg h2]

example : (fifoOpen true (fun _ => false) "cmd".toList).2 = true :=
  (C221_pair_partial (fun _ => false) "cmd".toList rfl rfl).1

/-- **C221.**  Existing files are never taken over: the constructor fails if one of the names exists. -/
theorem C221_exists_partial (can : Bool) (names : Str → Bool) (name : Str)
    (h : names (name ++ "rx".toList) = true ∨ names (name ++ "tx".toList) = true) :
    (fifoOpen can names name).2 = false ∧ ∀ n, names n = true → (fifoOpen can names name).1 n = true := by
  unfold fifoOpen
  simp only
  by_cases h1 : names (name ++ "rx".toList) = true
  · rw [if_pos h1]; exact ⟨rfl, fun _ => id⟩
  · rw [if_neg h1, if_neg (rx_ne_tx name).symm]
    rcases h with h | h
    · exact absurd h h1
    · rw [if_pos h]
      refine ⟨rfl, fun n hn => ?_⟩
      simp only
      split
      · rfl
      · exact hn

example : (fifoOpen true (fun n => n = "cmdtx".toList) "cmd".toList).2 = false :=
  (C221_exists_partial true (fun n => n = "cmdtx".toList) "cmd".toList (Or.inr (by decide))).1

/-- **C221 is violated**: a pipe without given name is documented to have a unique name; all have the
same, so the second one in a directory cannot be created while the first one lives. -/
theorem C221_violated_unique (tmpdir env : Option Str) (names : Str → Bool)
    (h : (fifoOpen true names (fifoName tmpdir env)).2 = true) :
    (fifoOpen true (fifoOpen true names (fifoName tmpdir env)).1 (fifoName tmpdir env)).2 = false := by
  have hno : ∀ suffix, (suffix = "rx".toList ∨ suffix = "tx".toList) → names (fifoName tmpdir env ++ suffix) = false := by
    intro suffix hs
    cases hb : names (fifoName tmpdir env ++ suffix) with
    | false => rfl
    | true =>
      have := (C221_exists_partial true names (fifoName tmpdir env)
        (by rcases hs with rfl | rfl <;> simp only [hb, true_or, or_true])).1
      rw [this] at h
      cases h
  have hp := C221_pair_partial names (fifoName tmpdir env) (hno _ (Or.inl rfl)) (hno _ (Or.inr rfl))
  exact (C221_exists_partial true _ _ (Or.inl ((hp.2.1 _).2 (Or.inr (Or.inl rfl))))).1

example : (fifoOpen true (fun _ => false) (fifoName none none)).2 = true := by decide +kernel

/-- **C221 is violated**: if the second pipe cannot be created, or the pipes cannot be opened, the
constructor fails and leaves a file behind. -/
theorem C221_violated_leftover (names : Str → Bool) (name : Str) (hr : names (name ++ "rx".toList) = false) :
    (names (name ++ "tx".toList) = true →
      (fifoOpen true names name).2 = false ∧ (fifoOpen true names name).1 (name ++ "rx".toList) = true) ∧
    (names (name ++ "tx".toList) = false →
      (fifoOpen false names name).2 = false ∧ (fifoOpen false names name).1 (name ++ "rx".toList) = true) := by
  refine ⟨fun ht => ⟨(C221_exists_partial true names name (Or.inr ht)).1, ?_⟩, fun ht => ?_⟩
  · unfold fifoOpen
    simp only
    rw [if_neg (by rw [hr]; decide), if_neg (rx_ne_tx name).symm, if_pos ht]
    simp only [if_true]
  · unfold fifoOpen
    simp only
    rw [if_neg (by rw [hr]; decide), if_neg (rx_ne_tx name).symm, if_neg (by rw [ht]; decide)]
    refine ⟨rfl, ?_⟩
    simp only
    rw [if_neg (rx_ne_tx name)]
    simp only [if_true]

end QDng.Tmp
