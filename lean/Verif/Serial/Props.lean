import Verif.Serial.Lemmas

/-! # Properties C12, C13, C14, C18, C61, C62: serialisation of single objects -/

namespace QDng.Serial

/-! ## C12 -/

/-- **C12**: reading back a serialised level wave function returns the vector and leaves the rest of the
stream untouched, for every vector (its length is an `int`) that fits the memory and every rest. -/
theorem C12_roundtrip (mem : Nat) (v : List (Dbl × Dbl)) (r : List Byte)
    (hlen : v.length < 2 ^ 31) (hmem : 16 * v.length ≤ mem) :
    levelDeser mem { rest := levelSer v ++ r, fail := false } = .ok v { rest := r, fail := false } := by
  unfold levelDeser levelSer
  simp only [List.append_assoc]
  rw [read_append _ _ 8 (le_length _ _)]
  simp only
  rw [read_append _ _ 8 (le_length _ _)]
  simp only [le_length]
  have h1 : unle (le 8 v.length) = v.length := unle_le_of_lt (by omega)
  have h2 : unle (le 8 (sizeBytes v)) = 16 * v.length := by
    unfold sizeBytes
    rw [unle_le_of_lt (by omega)]; omega
  rw [if_neg (by omega), h1, h2, if_neg (by unfold W; omega), toInt32_small hlen]
  rw [if_neg (by omega)]
  simp only [Int.toNat_natCast]
  rw [if_neg (by omega), read_append _ _ _ (flatMap_encC_length v)]
  simp only [flatMap_encC_length]
  rw [if_neg (by omega), if_neg (by omega), decCs_enc']

/-- **C12**: the serialisation consists of two 8 byte counters and as many bytes as `sizeBytes` reports. -/
theorem C12_size (v : List (Dbl × Dbl)) : (levelSer v).length = 8 + 8 + sizeBytes v := by
  unfold levelSer sizeBytes
  rw [List.length_append, List.length_append, flatMap_encC_length, le_length, le_length]
  omega

/-- **C12**, rejection of a wrong byte count.  Partial: for element counts below `2^60`; beyond, the
product of the check wraps around (`C12_violated`). -/
theorem C12_reject_partial (mem : Nat) (b1 b2 r : List Byte) (h1 : b1.length = 8) (h2 : b2.length = 8)
    (hc : unle b1 < 2 ^ 60) (hne : unle b1 * 16 ≠ unle b2) :
    levelDeser mem { rest := b1 ++ b2 ++ r, fail := false } = .threw := by
  unfold levelDeser
  rw [List.append_assoc, read_append _ _ 8 h1]
  simp only
  rw [read_append _ _ 8 h2]
  simp only
  rw [if_neg (by omega), if_pos (by unfold W; omega)]

/-- **C12 is violated** for unreasonable counts: `2^60` declared elements with `0` declared bytes are
accepted as an empty vector; `2^32 + 1` declared elements write over the end of the buffer. -/
theorem C12_violated :
    (∀ mem r, levelDeser mem { rest := le 8 (2 ^ 60) ++ le 8 0 ++ r, fail := false }
      = .ok [] { rest := r, fail := false }) ∧
    (∀ mem r, 16 ≤ mem → 16 < r.length →
      levelDeser mem { rest := le 8 (2 ^ 32 + 1) ++ le 8 (16 * (2 ^ 32 + 1)) ++ r, fail := false } = .ub) := by
  constructor
  · intro mem r
    unfold levelDeser
    rw [List.append_assoc, read_append _ _ 8 (le_length _ _)]
    simp only
    rw [read_append _ _ 8 (le_length _ _)]
    simp only [le_length]
    rw [unle_le_of_lt (by decide), unle_le_of_lt (by decide), if_neg (by decide), if_neg (by decide)]
    have : toInt32 (2 ^ 60) = 0 := by decide
    rw [this]
    simp [In.read, decCs]
  · intro mem r hm hr
    unfold levelDeser
    rw [List.append_assoc, read_append _ _ 8 (le_length _ _)]
    simp only
    rw [read_append _ _ 8 (le_length _ _)]
    simp only [le_length]
    rw [unle_le_of_lt (by decide), unle_le_of_lt (by decide), if_neg (by decide), if_neg (by decide)]
    have : toInt32 (2 ^ 32 + 1) = 1 := by decide
    rw [this]
    rw [if_neg (by decide)]
    have h3 : (1 : Int).toNat = 1 := rfl
    rw [h3, if_neg (by omega)]
    by_cases hlong : 16 * (2 ^ 32 + 1) ≤ r.length
    · rw [read_long hlong]
      simp only [List.length_take]
      rw [if_pos (by omega)]
    · rw [read_short (by omega)]
      simp only
      rw [if_pos (by omega)]

/-- **C12**, truncated input: no proper prefix of a serialised vector is ever accepted with well defined
contents.  (It is not rejected either: the outcome is an object with indeterminate contents.) -/
theorem C12_truncated (mem : Nat) (v : List (Dbl × Dbl)) (hlen : v.length < 2 ^ 31)
    (hmem : 16 * v.length ≤ mem) (k : Nat) (hk : k < (levelSer v).length) :
    levelDeser mem { rest := (levelSer v).take k, fail := false } = .indet := by
  have hsz := C12_size v
  unfold sizeBytes at hsz
  unfold levelDeser levelSer
  simp only [List.append_assoc]
  by_cases h8 : k < 8
  · have hl : (List.take k (le 8 v.length ++ (le 8 (sizeBytes v) ++ List.flatMap encC v))).length = k := by
      simp [le_length]; omega
    generalize hL : List.take k (le 8 v.length ++ (le 8 (sizeBytes v) ++ List.flatMap encC v)) = L at hl ⊢
    rw [read_short (by omega)]
    simp only
    rw [read_failed]
    simp only [List.length_nil]
    rw [if_pos (by omega)]
  · rw [List.take_append, List.take_of_length_le (by simp [le_length]; omega)]
    rw [read_append _ _ 8 (le_length _ _)]
    simp only [le_length]
    by_cases h16 : k < 16
    · have hl : (List.take (k - 8) (le 8 (sizeBytes v) ++ List.flatMap encC v)).length = k - 8 := by
        simp [le_length]; omega
      generalize hL : List.take (k - 8) (le 8 (sizeBytes v) ++ List.flatMap encC v) = L at hl ⊢
      rw [read_short (by omega)]
      simp only
      rw [if_pos (by omega)]
    · rw [List.take_append, List.take_of_length_le (l := le 8 (sizeBytes v)) (by simp [le_length]; omega)]
      rw [read_append _ _ 8 (le_length _ _)]
      simp only [le_length]
      have h1 : unle (le 8 v.length) = v.length := unle_le_of_lt (by omega)
      have h2 : unle (le 8 (sizeBytes v)) = 16 * v.length := by
        unfold sizeBytes
        rw [unle_le_of_lt (by omega)]; omega
      rw [if_neg (by omega), h1, h2, if_neg (by unfold W; omega), toInt32_small hlen]
      rw [if_neg (by omega)]
      simp only [Int.toNat_natCast]
      rw [if_neg (by omega)]
      have hl : (List.take (k - 8 - 8) (List.flatMap encC v)).length = k - 16 := by
        rw [List.length_take, flatMap_encC_length]; omega
      rw [read_short (by rw [hl]; omega)]
      simp only
      rw [hl, if_neg (by omega), if_pos (by omega)]

example :
    let v : List (Dbl × Dbl) := [(1, 2), (3, 0x4000000000000000)]
    (levelSer v).length = 48 ∧ v.length < 2 ^ 31 ∧
      levelDeser 1000 { rest := levelSer v ++ [7], fail := false } = .ok v { rest := [7], fail := false } := by
  decide +kernel

example : levelDeser 1000 { rest := le 8 3 ++ le 8 47 ++ [1, 2, 3], fail := false } = .threw := by
  decide +kernel

/-! ## C13 -/

/-- **C13**: reading back a serialised square matrix returns the matrix (`int` element count, memory
sufficient). -/
theorem C13_roundtrip (mem : Nat) (M : Mat) (r : List Byte) (hsq : M.cols = M.rows)
    (hv : M.v.length = M.rows * M.cols) (hlen : M.rows * M.cols < 2 ^ 31) (hrow : M.rows < 2 ^ 31)
    (hmem : 8 * (M.rows * M.cols) ≤ mem) :
    matDeser mem { rest := matSer M ++ r, fail := false } = .ok M { rest := r, fail := false } := by
  unfold matDeser matSer
  simp only [List.append_assoc]
  rw [read_append _ _ 4 (le_length _ _)]
  simp only
  rw [read_append _ _ 4 (le_length _ _)]
  simp only [le_length]
  rw [hsq] at hv hlen hmem
  have h1 : unle (le 4 M.rows) = M.rows := unle_le_of_lt (by omega)
  rw [if_neg (by omega), h1, if_neg (by omega), if_neg (by omega), if_neg (by omega)]
  rw [read_append _ _ _ (by rw [encDs_length, hv])]
  simp only [encDs_length, hv]
  rw [if_neg (by omega), ← hv, decDs_enc]
  obtain ⟨rows, cols, v⟩ := M
  simp only at hsq
  subst hsq
  rfl

example : matDeser 1000 { rest := matSer { rows := 2, cols := 2, v := [1, 2, 3, 4] } ++ [9, 9], fail := false }
    = .ok { rows := 2, cols := 2, v := [1, 2, 3, 4] } { rest := [9, 9], fail := false } := by decide +kernel

/-! ## C14 -/

/-- The pattern of a positive IEEE 754 number: sign bit clear, not zero, at most infinity. -/
def PosDbl (d : Dbl) : Prop := 0 < d.toNat ∧ d.toNat ≤ 0x7FF0000000000000

/-- The pattern of zero or a negative number: `+0`, or sign bit set and at most infinity in magnitude. -/
def NonPosDbl (d : Dbl) : Prop := d.toNat = 0 ∨ (2 ^ 63 ≤ d.toNat ∧ d.toNat ≤ 0xFFF0000000000000)

theorem nonPos_pos {d : Dbl} (h : PosDbl d) : nonPos d = false := by
  obtain ⟨h1, h2⟩ := h
  unfold nonPos
  simp only [Bool.and_eq_false_iff, Bool.or_eq_false_iff, decide_eq_false_iff_not]
  omega

theorem nonPos_nonpos {d : Dbl} (h : NonPosDbl d) : nonPos d = true := by
  unfold NonPosDbl at h
  unfold nonPos
  have := d.isLt
  simp only [Bool.and_eq_true, Bool.or_eq_true, decide_eq_true_eq]
  omega

/-- **C14**: reading back a serialised laser field with samples and a positive time step returns
the samples and the time step. -/
theorem C14_roundtrip (mem : Nat) (f : Field) (r : List Byte) (hne : f.v ≠ [])
    (hdt' : PosDbl f.dt) (hlen : f.v.length < 2 ^ 31) (hmem : 8 * f.v.length ≤ mem) :
    laserDeser mem { rest := laserSer f ++ r, fail := false } = .ok f { rest := r, fail := false } := by
  have hpos : f.v.length ≠ 0 := by simpa using hne
  have hdt := nonPos_pos hdt'
  unfold laserDeser laserSer
  rw [if_neg hpos]
  simp only [List.append_assoc]
  rw [read_append _ _ 8 (le_length _ _)]
  simp only
  have h1 : unle (le 8 f.v.length) = f.v.length := unle_le_of_lt (by omega)
  rw [le_length, if_neg (by omega), h1, if_neg hpos]
  rw [read_append _ _ 8 (le_length _ _)]
  simp only [dbl_back]
  rw [le_length, if_neg (by omega), hdt, toInt32_small hlen]
  simp only [Bool.false_eq_true, if_false]
  rw [if_neg (by omega)]
  simp only [Int.toNat_natCast]
  rw [if_neg (by omega), read_append _ _ _ (encDs_length _)]
  simp only [encDs_length]
  rw [if_neg (by omega), decDs_enc]

/-- **C14**: input that declares zero samples, or a time step `≤ 0`, is rejected. -/
theorem C14_reject (mem : Nat) (b1 b2 r : List Byte) (h1 : b1.length = 8) (h2 : b2.length = 8)
    (h' : unle b1 = 0 ∨ NonPosDbl (BitVec.ofNat 64 (unle b2))) :
    laserDeser mem { rest := b1 ++ b2 ++ r, fail := false } = .threw := by
  have h : unle b1 = 0 ∨ nonPos (BitVec.ofNat 64 (unle b2)) = true := h'.imp id nonPos_nonpos
  unfold laserDeser
  rw [List.append_assoc, read_append _ _ 8 h1]
  simp only
  rw [if_neg (by omega)]
  by_cases h0 : unle b1 = 0
  · rw [if_pos h0]
  · rw [if_neg h0, read_append _ _ 8 h2]
    simp only
    rw [if_neg (by omega), if_pos (by rcases h with h | h; exact absurd h h0; exact h)]

/-- **C14 is violated** for a field without samples: nothing is written, and reading it back from the
stream does not raise the exception but evaluates an uninitialised size. -/
theorem C14_violated_empty (mem : Nat) (dt : Dbl) :
    laserDeser mem { rest := laserSer { dt := dt, v := [] }, fail := false } = .indet := by
  simp [laserSer, laserDeser, In.read]

example :
    let f : Field := { dt := 0x3FF0000000000000, v := [5, 6, 7] }
    PosDbl f.dt ∧
      laserDeser 100 { rest := laserSer f ++ [1], fail := false } = .ok f { rest := [1], fail := false } := by
  unfold PosDbl; decide +kernel

example : NonPosDbl 0xBFF0000000000000 ∧ NonPosDbl 0 ∧ NonPosDbl 0x8000000000000000 := by
  unfold NonPosDbl; decide

/-! ## C61: grid wave functions -/

theorem foldl_mul_prod (l : List Nat) (a : Nat) : l.foldl (· * ·) a = a * l.prod := by
  induction l generalizing a with
  | nil => simp
  | cons x r ih => simp [ih, Nat.mul_assoc]

theorem gridSize_prod (h : GridHdr) (n : Nat) (hdims : h.dims = h.dim.length ∧ h.dims ≠ 0)
    (hprod : (h.dim.map (fun d => d.1)).prod = n) (hlen : n < 2 ^ 31) : gridSize h = some n := by
  unfold gridSize
  rw [if_neg hdims.2, if_neg (by omega), hdims.1, List.take_length]
  simp only [foldl_mul_prod, hprod, Nat.one_mul]
  rw [if_neg (by omega)]

/-- **C61**: reading back a serialised grid wave function returns the grid and the vector, for every
header codec that round trips, every grid with at least one dimension whose number of points (the product
of the points of the dimensions) is the length of the vector. -/
theorem C61_roundtrip (c : Codec GridHdr) (mem : Nat) (h : GridHdr) (v : List (Dbl × Dbl)) (r : List Byte)
    (hdims : h.dims = h.dim.length ∧ h.dims ≠ 0) (hprod : (h.dim.map (fun d => d.1)).prod = v.length)
    (hlen : v.length < 2 ^ 31) (hmem : 16 * v.length ≤ mem)
    (hhdr : (c.enc { h with dataSize := sizeBytes v }).length < 2 ^ 32)
    (hvalid : c.valid { h with dataSize := sizeBytes v }) :
    gridDeser c mem { rest := gridSer c h v ++ r, fail := false }
      = .ok ({ h with dataSize := sizeBytes v }, v) { rest := r, fail := false } := by
  have hgrid := gridSize_prod h v.length hdims hprod hlen
  unfold gridDeser gridSer
  simp only [List.append_assoc]
  rw [read_append _ _ 4 (le_length _ _)]
  simp only
  rw [le_length, if_neg (by omega), unle_le_of_lt hhdr, read_append _ _ _ rfl]
  simp only
  rw [if_neg (by omega), c.dec_enc _ hvalid]
  simp only
  have hg : gridSize { h with dataSize := sizeBytes v } = some v.length := hgrid
  rw [hg]
  simp only
  rw [if_neg (by omega), read_append _ _ _ (flatMap_encC_length v)]
  simp only [flatMap_encC_length]
  rw [if_neg (by omega), decCs_enc']
  rfl

/-- The hypotheses of `C61_roundtrip` on the grid are met, e.g. by a 2 x 3 grid; a codec that meets the
assumptions is the wire format of `Verif/Wire`. -/
example :
    let h : GridHdr := { dims := 2, dim := [(2, 0, 1), (3, 0, 1)], dataSize := 0 }
    (h.dims = h.dim.length ∧ h.dims ≠ 0) ∧ (h.dim.map (fun d => d.1)).prod = 6 ∧ gridSize h = some 6 := by
  decide

/-! ## C18 and C62: varints and tags -/

/-- **C18**: a varint written at any place of a buffer is read back from its position, whatever bytes
precede and follow, together with its length. -/
theorem C18_roundtrip (v : Nat) (hv : v < 2 ^ 64) (pre rest : List Nat) :
    readVarint64 (pre ++ writeVarint v ++ rest) (pre.length + 1) = some (v, (writeVarint v).length) := by
  unfold readVarint64
  have : (pre ++ writeVarint v ++ rest).drop (pre.length + 1 - 1) = writeVarint v ++ rest := by
    simp
  rw [this, readLoop_write 64 v 0 0 rest (by simp) (by simpa using hv)]
  simp

/-- **C18**: the predicted size is the number of bytes written. -/
theorem C18_size (v : Nat) (hv : v < 2 ^ 64) : varintSize v = (writeVarint v).length := by
  have h : ∀ k, 128 ^ k ≤ v → v < 128 ^ (k + 1) → (writeVarint v).length = k + 1 := fun k => varint_len k v
  unfold varintSize
  split
  · split
    · split
      · rw [writeVarint, if_neg (by omega)]; rfl
      · exact (h 1 (by omega) (by omega)).symm
    · split
      · exact (h 2 (by omega) (by omega)).symm
      · exact (h 3 (by omega) (by omega)).symm
  · split
    · split
      · exact (h 4 (by omega) (by omega)).symm
      · exact (h 5 (by omega) (by omega)).symm
    · split
      · split
        · exact (h 6 (by omega) (by omega)).symm
        · exact (h 7 (by omega) (by omega)).symm
      · split
        · exact (h 8 (by omega) (by omega)).symm
        · exact (h 9 (by omega) (by omega)).symm

/-- **C18**: the bytes are bytes, only the last one has the high bit clear. -/
theorem C18_bytes (v : Nat) :
    (∀ b ∈ writeVarint v, b < 256) ∧ (∀ b ∈ (writeVarint v).dropLast, 128 ≤ b) ∧
      ∃ b, (writeVarint v).getLast? = some b ∧ b < 128 := by
  induction v using Nat.strongRecOn with
  | ind v ih =>
    rw [writeVarint]
    split
    · rename_i hv
      obtain ⟨h1, h2, b, h3, h4⟩ := ih (v / 128) (by omega)
      have hne : writeVarint (v / 128) ≠ [] := by
        intro hc; rw [hc] at h3; cases h3
      refine ⟨?_, ?_, b, ?_, h4⟩
      · intro x hx
        rcases List.mem_cons.1 hx with hx | hx
        · omega
        · exact h1 x hx
      · intro x hx
        rw [List.dropLast_cons_of_ne_nil hne] at hx
        rcases List.mem_cons.1 hx with hx | hx
        · omega
        · exact h2 x hx
      · rw [List.getLast?_cons, h3]; rfl
    · rename_i hv
      exact ⟨by simp; omega, by simp, v, by simp, by omega⟩

example : writeVarint 300 = [172, 2] ∧ readVarint64 [9, 172, 2, 255] 2 = some (300, 2) ∧
    (writeVarint (2 ^ 64 - 1)).length = 10 := by decide +kernel

/-- **C62**: a field tag is read back with its field number, wire type and length, for all field numbers
and wire types of the wire format. -/
theorem C62_tag (number wireType : Nat) (hn : number < 2 ^ 29) (hw : wireType < 8) (pre rest : List Nat) :
    readTag (pre ++ writeTag number wireType ++ rest) (pre.length + 1)
      = some (number, wireType, tagSize number wireType) := by
  unfold readTag readVarint32 writeTag tagSize
  have : (pre ++ writeVarint (number * 8 + wireType) ++ rest).drop (pre.length + 1 - 1)
      = writeVarint (number * 8 + wireType) ++ rest := by simp
  rw [this, readLoop_write 32 (number * 8 + wireType) 0 0 rest (by simp) (by simp; omega),
    C18_size _ (by omega)]
  simp only [Nat.mul_zero, Nat.pow_zero, Nat.mul_one, Nat.add_zero, Nat.zero_add]
  have h1 : (number * 8 + wireType) >>> 3 = number := by
    rw [Nat.shiftRight_eq_div_pow]; omega
  have h2 : (number * 8 + wireType) &&& 7 = wireType := by
    have := Nat.and_two_pow_sub_one_eq_mod (number * 8 + wireType) 3
    simp at this
    omega
  rw [h1, h2]

example : writeTag 6 2 = [50] ∧ readTag [8, 50, 1] 2 = some (6, 2, 1) := by decide +kernel

end QDng.Serial
