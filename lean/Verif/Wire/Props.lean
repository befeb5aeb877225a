import Verif.Wire.Model

/-! # Property C63: protocol buffer messages -/

namespace QDng.Wire

open QDng.Serial

/-! ## Specification: well formed fields -/

/-- The field number, the integers and the lengths fit the wire format. -/
def WField.Ok (f : WField) : Prop :=
  1 ≤ f.1 ∧ f.1 < 2 ^ 29 ∧
    match f.2 with
    | .varint n => n < 2 ^ 64
    | .fixed64 bs => bs.length = 8 ∧ ∀ b ∈ bs, b < 256
    | .bytes bs => bs.length < 2 ^ 32 ∧ ∀ b ∈ bs, b < 256
    | .fixed32 bs => bs.length = 4 ∧ ∀ b ∈ bs, b < 256

/-! ## Lemmas -/

theorem wtype_lt (v : WireVal) : v.type < 8 := by cases v <;> simp [WireVal.type]

theorem readVarint32_write (v : Nat) (hv : v < 2 ^ 32) (rest : List Nat) :
    readVarint32 (writeVarint v ++ rest) 1 = some (v, (writeVarint v).length) := by
  unfold readVarint32
  have : (writeVarint v ++ rest).drop (1 - 1) = writeVarint v ++ rest := by simp
  rw [this, readLoop_write 32 v 0 0 rest (by simp) (by simpa using hv)]
  simp

theorem readWire_write (f : WField) (h : f.Ok) (rest : List Nat) :
    readWire (writeWire f.2 ++ rest) f.2.type = some (f.2, (writeWire f.2).length) := by
  obtain ⟨n, v⟩ := f
  obtain ⟨_, _, h3⟩ := h
  cases v with
  | varint x =>
    simp only at h3
    unfold readWire writeWire WireVal.type
    have := C18_roundtrip x h3 [] rest
    simp only [List.nil_append, List.length_nil, Nat.zero_add] at this
    simp [this]
  | fixed64 bs =>
    simp only at h3
    unfold readWire writeWire WireVal.type
    simp only [Nat.reduceEqDiff, if_false, if_true]
    rw [if_pos (by simp; omega), List.take_append_of_le_length (by omega),
      List.take_of_length_le (by omega), h3.1]
  | bytes bs =>
    simp only at h3
    unfold readWire writeWire WireVal.type
    simp only [Nat.reduceEqDiff, if_false, if_true]
    rw [List.append_assoc, readVarint32_write _ h3.1]
    simp only
    rw [if_pos (by simp)]
    simp
  | fixed32 bs =>
    simp only at h3
    unfold readWire writeWire WireVal.type
    simp only [Nat.reduceEqDiff, if_false, if_true]
    rw [if_pos (by simp; omega), List.take_append_of_le_length (by omega),
      List.take_of_length_le (by omega), h3.1]

theorem writeTag_length_pos (n w : Nat) : 0 < (writeTag n w).length := writeVarint_pos _

theorem parseFields_enc (fs : List WField) (h : ∀ f ∈ fs, f.Ok) (fuel : Nat)
    (hf : (encFields fs).length ≤ fuel) : parseFields fuel (encFields fs) = some fs := by
  induction fs generalizing fuel with
  | nil => cases fuel <;> rfl
  | cons f r ih =>
    obtain ⟨n, v⟩ := f
    have hok := h (n, v) (by simp)
    have hlen : (encFields ((n, v) :: r)).length
        = (writeTag n v.type).length + (writeWire v).length + (encFields r).length := by
      simp [encFields]; omega
    have hpos := writeTag_length_pos n v.type
    cases fuel with
    | zero => omega
    | succ fuel =>
      have hne : encFields ((n, v) :: r) ≠ [] := by
        intro hc; rw [hc] at hlen; simp at hlen; omega
      obtain ⟨b, bs, hb⟩ := List.exists_cons_of_ne_nil hne
      rw [hb]
      simp only [parseFields]
      rw [← hb]
      have htag := C62_tag n v.type hok.2.1 (wtype_lt v) [] (writeWire v ++ encFields r)
      simp only [List.nil_append, List.length_nil, Nat.zero_add] at htag
      have hsz : tagSize n v.type = (writeTag n v.type).length := by
        unfold tagSize writeTag
        have := hok.2.1
        have := wtype_lt v
        exact C18_size _ (by simp only at *; omega)
      have henc : encFields ((n, v) :: r) = writeTag n v.type ++ (writeWire v ++ encFields r) := by
        simp [encFields]
      rw [henc, htag, hsz]
      simp only
      have hd : (writeTag n v.type ++ (writeWire v ++ encFields r)).drop (writeTag n v.type).length
          = writeWire v ++ encFields r := by simp
      rw [hd, readWire_write (n, v) hok]
      simp only
      have hd2 : (writeTag n v.type ++ (writeWire v ++ encFields r)).drop
          ((writeTag n v.type).length + (writeWire v).length) = encFields r := by
        rw [← List.drop_drop, hd]; simp
      rw [hd2, ih (fun f hf => h f (by simp [hf])) fuel (by omega)]

/-! ## C63 -/

/-- **C63**: parsing the serialisation of a message returns its fields in order, for all messages. -/
theorem C63_message (fs : List WField) (h : ∀ f ∈ fs, f.Ok) : parse (encFields fs) = some fs :=
  parseFields_enc fs h _ (Nat.le_refl _)

/-- **C63**: the serialisation consists of bytes. -/
theorem C63_bytes (fs : List WField) (h : ∀ f ∈ fs, f.Ok) : ∀ b ∈ encFields fs, b < 256 := by
  induction fs with
  | nil => simp [encFields]
  | cons f r ih =>
    obtain ⟨n, v⟩ := f
    have hok := h (n, v) (by simp)
    intro b hb
    simp only [encFields, List.mem_append] at hb
    rcases hb with (hb | hb) | hb
    · exact (C18_bytes _).1 b hb
    · obtain ⟨_, _, h3⟩ := hok
      cases v with
      | varint x => exact (C18_bytes _).1 b hb
      | fixed64 bs => exact h3.2 b hb
      | bytes bs =>
        simp only [writeWire, List.mem_append] at hb
        rcases hb with hb | hb
        · exact (C18_bytes _).1 b hb
        · exact h3.2 b hb
      | fixed32 bs => exact h3.2 b hb
    · exact ih (fun f hf => h f (by simp [hf])) b hb

example : parse (encFields [(1, .varint 300), (2, .bytes [7, 8]), (6, .fixed64 [0, 0, 0, 0, 0, 0, 240, 63])])
    = some [(1, .varint 300), (2, .bytes [7, 8]), (6, .fixed64 [0, 0, 0, 0, 0, 0, 240, 63])] := by decide +kernel

/-! ## Headers -/

theorem ofBytes_toBytes (l : List Nat) (h : ∀ b ∈ l, b < 256) : ofBytes (toBytes l) = l := by
  unfold ofBytes toBytes
  rw [List.map_map]
  conv_rhs => rw [← List.map_id l]
  apply List.map_congr_left
  intro b hb
  simp [Fin.ofNat, Nat.mod_eq_of_lt (h b hb)]

theorem toBytes_ofBytes (l : List Byte) : toBytes (ofBytes l) = l := by
  unfold ofBytes toBytes
  rw [List.map_map]
  conv_rhs => rw [← List.map_id l]
  apply List.map_congr_left
  intro b _
  simp

theorem ofBytes_lt (l : List Byte) : ∀ b ∈ ofBytes l, b < 256 := by
  intro b hb
  unfold ofBytes at hb
  obtain ⟨x, _, rfl⟩ := List.mem_map.1 hb
  exact x.isLt

theorem ofBytes_length (l : List Byte) : (ofBytes l).length = l.length := by simp [ofBytes]

/-- Values of a grid header that fit their fields. -/
def gridValid (h : GridHdr) : Prop :=
  h.dims < 2 ^ 32 ∧ h.dataSize < 2 ^ 64 ∧ ∀ d ∈ h.dim, d.1 < 2 ^ 32

theorem dimFields_ok (d : Nat × Dbl × Dbl) (h : d.1 < 2 ^ 32) : ∀ f ∈ dimFields d, f.Ok := by
  intro f hf
  simp only [dimFields, List.mem_cons, List.not_mem_nil, or_false] at hf
  rcases hf with rfl | rfl | rfl
  · exact ⟨by simp, by simp, by simp only; omega⟩
  · exact ⟨by simp, by simp, by simp only; exact ⟨by rw [ofBytes_length, le_length], ofBytes_lt _⟩⟩
  · exact ⟨by simp, by simp, by simp only; exact ⟨by rw [ofBytes_length, le_length], ofBytes_lt _⟩⟩

theorem dimOf_enc (d : Nat × Dbl × Dbl) (h : d.1 < 2 ^ 32) : dimOf (encFields (dimFields d)) = some d := by
  unfold dimOf
  rw [C63_message _ (dimFields_ok d h)]
  obtain ⟨n, a, b⟩ := d
  simp only [dimFields, lastVarint, lastFixed, if_true, Nat.reduceEqDiff, if_false,
    toBytes_ofBytes, dbl_back]

theorem varint_len_le (v : Nat) (h : v < 2 ^ 64) : (writeVarint v).length ≤ 10 :=
  writeVarint_length_lt (k := 9) (by omega)

theorem dimEnc_length (d : Nat × Dbl × Dbl) (h : d.1 < 2 ^ 32) : (encFields (dimFields d)).length < 2 ^ 32 := by
  have h1 := varint_len_le d.1 (by omega)
  have h2 : ∀ n w, n < 2 ^ 29 → w < 8 → (writeTag n w).length ≤ 10 := by
    intro n w hn hw
    exact varint_len_le _ (by omega)
  have h3 := h2 1 0 (by decide) (by decide)
  have h4 := h2 2 1 (by decide) (by decide)
  have h5 := h2 3 1 (by decide) (by decide)
  simp only [dimFields, encFields, writeWire, WireVal.type, List.length_append, ofBytes_length, le_length,
    List.length_nil]
  omega

theorem allBytes_dims (ds : List (Nat × Dbl × Dbl)) (t : List WField) (ht : allBytes 2 t = []) :
    allBytes 2 (ds.map (fun d => ((2 : Nat), WireVal.bytes (encFields (dimFields d)))) ++ t)
      = ds.map (fun d => encFields (dimFields d)) := by
  induction ds with
  | nil => simpa using ht
  | cons d r ih => simp [allBytes, ih]

theorem lastVarint_dims (k : Nat) (ds : List (Nat × Dbl × Dbl)) (t : List WField) :
    lastVarint k (ds.map (fun d => ((2 : Nat), WireVal.bytes (encFields (dimFields d)))) ++ t)
      = lastVarint k t := by
  induction ds with
  | nil => rfl
  | cons d r ih =>
    simp only [List.map_cons, List.cons_append, lastVarint, ih]
    cases lastVarint k t <;> rfl

theorem mapM_dimOf (ds : List (Nat × Dbl × Dbl)) (h : ∀ d ∈ ds, d.1 < 2 ^ 32) :
    (ds.map (fun d => encFields (dimFields d))).mapM dimOf = some ds := by
  induction ds with
  | nil => rfl
  | cons d r ih =>
    simp only [List.map_cons, List.mapM_cons]
    rw [dimOf_enc d (h d (by simp)), ih (fun x hx => h x (by simp [hx]))]
    rfl

theorem gridFields_ok (h : GridHdr) (hv : gridValid h) : ∀ f ∈ gridFields h, f.Ok := by
  obtain ⟨h1, h2, h3⟩ := hv
  intro f hf
  simp only [gridFields, List.mem_cons, List.mem_append, List.mem_map, List.not_mem_nil, or_false] at hf
  rcases hf with rfl | ⟨d, hd, rfl⟩ | rfl
  · exact ⟨by simp, by simp, by simp only; omega⟩
  · exact ⟨by simp, by simp, dimEnc_length d (h3 d hd), C63_bytes _ (dimFields_ok d (h3 d hd))⟩
  · exact ⟨by simp, by simp, by simp only; omega⟩

theorem gridOf_enc (h : GridHdr) (hv : gridValid h) : gridOf (encFields (gridFields h)) = some h := by
  unfold gridOf
  rw [C63_message _ (gridFields_ok h hv)]
  obtain ⟨h1, h2, h3⟩ := hv
  simp only
  have e1 : lastVarint 1 (gridFields h) = some h.dims := by
    simp only [gridFields, lastVarint, lastVarint_dims, Nat.reduceEqDiff, if_false, if_true]
  have e2 : allBytes 2 (gridFields h) = h.dim.map (fun d => encFields (dimFields d)) := by
    simp only [gridFields, allBytes]
    exact allBytes_dims _ _ rfl
  have e3 : lastVarint 3 (gridFields h) = some h.dataSize := by
    simp only [gridFields, lastVarint, lastVarint_dims, if_true]
  rw [e1, e2, e3, mapM_dimOf _ h3]
  rfl

/-- The grid header codec of the wire format meets the assumptions of `C61_roundtrip`. -/
def gridCodec : Codec GridHdr where
  enc h := toBytes (encFields (gridFields h))
  dec bs := gridOf (ofBytes bs)
  valid := gridValid
  dec_enc h hv := by
    rw [ofBytes_toBytes _ (C63_bytes _ (gridFields_ok h hv)), gridOf_enc h hv]

/-- **C61** for the wire format: grid wave functions round trip. -/
theorem C61_roundtrip_wire (mem : Nat) (h : GridHdr) (v : List (Dbl × Dbl)) (r : List Byte)
    (hdims : h.dims = h.dim.length ∧ h.dims ≠ 0) (hprod : (h.dim.map (fun d => d.1)).prod = v.length)
    (hlen : v.length < 2 ^ 31) (hmem : 16 * v.length ≤ mem)
    (hhdr : (encFields (gridFields { h with dataSize := sizeBytes v })).length < 2 ^ 32)
    (hvalid : gridValid { h with dataSize := sizeBytes v }) :
    gridDeser gridCodec mem { rest := gridSer gridCodec h v ++ r, fail := false }
      = .ok ({ h with dataSize := sizeBytes v }, v) { rest := r, fail := false } := by
  refine C61_roundtrip gridCodec mem h v r hdims hprod hlen hmem ?_ hvalid
  simpa [gridCodec, toBytes] using hhdr

example :
    let h : GridHdr := { dims := 2, dim := [(1, 0, 5), (2, 3, 4)], dataSize := 0 }
    let v : List (Dbl × Dbl) := [(1, 2), (3, 4)]
    (h.dims = h.dim.length ∧ h.dims ≠ 0) ∧ (h.dim.map (fun d => d.1)).prod = v.length ∧
      gridDeser gridCodec 100 { rest := gridSer gridCodec h v ++ [3], fail := false }
        = .ok ({ h with dataSize := 32 }, v) { rest := [3], fail := false } := by
  decide +kernel

/-- Values of a file header that fit their fields. -/
def fileValid (h : FileHdr) : Prop :=
  h.payloadSize < 2 ^ 64 ∧
  (h.cls.length < 2 ^ 32 ∧ ∀ b ∈ h.cls, b < 256) ∧
  (h.name.length < 2 ^ 32 ∧ ∀ b ∈ h.name, b < 256) ∧
  (h.metaData.length < 2 ^ 32 ∧ ∀ b ∈ h.metaData, b < 256)

theorem fileFields_ok (h : FileHdr) (hv : fileValid h) : ∀ f ∈ fileFields h, f.Ok := by
  obtain ⟨h1, h2, h3, h4⟩ := hv
  intro f hf
  simp only [fileFields, List.mem_cons, List.not_mem_nil, or_false] at hf
  rcases hf with rfl | rfl | rfl | rfl | rfl | rfl
  · exact ⟨by simp, by simp, by simp only; split <;> decide⟩
  · exact ⟨by simp, by simp, h2⟩
  · exact ⟨by simp, by simp, h3⟩
  · exact ⟨by simp, by simp, h4⟩
  · exact ⟨by simp, by simp, h1⟩
  · exact ⟨by simp, by simp, by simp only; cases h.compression <;> decide⟩

theorem fileOf_enc (h : FileHdr) (hv : fileValid h) : fileOf (encFields (fileFields h)) = some h := by
  unfold fileOf
  rw [C63_message _ (fileFields_ok h hv)]
  obtain ⟨more, cls, name, metaData, payloadSize, compression⟩ := h
  simp only [fileFields, lastVarint, lastBytes, if_true, Nat.reduceEqDiff, if_false, Option.getD_some]
  cases more <;> cases compression <;> rfl

/-- The file header codec of the wire format. -/
def fileCodec : Codec FileHdr where
  enc h := toBytes (encFields (fileFields h))
  dec bs := fileOf (ofBytes bs)
  valid := fileValid
  dec_enc h hv := by
    rw [ofBytes_toBytes _ (C63_bytes _ (fileFields_ok h hv)), fileOf_enc h hv]

/-- **C63** for the headers of the repository: grid headers and file headers are parsed back, and the
empty string is not a file header (required fields). -/
theorem C63_headers :
    (∀ h, gridValid h → gridOf (encFields (gridFields h)) = some h) ∧
    (∀ h, fileValid h → fileOf (encFields (fileFields h)) = some h) ∧ fileOf [] = none :=
  ⟨gridOf_enc, fileOf_enc, rfl⟩

example : fileValid
    { more := true, cls := [87, 70], name := [97], metaData := [], payloadSize := 48, compression := .zlib } := by
  unfold fileValid; decide

end QDng.Wire
