import Verif.Stream.Lemmas

/-! # Properties C15, C16: framed streams and multi state wave functions -/

namespace QDng.Stream

open QDng.Serial QDng.Wire

/-! ## Specification -/

/-- Assumptions on an object of a storable class: `DeSerialize` inverts `Serialize`, something is written,
the class name is one of a single object with at least two characters and the header fits the format. -/
structure Storable {L : Type} (k : Kind L) (z : Zlib) (comp : Compression) (name : List Nat) (l : L) : Prop where
  back : ∀ r, k.deser (k.cls l) { rest := k.ser l ++ r, fail := false } = .ok l { rest := r, fail := false }
  nonempty : k.ser l ≠ []
  clsLen : 2 ≤ (k.cls l).length
  clsName : k.cls l ≠ msName
  hdr : ∀ more, HdrOk (hdrOf z comp name (k.cls l) (k.params l) (k.ser l) more)

/-- Assumption on zlib: decompression inverts compression and compressed data is not empty. -/
def Zlib.Good (z : Zlib) : Prop := ∀ d, z.decomp (z.comp d) = d ∧ z.comp d ≠ []

/-- A stream with the given bytes, before an object. -/
def start (bs : List Byte) (m : Bool) : RS :=
  { inp := { rest := bs, fail := false }, introRead := false, more := m }

/-! ## C15 -/

theorem readData_rec {L : Type} (k : Kind L) (z : Zlib) (hz : z.Good) (comp : Compression) (name : List Nat) (l : L)
    (hl : Storable k z comp name l) (more : Bool) (r : List Byte) (i m : Bool) :
    RS.readData k z (hdrOf z comp name (k.cls l) (k.params l) (k.ser l) more)
      { inp := { rest := payload z comp (k.ser l) ++ r, fail := false }, introRead := i, more := m }
      = .ok l { inp := { rest := r, fail := false }, introRead := i && more, more := m } := by
  have hpos : 0 < (payload z comp (k.ser l)).length := by
    cases comp
    · simpa [payload, List.length_pos_iff] using hl.nonempty
    · simpa [payload, List.length_pos_iff] using (hz (k.ser l)).2
    · simpa [payload, List.length_pos_iff] using (hz (k.ser l)).2
  unfold RS.readData
  rw [if_pos (by simpa [hdrOf] using hpos)]
  have hback0 := hl.back []
  simp only [List.append_nil] at hback0
  cases comp
  · simp only [hdrOf, hdrComp, payload, hl.back r, RS.endData]
    cases more <;> simp
  · simp only [hdrOf, hdrComp, payload, read_append (z.comp (k.ser l)) r _ rfl]
    simp only [ne_eq, not_true_eq_false, if_false, (hz (k.ser l)).1, hback0, RS.endData]
    cases more <;> simp
  · simp only [hdrOf, hdrComp, payload, read_append (z.comp (k.ser l)) r _ rfl]
    simp only [ne_eq, not_true_eq_false, if_false, (hz (k.ser l)).1, hback0, RS.endData]
    cases more <;> simp

theorem readFile_write {L : Type} (k : Kind L) (z : Zlib) (hz : z.Good) (comp : Compression) (name : List Nat) (l : L)
    (hl : Storable k z comp name l) (r : List Byte) (m : Bool) :
    readFile k z (start ((writeFile k z comp name l { out := [], introWritten := false }).out ++ r) m)
      = .ok l (start r false) := by
  unfold readFile writeFile start
  rw [writeMeta_eq]
  simp only [Bool.false_eq_true, if_false, List.nil_append, List.append_assoc]
  rw [checkIntro_intro]
  simp only
  rw [readMeta_rec _ _ _ _ _ (hl.hdr false)]
  simp only
  rw [readData_rec k z hz comp name l hl]
  simp [hdrOf]

theorem writeFiles_out {L : Type} (k : Kind L) (z : Zlib) (comp : Compression) (name : List Nat) (ls : List L)
    (out : List Byte) :
    writeFiles k z comp name ls { out := out, introWritten := false }
      = { out := out ++ (ls.flatMap (fun l => (writeFile k z comp name l { out := [], introWritten := false }).out))
          introWritten := false } := by
  induction ls generalizing out with
  | nil => simp [writeFiles]
  | cons l t ih =>
    unfold writeFiles
    have : writeFile k z comp name l { out := out, introWritten := false }
        = { out := out ++ (writeFile k z comp name l { out := [], introWritten := false }).out
            introWritten := false } := by
      unfold writeFile
      rw [writeMeta_eq, writeMeta_eq]
      simp
    rw [this, ih]
    simp

/-- **C15**: objects written one after the other to a stream are read back in order, unchanged, with the
stream at the end of the last one, whatever follows; with and without compression. -/
theorem C15_roundtrip {L : Type} (k : Kind L) (z : Zlib) (hz : z.Good) (comp : Compression) (name : List Nat)
    (ls : List L) (hls : ∀ l ∈ ls, Storable k z comp name l) (r : List Byte) (m : Bool) :
    ∃ m', readFiles k z ls.length
        (start ((writeFiles k z comp name ls { out := [], introWritten := false }).out ++ r) m)
      = .ok ls (start r m') := by
  rw [writeFiles_out]
  simp only [List.nil_append]
  induction ls generalizing m with
  | nil => exact ⟨m, rfl⟩
  | cons l t ih =>
    simp only [List.flatMap_cons, List.append_assoc, List.length_cons, readFiles]
    rw [readFile_write k z hz comp name l (hls l (by simp))]
    obtain ⟨m', h⟩ := ih (fun x hx => hls x (by simp [hx])) false
    simp only at h ⊢
    exact ⟨m', by rw [h]⟩

/-- **C15**: a stream that does not start with the magic text is rejected, before any object is
changed.  Partial: there is a zero byte among the first 16 bytes (`C15_violated_magic`). -/
theorem C15_magic_partial {L : Type} (k : Kind L) (z : Zlib) (b r : List Byte) (m : Bool) (hb : b.length = 16)
    (hmagic : b.take 12 ≠ magic) (h0 : (0 : Byte) ∈ b) : readFile k z (start (b ++ r) m) = .threw := by
  have hc : ∀ L : List Byte, (0 : Byte) ∈ L → ∃ p q, cstr L = some p ∧ L = p ++ 0 :: q := by
    intro L hL
    induction L with
    | nil => simp at hL
    | cons x t ih =>
      unfold cstr
      by_cases hx : x = 0
      · exact ⟨[], t, by simp [hx], by simp [hx]⟩
      · have : (0 : Byte) ∈ t := by
          rcases List.mem_cons.1 hL with h | h
          · exact absurd h.symm hx
          · exact h
        obtain ⟨p, q, h1, h2⟩ := ih this
        exact ⟨x :: p, q, by simp [hx, h1], by simp [h2]⟩
  obtain ⟨p, q, hp, hq⟩ := hc b h0
  have hne : p ≠ magic.dropLast := by
    intro he
    apply hmagic
    rw [hq, he]
    simp [magic]
  unfold readFile start RS.checkIntro
  simp only [Bool.false_eq_true, if_false]
  rw [read_append _ _ 16 hb]
  have hd : b ++ intro.drop b.length = b := by rw [hb]; simp [intro, magic, le]
  simp only [hd, hp]
  rw [if_pos hne]

/-- **C15**: a stream with another version number is rejected. -/
theorem C15_version {L : Type} (k : Kind L) (z : Zlib) (v r : List Byte) (m : Bool) (hv : v.length = 4)
    (hver : unle v ≠ 1) : readFile k z (start (magic ++ v ++ r) m) = .threw := by
  unfold readFile start RS.checkIntro
  simp only [Bool.false_eq_true, if_false]
  have hlen : (magic ++ v).length = 16 := by simp [magic, hv]
  rw [read_append _ _ 16 hlen]
  have hd : (magic ++ v) ++ intro.drop (magic ++ v).length = magic ++ v := by
    rw [hlen]; simp [intro, magic, le]
  have hc : cstr (magic ++ v) = some magic.dropLast := by
    simp [magic, cstr]
  have h12 : (magic ++ v).drop 12 = v := by simp [magic]
  simp only [hd, hc, h12]
  simp [hver]

/-- **C15 is violated**: a file whose first 16 bytes contain no zero byte is not rejected; the check reads
over the end of the intro (undefined behaviour). -/
theorem C15_violated_magic {L : Type} (k : Kind L) (z : Zlib) (r : List Byte) (m : Bool) :
    readFile k z (start (List.replicate 16 65 ++ r) m) = .ub := by
  unfold readFile start RS.checkIntro
  simp only [Bool.false_eq_true, if_false]
  rw [read_append _ _ 16 (by simp)]
  have : cstr (List.replicate 16 (65 : Byte) ++ intro.drop (List.replicate 16 (65 : Byte)).length) = none := by
    decide
  simp only [this]

/-! ### Truncated streams -/

/-- A truncated object is not accepted by `DeSerialize` as a normal result. -/
def TruncSafe {L : Type} (k : Kind L) (l : L) : Prop :=
  ∀ n, n < (k.ser l).length → ∀ a s, k.deser (k.cls l) { rest := (k.ser l).take n, fail := false } ≠ .ok a s

theorem take_append_cases (a b : List Byte) (n : Nat) :
    (n < a.length ∧ (a ++ b).take n = a.take n) ∨ (a.length ≤ n ∧ (a ++ b).take n = a ++ b.take (n - a.length)) := by
  by_cases h : n < a.length
  · exact Or.inl ⟨h, by rw [List.take_append_of_le_length (by omega)]⟩
  · refine Or.inr ⟨by omega, ?_⟩
    rw [List.take_append, List.take_of_length_le (by omega)]

theorem checkIntro_short (n : Nat) (hn : n < 16) (m : Bool) :
    RS.checkIntro { inp := { rest := intro.take n, fail := false }, introRead := false, more := m }
      = .ok () { inp := { rest := [], fail := true }, introRead := true, more := m } := by
  unfold RS.checkIntro
  simp only [Bool.false_eq_true, if_false]
  rw [read_short (by rw [List.length_take, intro_length]; omega)]
  have h1 : intro.take n ++ intro.drop (intro.take n).length = intro := by
    rw [List.length_take, intro_length, Nat.min_eq_left (by omega), List.take_append_drop]
  simp only [h1]
  have h2 : cstr intro = some magic.dropLast := by decide
  have h3 : unle (intro.drop 12) = 1 := by decide
  simp [h2, h3]

/-- A header cut short is never accepted. -/
theorem readMeta_short (h : FileHdr) (n : Nat) (i m : Bool) (hok : HdrOk h)
    (hn : n < (recBytes h []).length) (a : FileHdr) (s : RS) :
    RS.readMeta { inp := { rest := (recBytes h []).take n, fail := false }, introRead := i, more := m } ≠ .ok a s := by
  unfold RS.readMeta recBytes at *
  simp only [List.append_nil] at *
  rcases take_append_cases (le 4 (encFields (fileFields h)).length) (toBytes (encFields (fileFields h))) n with
    ⟨h1, h2⟩ | ⟨h1, h2⟩
  · rw [h2, read_short (by rw [List.length_take]; rw [le_length] at *; omega)]
    simp only
    rw [read_failed]
    simp only [List.length_nil]
    by_cases h0 : unle (List.take n (le 4 (encFields (fileFields h)).length)) = 0
    · rw [h0]
      rw [if_neg (by omega)]
      have : fileOf (ofBytes []) = none := rfl
      simp [this]
    · rw [if_pos (by omega)]
      simp
  · rw [h2, read_append _ _ 4 (le_length _ _)]
    simp only [List.length_append, le_length, toBytes_length] at *
    rw [unle_le_of_lt (by simpa using hok.2)]
    have hl : ((toBytes (encFields (fileFields h))).take (n - 4)).length < (encFields (fileFields h)).length := by
      rw [List.length_take, toBytes_length]; omega
    rw [read_short hl]
    simp only
    rw [if_pos hl]
    simp

/-- **C15**: no proper prefix of a stored object is accepted as an object. -/
theorem C15_truncated {L : Type} (k : Kind L) (z : Zlib) (comp : Compression) (name : List Nat)
    (l : L) (hl : Storable k z comp name l) (ht : TruncSafe k l) (n : Nat) (m : Bool)
    (hn : n < (writeFile k z comp name l { out := [], introWritten := false }).out.length) (a : L) (s : RS) :
    readFile k z (start ((writeFile k z comp name l { out := [], introWritten := false }).out.take n) m)
      ≠ .ok a s := by
  unfold writeFile at *
  rw [writeMeta_eq] at *
  simp only [Bool.false_eq_true, if_false, List.nil_append] at *
  generalize hh : hdrOf z comp name (k.cls l) (k.params l) (k.ser l) false = h at *
  have hok : HdrOk h := hh ▸ hl.hdr false
  unfold readFile start
  rcases take_append_cases intro (recBytes h (payload z comp (k.ser l))) n with ⟨h1, h2⟩ | ⟨h1, h2⟩
  · rw [h2, checkIntro_short n (by rwa [intro_length] at h1)]
    simp only
    have : RS.readMeta { inp := { rest := [], fail := true }, introRead := true, more := m } = .threw := by
      unfold RS.readMeta
      rw [read_failed]
      simp only
      rw [read_failed]
      simp only [unle, List.length_nil, Nat.lt_irrefl, if_false]
      rfl
    rw [this]
    simp
  · rw [h2, checkIntro_intro]
    simp only
    have hsplit : recBytes h (payload z comp (k.ser l)) = recBytes h [] ++ payload z comp (k.ser l) := by
      simp [recBytes]
    rw [hsplit]
    rw [hsplit, List.length_append, List.length_append] at hn
    rcases take_append_cases (recBytes h []) (payload z comp (k.ser l)) (n - intro.length) with ⟨h3, h4⟩ | ⟨h3, h4⟩
    · rw [h4]
      have := readMeta_short h (n - intro.length) true m hok h3
      revert this
      cases RS.readMeta { inp := { rest := (recBytes h []).take (n - intro.length), fail := false },
                          introRead := true, more := m } <;> simp
    · rw [h4, readMeta_rec h [] _ true m hok]
      simp only [List.nil_append]
      generalize hk : n - intro.length - (recBytes h []).length = q
      have hq : q < (payload z comp (k.ser l)).length := by
        rw [intro_length] at hn h1 hk h3; omega
      unfold RS.readData
      have hps : h.payloadSize = (payload z comp (k.ser l)).length := by rw [← hh]; rfl
      have hcls : h.cls = k.cls l := by rw [← hh]; rfl
      have hcmp : h.compression = hdrComp comp := by rw [← hh]; rfl
      rw [if_pos (by omega), hcmp, hcls]
      cases comp
      · simp only [hdrComp, payload] at *
        have := ht q hq
        revert this
        cases k.deser (k.cls l) { rest := (k.ser l).take q, fail := false } <;> simp
      all_goals
        simp only [hdrComp]
        rw [read_short (by rw [List.length_take]; omega)]
        simp only
        rw [if_pos (by rw [List.length_take]; omega)]
        simp

/-! ### Termination -/

/-- `DeSerialize` does not put bytes back. -/
def Mono {L : Type} (k : Kind L) : Prop :=
  ∀ c s a s', k.deser c s = .ok a s' → s'.rest.length ≤ s.rest.length

theorem read_rest_le (s : In) (n : Nat) : (s.read n).2.rest.length ≤ s.rest.length := by
  unfold In.read
  split
  · simp
  · split <;> simp

theorem read_rest (s : In) (n : Nat) : (s.read n).1.length + (s.read n).2.rest.length ≤ s.rest.length := by
  unfold In.read
  split
  · simp
  · split
    · simp; omega
    · simp

theorem checkIntro_mono (s s' : RS) (h : s.checkIntro = .ok () s') : s'.inp.rest.length ≤ s.inp.rest.length := by
  unfold RS.checkIntro at h
  split at h
  · cases h; exact Nat.le_refl _
  · split at h
    · rename_i b inp heq
      have := read_rest_le s.inp 16
      rw [heq] at this
      simp only at h
      split at h
      · cases h
      · split at h
        · cases h
        · split at h
          · cases h
          · cases h; exact this

theorem checkIntro_nofuel (s : RS) : s.checkIntro ≠ .fuel := by
  unfold RS.checkIntro
  split
  · simp
  · simp only
    split
    · simp
    · split
      · simp
      · split <;> simp

theorem readMeta_nofuel (s : RS) : s.readMeta ≠ .fuel := by
  unfold RS.readMeta
  simp only
  split
  · simp
  · split <;> simp

/-- A header takes at least one byte. -/
theorem readMeta_mono (s s' : RS) (h : FileHdr) (hr : s.readMeta = .ok h s') :
    s'.inp.rest.length < s.inp.rest.length ∧ s'.more = h.more := by
  unfold RS.readMeta at hr
  simp only at hr
  have h1 := read_rest s.inp 4
  have h2 := read_rest (s.inp.read 4).2 (unle (s.inp.read 4).1)
  split at hr
  · cases hr
  · split at hr
    · cases hr
    · rename_i hlen _ h' hf
      cases hr
      refine ⟨?_, rfl⟩
      have hne : 0 < ((s.inp.read 4).2.read (unle (s.inp.read 4).1)).1.length := by
        apply Nat.pos_of_ne_zero
        intro h0
        rw [List.length_eq_zero_iff] at h0
        rw [h0] at hf
        cases hf
      simp only
      omega

theorem readData_mono {L : Type} (k : Kind L) (z : Zlib) (hk : Mono k) (h : FileHdr) (s s' : RS) (l : L)
    (hr : s.readData k z h = .ok l s') : s'.inp.rest.length ≤ s.inp.rest.length := by
  have hend : ∀ t : RS, (t.endData h).inp = t.inp := by
    intro t; unfold RS.endData; split <;> rfl
  unfold RS.readData at hr
  split at hr
  · split at hr
    · split at hr
      · rename_i heq
        cases hr
        rw [hend]
        exact hk _ _ _ _ heq
      all_goals cases hr
    · simp only at hr
      split at hr
      · cases hr
      · split at hr
        · cases hr
          rw [hend]
          exact read_rest_le _ _
        all_goals cases hr
  · split at hr
    · cases hr
    · cases hr
      rw [hend]
      exact Nat.le_refl _

theorem readData_nofuel {L : Type} (k : Kind L) (z : Zlib) (h : FileHdr) (s : RS) :
    s.readData k z h ≠ .fuel := by
  unfold RS.readData
  split
  · split
    · split <;> simp
    · simp only
      split
      · simp
      · split <;> simp
  · split <;> simp

theorem dummy_mono (h : FileHdr) (s s' : RS) (hr : s.dummyRead h = .ok () s') :
    s'.inp.rest.length ≤ s.inp.rest.length := by
  have hend : ∀ t : RS, (t.endData h).inp = t.inp := by
    intro t; unfold RS.endData; split <;> rfl
  unfold RS.dummyRead at hr
  split at hr
  · split at hr
    · cases hr; rw [hend]; exact read_rest_le _ _
    · simp only at hr
      split at hr
      · cases hr
      · cases hr; rw [hend]; exact read_rest_le _ _
  · cases hr; rw [hend]; exact Nat.le_refl _

theorem dummy_nofuel (h : FileHdr) (s : RS) : s.dummyRead h ≠ .fuel := by
  unfold RS.dummyRead
  split
  · split
    · simp
    · simp only; split <;> simp
  · simp

/-- With fuel above the number of remaining bytes the reader ends, and takes at least one byte. -/
theorem load_fuel {L : Type} (k : Kind L) (z : Zlib) (hk : Mono k) (n : Nat) :
    (∀ s : RS, 2 * s.inp.rest.length < n → loadWF k z n s ≠ .fuel ∧
      ∀ w s', loadWF k z n s = .ok w s' → s'.inp.rest.length < s.inp.rest.length) ∧
    (∀ (s : RS) acc, 2 * s.inp.rest.length + 1 < n → loadStates k z n s acc ≠ .fuel ∧
      ∀ w s', loadStates k z n s acc = .ok w s' → s'.inp.rest.length ≤ s.inp.rest.length) := by
  induction n with
  | zero => exact ⟨fun s h => by omega, fun s acc h => by omega⟩
  | succ n ih =>
    obtain ⟨ih1, ih2⟩ := ih
    constructor
    · intro s hs
      unfold loadWF
      rcases hc : s.checkIntro with ⟨_, s1⟩ | _ | _ | _ | _
      · have m1 := checkIntro_mono s s1 hc
        simp only
        rcases hm : s1.readMeta with ⟨h, s2⟩ | _ | _ | _ | _
        · obtain ⟨m2, _⟩ := readMeta_mono s1 s2 h hm
          simp only
          split
          · simp
          · split
            · rcases hd : s2.dummyRead h with ⟨_, s3⟩ | _ | _ | _ | _
              · have m3 := dummy_mono h s2 s3 hd
                simp only
                obtain ⟨a, b⟩ := ih2 s3 [] (by omega)
                exact ⟨a, fun w s' hw => by have := b w s' hw; omega⟩
              all_goals simp
              exact dummy_nofuel h s2 hd
            · rcases hd : s2.readData k z h with ⟨l, s3⟩ | _ | _ | _ | _
              · have m3 := readData_mono k z hk h s2 s3 l hd
                simp only
                refine ⟨by simp, fun w s' hw => ?_⟩
                cases hw
                omega
              all_goals simp
              exact readData_nofuel k z h s2 hd
        all_goals simp
        exact readMeta_nofuel s1 hm
      all_goals simp
      exact checkIntro_nofuel s hc
    · intro s acc hs
      unfold loadStates
      split
      · obtain ⟨a, b⟩ := ih1 s (by omega)
        rcases hw : loadWF k z n s with ⟨w, s1⟩ | _ | _ | _ | _
        · have m1 := b w s1 hw
          simp only
          split
          · simp
          · split
            · simp
            · obtain ⟨a2, b2⟩ := ih2 s1 (acc ++ [w]) (by omega)
              exact ⟨a2, fun w s' hw => by have := b2 w s' hw; omega⟩
        all_goals simp
        exact a hw
      · split
        · simp
        · exact ⟨by simp, fun w s' hw => by cases hw; exact Nat.le_refl _⟩

/-- **C15**: reading a wave function ends on every input stream, whatever its bytes are: the number of
recursive calls is bounded by the number of bytes. -/
theorem C15_terminates {L : Type} (k : Kind L) (z : Zlib) (hk : Mono k) (s : RS) :
    loadWF k z (2 * s.inp.rest.length + 1) s ≠ .fuel :=
  ((load_fuel k z hk _).1 s (by omega)).1

/-! ## C16 -/

/-- The bytes the states of a flat multi state take. -/
theorem writeStates_eq {L : Type} (k : Kind L) (z : Zlib) (name msParams : List Nat) (ls : List L) (hne : ls ≠ [])
    (more : Bool) (out : List Byte) :
    writeStates k z name msParams (ls.map WF.leaf) more { out := out, introWritten := true }
      = some { out := out ++ ls.dropLast.flatMap (fun l =>
                  recBytes (hdrOf z .uncompressed name (k.cls l) (k.params l) (k.ser l) true) (k.ser l))
                ++ (ls.getLast hne |> fun l =>
                  recBytes (hdrOf z .uncompressed name (k.cls l) (k.params l) (k.ser l) more) (k.ser l))
               introWritten := more } := by
  induction ls generalizing out with
  | nil => exact absurd rfl hne
  | cons l t ih =>
    cases t with
    | nil =>
      simp only [List.map_cons, List.map_nil, writeStates, writeWF, writeMeta_eq]
      cases more <;> simp [payload]
    | cons l2 t =>
      have := ih (by simp) (out ++ recBytes (hdrOf z .uncompressed name (k.cls l) (k.params l) (k.ser l) true) (k.ser l))
      rw [List.map_cons, writeStates]
      simp only [writeWF, writeMeta_eq, List.map_cons, List.isEmpty_cons, Bool.false_and, Bool.false_eq_true,
        if_false, if_true, List.nil_append, payload] at this ⊢
      rw [this]
      simp

/-- Reading back one single state. -/
theorem loadWF_leaf {L : Type} (k : Kind L) (z : Zlib) (hz : z.Good) (name : List Nat) (l : L)
    (hl : Storable k z .uncompressed name l) (more i m : Bool) (r : List Byte) (n : Nat) :
    loadWF k z (n + 1)
      { inp := { rest := (if i then [] else intro) ++
            (recBytes (hdrOf z .uncompressed name (k.cls l) (k.params l) (k.ser l) more) (k.ser l) ++ r), fail := false }
        introRead := i, more := m }
      = .ok (.leaf l) { inp := { rest := r, fail := false }, introRead := more, more := more } := by
  unfold loadWF
  rw [checkIntro_either]
  simp only
  rw [readMeta_rec _ _ _ _ _ (hl.hdr more)]
  simp only
  rw [if_neg (by have := hl.clsLen; simp only [hdrOf]; omega), if_neg (by simpa [hdrOf] using hl.clsName)]
  have := readData_rec k z hz .uncompressed name l hl more r true more
  simp only [payload, Bool.true_and] at this
  simp only [hdrOf] at this ⊢
  simp only [payload] at this ⊢
  rw [this]

theorem loadStates_done {L : Type} (k : Kind L) (z : Zlib) (n : Nat) (acc : List (WF L)) (hacc : acc ≠ []) (inp : In) (i : Bool) :
    loadStates k z (n + 1) { inp := inp, introRead := i, more := false } acc
      = .ok (.multi acc) { inp := inp, introRead := i, more := false } := by
  unfold loadStates
  simp [hacc]

theorem loadStates_flat {L : Type} (k : Kind L) (z : Zlib) (hz : z.Good) (name : List Nat) (ls : List L) (hne : ls ≠ [])
    (hls : ∀ l ∈ ls, Storable k z .uncompressed name l) (acc : List (WF L)) (hlen : acc.length + ls.length ≤ 63)
    (r : List Byte) (n : Nat) (hn : ls.length + 1 < n) :
    loadStates k z n
      { inp := { rest := ls.dropLast.flatMap (fun l =>
                  recBytes (hdrOf z .uncompressed name (k.cls l) (k.params l) (k.ser l) true) (k.ser l))
                ++ (ls.getLast hne |> fun l =>
                  recBytes (hdrOf z .uncompressed name (k.cls l) (k.params l) (k.ser l) false) (k.ser l)) ++ r,
                 fail := false }
        introRead := true, more := true } acc
      = .ok (.multi (acc ++ ls.map WF.leaf)) (start r false) := by
  induction ls generalizing acc n with
  | nil => exact absurd rfl hne
  | cons l t ih =>
    obtain ⟨n, rfl⟩ : ∃ n', n = n' + 2 := ⟨n - 2, by simp only [List.length_cons] at hn; omega⟩
    have hl := hls l (by simp)
    simp only [List.length_cons] at hlen hn
    cases t with
    | nil =>
      rw [loadStates]
      simp only [if_true, List.dropLast_singleton, List.flatMap_nil, List.nil_append, List.getLast_singleton]
      have := loadWF_leaf k z hz name l hl false true true r n
      simp only [if_true, List.nil_append] at this
      rw [this]
      simp only
      rw [if_neg (by omega), if_neg (by simp [WF.strides]), loadStates_done k z n _ (by simp)]
      simp [start]
    | cons l2 t =>
      rw [loadStates]
      simp only [if_true, List.dropLast_cons_cons, List.flatMap_cons, List.append_assoc,
        List.getLast_cons_cons]
      have := loadWF_leaf k z hz name l hl true true true
        ((l2 :: t).dropLast.flatMap (fun l =>
                  recBytes (hdrOf z .uncompressed name (k.cls l) (k.params l) (k.ser l) true) (k.ser l))
                ++ ((l2 :: t).getLast (by simp) |> fun l =>
                  recBytes (hdrOf z .uncompressed name (k.cls l) (k.params l) (k.ser l) false) (k.ser l)) ++ r) n
      simp only [if_true, List.nil_append, List.append_assoc] at this
      rw [this]
      simp only
      rw [if_neg (by omega), if_neg (by simp [WF.strides])]
      have ih' := ih (by simp) (fun x hx => hls x (by simp [hx])) (acc ++ [.leaf l])
        (by simp only [List.length_append, List.length_cons, List.length_nil] at *; omega) (n + 1)
        (by simp only [List.length_cons] at *; omega)
      simp only [List.append_assoc] at ih'
      rw [ih']
      simp

/-- **C16**: a multi state wave function with up to 63 states is read back with the same states in the
same order, with the stream at the end of the last record; whatever follows in the stream is left. -/
theorem C16_roundtrip {L : Type} (k : Kind L) (z : Zlib) (hz : z.Good) (name msParams : List Nat) (ls : List L)
    (hne : ls ≠ []) (hlen : ls.length ≤ 63) (hls : ∀ l ∈ ls, Storable k z .uncompressed name l)
    (hms : HdrOk (hdrOf z .uncompressed name msName msParams (le 4 ls.length) true))
    (r : List Byte) (m : Bool) (n : Nat) (hn : ls.length + 2 < n) :
    ∃ st, writeWF k z name msParams (.multi (ls.map WF.leaf)) false { out := [], introWritten := false } = some st ∧
      st.introWritten = false ∧
      loadWF k z n (start (st.out ++ r) m) = .ok (.multi (ls.map WF.leaf)) (start r false) := by
  have hpos : 0 < ls.length := List.length_pos_iff.2 hne
  rw [writeWF]
  simp only [List.length_map]
  rw [if_neg (by omega), writeMeta_eq, writeStates_eq k z name msParams ls hne]
  refine ⟨_, rfl, rfl, ?_⟩
  obtain ⟨n, rfl⟩ : ∃ n', n = n' + 1 := ⟨n - 1, by omega⟩
  unfold loadWF start
  simp only [Bool.false_eq_true, if_false, List.nil_append, List.append_assoc]
  rw [checkIntro_intro]
  simp only
  rw [readMeta_rec _ _ _ _ _ hms]
  simp only
  rw [if_neg (by simp [hdrOf, msName]), if_pos (by simp [hdrOf])]
  have hd : ∀ (q : List Byte), RS.dummyRead (hdrOf z .uncompressed name msName msParams (le 4 ls.length) true)
      { inp := { rest := payload z .uncompressed (le 4 ls.length) ++ q, fail := false }, introRead := true,
        more := (hdrOf z .uncompressed name msName msParams (le 4 ls.length) true).more }
      = .ok () { inp := { rest := q, fail := false }, introRead := true, more := true } := by
    intro q
    unfold RS.dummyRead
    rw [if_pos (by simp [hdrOf, payload, le_length])]
    simp only [hdrOf, hdrComp, payload, read_append _ _ 4 (le_length _ _), RS.endData, if_true]
  rw [hd]
  simp only
  have := loadStates_flat k z hz name ls hne hls [] (by simpa using hlen) r n (by omega)
  simp only [List.nil_append, List.append_assoc] at this
  rw [this]
  rfl

/-! ### Several wave functions in one stream -/

/-- Writing wave functions one after the other. -/
def writeWFs {L : Type} (k : Kind L) (z : Zlib) (name msParams : List Nat) : List (WF L) → WS → Option WS
  | [], st => some st
  | w :: r, st =>
    match writeWF k z name msParams w false st with
    | none => none
    | some st => writeWFs k z name msParams r st

/-- Reading wave functions one after the other. -/
def loadWFs {L : Type} (k : Kind L) (z : Zlib) (fuel : Nat) : Nat → RS → ROut (List (WF L))
  | 0, s => .ok [] s
  | n + 1, s =>
    match loadWF k z fuel s with
    | .ok w s =>
      match loadWFs k z fuel n s with
      | .ok r s => .ok (w :: r) s
      | .threw => .threw
      | .indet => .indet
      | .ub => .ub
      | .fuel => .fuel
    | .threw => .threw
    | .indet => .indet
    | .ub => .ub
    | .fuel => .fuel

/-- A single wave function, or a flat multi state with 1 to 63 states, of storable objects. -/
inductive Flat {L : Type} (k : Kind L) (z : Zlib) (name msParams : List Nat) : WF L → Prop
  | leaf (l : L) (h : Storable k z .uncompressed name l) : Flat k z name msParams (.leaf l)
  | multi (ls : List L) (hne : ls ≠ []) (hlen : ls.length ≤ 63)
      (hls : ∀ l ∈ ls, Storable k z .uncompressed name l)
      (hms : HdrOk (hdrOf z .uncompressed name msName msParams (le 4 ls.length) true)) :
      Flat k z name msParams (.multi (ls.map WF.leaf))

theorem writeWF_shift {L : Type} (k : Kind L) (z : Zlib) (name msParams : List Nat) (w : WF L)
    (hw : Flat k z name msParams w) (out : List Byte) :
    ∃ bs, writeWF k z name msParams w false { out := [], introWritten := false }
        = some { out := bs, introWritten := false } ∧
      writeWF k z name msParams w false { out := out, introWritten := false }
        = some { out := out ++ bs, introWritten := false } := by
  cases hw with
  | leaf l h =>
    rw [writeWF, writeWF, writeMeta_eq, writeMeta_eq]
    exact ⟨_, rfl, by simp⟩
  | multi ls hne hlen hls hms =>
    have hpos : 0 < ls.length := List.length_pos_iff.2 hne
    rw [writeWF, writeWF]
    simp only [List.length_map]
    rw [if_neg (by omega), if_neg (by omega), writeMeta_eq, writeMeta_eq, writeStates_eq k z name msParams ls hne,
      writeStates_eq k z name msParams ls hne]
    exact ⟨_, rfl, by simp⟩

theorem loadWF_flat {L : Type} (k : Kind L) (z : Zlib) (hz : z.Good) (name msParams : List Nat) (w : WF L)
    (hw : Flat k z name msParams w) (r : List Byte) (m : Bool) (n : Nat) (hn : 66 ≤ n) :
    ∃ st, writeWF k z name msParams w false { out := [], introWritten := false } = some st ∧
      loadWF k z n (start (st.out ++ r) m) = .ok w (start r false) := by
  cases hw with
  | leaf l h =>
    rw [writeWF, writeMeta_eq]
    refine ⟨_, rfl, ?_⟩
    obtain ⟨n, rfl⟩ : ∃ n', n = n' + 1 := ⟨n - 1, by omega⟩
    have := loadWF_leaf k z hz name l h false false m r n
    simpa [start, payload] using this
  | multi ls hne hlen hls hms =>
    obtain ⟨st, h1, _, h3⟩ := C16_roundtrip k z hz name msParams ls hne hlen hls hms r m n (by omega)
    exact ⟨st, h1, h3⟩

/-- **C16**: single and multi state wave functions written one after the other to one stream are read
back one after the other. -/
theorem C16_sequence {L : Type} (k : Kind L) (z : Zlib) (hz : z.Good) (name msParams : List Nat) (ws : List (WF L))
    (hws : ∀ w ∈ ws, Flat k z name msParams w) (r : List Byte) (m : Bool) (n : Nat) (hn : 66 ≤ n) :
    ∃ st m', writeWFs k z name msParams ws { out := [], introWritten := false } = some st ∧
      loadWFs k z n ws.length (start (st.out ++ r) m) = .ok ws (start r m') := by
  have gen : ∀ (ws : List (WF L)), (∀ w ∈ ws, Flat k z name msParams w) → ∀ out, ∃ bs,
      writeWFs k z name msParams ws { out := out, introWritten := false }
        = some { out := out ++ bs, introWritten := false } ∧
      ∀ m, ∃ m', loadWFs k z n ws.length (start (bs ++ r) m) = .ok ws (start r m') := by
    intro ws
    induction ws with
    | nil => intro _ out; exact ⟨[], by simp [writeWFs], fun m => ⟨m, rfl⟩⟩
    | cons w t ih =>
      intro hws out
      obtain ⟨b1, h1, h2⟩ := writeWF_shift k z name msParams w (hws w (by simp)) out
      obtain ⟨b2, h3, h4⟩ := ih (fun x hx => hws x (by simp [hx])) (out ++ b1)
      refine ⟨b1 ++ b2, ?_, ?_⟩
      · rw [writeWFs, h2]
        simp only
        rw [h3]
        simp
      · intro m
        obtain ⟨st, e1, e2⟩ := loadWF_flat k z hz name msParams w (hws w (by simp)) (b2 ++ r) m n hn
        rw [h1] at e1
        cases e1
        obtain ⟨m', h5⟩ := h4 false
        refine ⟨m', ?_⟩
        rw [List.length_cons, loadWFs, List.append_assoc]
        simp only at e2
        rw [e2]
        simp only
        rw [h5]
  obtain ⟨bs, h1, h2⟩ := gen ws hws []
  obtain ⟨m', h3⟩ := h2 m
  exact ⟨_, m', h1, by simpa using h3⟩

/-! ## A concrete class: level wave functions -/

/-- `WFLevel` (`/repo/src/qdlib/WFLevel.cpp:136-161`) as a storable class, with `mem` bytes of memory; the
only module. -/
def levelKind (mem : Nat) : Kind (List (Dbl × Dbl)) where
  cls _ := [87, 70, 76, 101, 118, 101, 108]
  params _ := []
  ser := levelSer
  deser c s := if c = [87, 70, 76, 101, 118, 101, 108] then levelDeser mem s else .threw
  fresh c := if c = [87, 70, 76, 101, 118, 101, 108] then some [] else none

/-- The identity in place of zlib. -/
def noZ : Zlib := ⟨fun d => 1 :: d, fun d => d.drop 1⟩

theorem noZ_good : noZ.Good := by intro d; simp [noZ]

theorem varint_le (v : Nat) (h : v < 2 ^ 64) : (writeVarint v).length ≤ 10 := varint_len_le v h

/-- Size of a header with short texts. -/
theorem hdr_len (h : FileHdr) (hv : fileValid h) (hc : h.cls.length + h.name.length + h.metaData.length < 2 ^ 31) :
    (encFields (fileFields h)).length < 2 ^ 32 := by
  have ht : ∀ n w, n < 2 ^ 29 → w < 8 → (writeTag n w).length ≤ 10 := fun n w hn hw => varint_len_le _ (by omega)
  have t1 := ht 1 0 (by decide) (by decide)
  have t2 := ht 2 2 (by decide) (by decide)
  have t3 := ht 3 2 (by decide) (by decide)
  have t5 := ht 5 2 (by decide) (by decide)
  have t6 := ht 6 0 (by decide) (by decide)
  have t7 := ht 7 0 (by decide) (by decide)
  have v1 := varint_len_le (if h.more then 1 else 0) (by split <;> decide)
  have v2 := varint_len_le h.cls.length (by omega)
  have v3 := varint_len_le h.name.length (by omega)
  have v5 := varint_len_le h.metaData.length (by omega)
  have v6 := varint_len_le h.payloadSize hv.1
  have v7 := varint_len_le h.compression.code (by cases h.compression <;> decide)
  simp only [fileFields, encFields, writeWire, WireVal.type, List.length_append, List.length_nil]
  omega

theorem levelSer_length (v : List (Dbl × Dbl)) : (levelSer v).length = 16 + 16 * v.length := by
  rw [C12_size]; unfold sizeBytes; omega

/-- Level wave functions meet the assumptions of the theorems above. -/
theorem level_storable (mem : Nat) (name : List Nat) (v : List (Dbl × Dbl)) (hv : v.length < 2 ^ 31)
    (hmem : 16 * v.length ≤ mem) (hname : name.length < 2 ^ 30 ∧ ∀ b ∈ name, b < 256) :
    Storable (levelKind mem) noZ .uncompressed name v where
  back r := by simpa [levelKind] using C12_roundtrip mem v r hv hmem
  nonempty := by
    intro h
    have := levelSer_length v
    simp only [levelKind] at h
    rw [h] at this
    simp only [List.length_nil] at this
    omega
  clsLen := by simp [levelKind]
  clsName := by simp [levelKind, msName]
  hdr more := by
    have hval : fileValid (hdrOf noZ .uncompressed name ((levelKind mem).cls v) ((levelKind mem).params v)
        ((levelKind mem).ser v) more) := by
      refine ⟨?_, ?_, ?_, ?_⟩
      · simp only [hdrOf, payload, levelKind, levelSer_length]; omega
      · simp [hdrOf, levelKind]
      · simp only [hdrOf]; exact ⟨by omega, hname.2⟩
      · simp [hdrOf, levelKind]
    refine ⟨hval, hdr_len _ hval ?_⟩
    simp only [hdrOf, levelKind, List.length_cons, List.length_nil]
    omega

theorem level_mono (mem : Nat) : Mono (levelKind mem) := by
  intro c s a s' h
  simp only [levelKind] at h
  split at h
  · unfold levelDeser at h
    simp only at h
    have h1 := read_rest_le s 8
    have h2 := read_rest_le (s.read 8).2 8
    have h3 := read_rest_le ((s.read 8).2.read 8).2 (unle ((s.read 8).2.read 8).1)
    split at h
    · cases h
    · split at h
      · cases h
      · split at h
        · cases h
        · split at h
          · cases h
          · split at h
            · cases h
            · split at h
              · cases h
              · cases h; omega
  · cases h

theorem level_trunc (mem : Nat) (v : List (Dbl × Dbl)) (hv : v.length < 2 ^ 31) (hmem : 16 * v.length ≤ mem) :
    TruncSafe (levelKind mem) v := by
  intro n hn a s
  simp only [levelKind, if_true] at hn ⊢
  rw [C12_truncated mem v hv hmem n hn]
  simp

theorem ms_hdr (name : List Nat) (hname : name.length < 2 ^ 30 ∧ ∀ b ∈ name, b < 256) (n : Nat) :
    HdrOk (hdrOf noZ .uncompressed name msName [] (le 4 n) true) := by
  have hval : fileValid (hdrOf noZ .uncompressed name msName [] (le 4 n) true) := by
    refine ⟨?_, ?_, ?_, ?_⟩
    · simp only [hdrOf, payload, le_length]; omega
    · simp [hdrOf, msName]
    · simp only [hdrOf]; exact ⟨by omega, hname.2⟩
    · simp [hdrOf]
  refine ⟨hval, hdr_len _ hval ?_⟩
  simp only [hdrOf, msName, List.length_cons, List.length_nil]
  omega

/-- **C16** for level wave functions, without further assumptions. -/
theorem C16_levels (mem : Nat) (name : List Nat) (hname : name.length < 2 ^ 30 ∧ ∀ b ∈ name, b < 256)
    (vs : List (List (Dbl × Dbl))) (hne : vs ≠ []) (hlen : vs.length ≤ 63)
    (hv : ∀ v ∈ vs, v.length < 2 ^ 31 ∧ 16 * v.length ≤ mem) (r : List Byte) (m : Bool) (n : Nat)
    (hn : vs.length + 2 < n) :
    ∃ st, writeWF (levelKind mem) noZ name [] (.multi (vs.map WF.leaf)) false { out := [], introWritten := false } = some st ∧
      loadWF (levelKind mem) noZ n (start (st.out ++ r) m) = .ok (.multi (vs.map WF.leaf)) (start r false) := by
  obtain ⟨st, h1, _, h3⟩ := C16_roundtrip (levelKind mem) noZ noZ_good name [] vs hne hlen
    (fun v hx => level_storable mem name v (hv v hx).1 (hv v hx).2 hname) (ms_hdr name hname _) r m n hn
  exact ⟨st, h1, h3⟩

/-- The bytes of a two state wave function of the model are read back. -/
example :
    let vs : List (List (Dbl × Dbl)) := [[(1, 2)], [(3, 4), (5, 6)]]
    (∀ v ∈ vs, v.length < 2 ^ 31 ∧ 16 * v.length ≤ 100) ∧
      (writeWF (levelKind 100) noZ [97] [] (.multi (vs.map WF.leaf)) false { out := [], introWritten := false }).isSome := by
  decide +kernel

/-- Hypotheses of `C15_roundtrip` and `C15_truncated` for a list of two levels. -/
example : (∀ l ∈ ([[(1, 2)], [(3, 4), (5, 6)]] : List (List (Dbl × Dbl))),
      Storable (levelKind 100) noZ .uncompressed [97] l ∧ TruncSafe (levelKind 100) l) ∧ Mono (levelKind 100) := by
  refine ⟨?_, level_mono 100⟩
  intro l hl
  simp only [List.mem_cons, List.not_mem_nil, or_false] at hl
  rcases hl with rfl | rfl
  · exact ⟨level_storable 100 [97] _ (by simp) (by simp) (by simp), level_trunc 100 _ (by simp) (by simp)⟩
  · exact ⟨level_storable 100 [97] _ (by simp) (by simp) (by simp), level_trunc 100 _ (by simp) (by simp)⟩

/-- **C16 is violated for nested multi states**: a multi state whose first state is a multi state with one
state is written without complaint, reading it back fails. -/
theorem C16_violated_nested (v1 v2 : List (Dbl × Dbl)) (mem : Nat)
    (h1 : v1.length < 2 ^ 31 ∧ 16 * v1.length ≤ mem) (h2 : v2.length < 2 ^ 31 ∧ 16 * v2.length ≤ mem) (m : Bool) :
    ∃ st, writeWF (levelKind mem) noZ [97] [] (.multi [.multi [.leaf v1], .leaf v2]) false
        { out := [], introWritten := false } = some st ∧
      ∀ n, loadWF (levelKind mem) noZ (n + 6) (start st.out m) = .threw := by
  have s1 := level_storable mem [97] v1 h1.1 h1.2 (by simp)
  have s2 := level_storable mem [97] v2 h2.1 h2.2 (by simp)
  have hd : ∀ (j n : Nat) (q : List Byte) (b : Bool), RS.dummyRead (hdrOf noZ .uncompressed [97] msName [] (le 4 j) true)
      { inp := { rest := payload noZ .uncompressed (le 4 j) ++ q, fail := false }, introRead := true,
        more := (hdrOf noZ .uncompressed [97] msName [] (le 4 n) true).more }
      = .ok () { inp := { rest := q, fail := false }, introRead := true, more := true } := by
    intro j n q b
    unfold RS.dummyRead
    rw [if_pos (by simp [hdrOf, payload, le_length])]
    simp only [hdrOf, hdrComp, payload, read_append _ _ 4 (le_length _ _), RS.endData, if_true]
  refine ⟨_, by simp [writeWF, writeStates, writeMeta_eq]; rfl, ?_⟩
  intro n
  simp only [start, List.append_assoc]
  unfold loadWF
  rw [checkIntro_intro]
  simp only
  rw [readMeta_rec _ _ _ _ _ (ms_hdr [97] (by simp) 2)]
  simp only
  rw [if_neg (by simp [hdrOf, msName]), if_pos (by simp [hdrOf]), hd 2 2 _ true]
  simp only
  unfold loadStates
  simp only [if_true]
  unfold loadWF
  rw [checkIntro_read _ rfl]
  simp only
  rw [readMeta_rec _ _ _ _ _ (ms_hdr [97] (by simp) 1)]
  simp only
  rw [if_neg (by simp [hdrOf, msName]), if_pos (by simp [hdrOf]), hd 1 1 _ true]
  simp only
  unfold loadStates
  simp only [if_true]
  have l1 := fun q n => loadWF_leaf (levelKind mem) noZ noZ_good [97] v1 s1 true true true q n
  have l2 := fun q n => loadWF_leaf (levelKind mem) noZ noZ_good [97] v2 s2 false true true q n
  simp only [if_true, List.nil_append] at l1 l2
  simp only [payload] at *
  rw [l1]
  simp only [List.length_nil]
  rw [if_neg (by omega), if_neg (by simp [WF.strides])]
  unfold loadStates
  simp only [if_true]
  rw [← List.append_nil (recBytes _ ((levelKind mem).ser v2)), l2]
  simp only
  rw [if_neg (by simp), if_neg (by simp [WF.strides]), loadStates_done _ _ _ _ (by simp)]
  simp [WF.strides]

/-- **C15 is violated for truncated data**: when the last byte of a level wave function is missing, reading does
not fail but returns an object with indeterminate contents. -/
theorem C15_violated_truncated :
    let bs := (writeFile (levelKind 100) noZ .uncompressed [97] [(1, 2), (3, 4)] { out := [], introWritten := false }).out
    readFile (levelKind 100) noZ (start bs.dropLast false) = .indet := by
  decide +kernel

/-- **C16**: a multi state wave function without states is rejected by the writer. -/
theorem C16_empty {L : Type} (k : Kind L) (z : Zlib) (name msParams : List Nat) (more : Bool) (st : WS) :
    writeWF k z name msParams (.multi []) more st = none := by
  simp [writeWF]

end QDng.Stream
