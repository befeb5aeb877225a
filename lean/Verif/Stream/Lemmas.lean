import Verif.Stream.Model

/-! # Lemmas about the stream model -/

namespace QDng.Stream

open QDng.Serial QDng.Wire

/-- Bytes of one record: header length, header, payload. -/
def recBytes (h : FileHdr) (p : List Byte) : List Byte :=
  le 4 (encFields (fileFields h)).length ++ (toBytes (encFields (fileFields h)) ++ p)

/-- The header `writeMeta` builds. -/
def hdrOf (z : Zlib) (comp : Compression) (name cls params : List Nat) (data : List Byte) (more : Bool) : FileHdr :=
  { more := more, cls := cls, name := name, metaData := params,
    payloadSize := (payload z comp data).length, compression := hdrComp comp }

theorem writeMeta_eq (z : Zlib) (comp : Compression) (name cls params : List Nat) (data : List Byte)
    (more : Bool) (st : WS) :
    st.writeMeta z comp name cls params data more
      = { out := st.out ++ ((if st.introWritten then [] else intro) ++
            recBytes (hdrOf z comp name cls params data more) (payload z comp data))
          introWritten := more } := by
  obtain ⟨out, iw⟩ := st
  unfold WS.writeMeta WS.writeIntro WS.writeHdr recBytes hdrOf
  cases more <;> cases iw <;> simp

theorem toBytes_length (l : List Nat) : (toBytes l).length = l.length := by simp [toBytes]

/-- The header is valid and its encoding fits the length field. -/
def HdrOk (h : FileHdr) : Prop := fileValid h ∧ (encFields (fileFields h)).length < 2 ^ 32

theorem readMeta_rec (h : FileHdr) (p r : List Byte) (i m : Bool) (hok : HdrOk h) :
    RS.readMeta { inp := { rest := recBytes h p ++ r, fail := false }, introRead := i, more := m }
      = .ok h { inp := { rest := p ++ r, fail := false }, introRead := i, more := h.more } := by
  unfold RS.readMeta recBytes
  simp only [List.append_assoc]
  rw [read_append _ _ 4 (le_length _ _)]
  simp only
  rw [unle_le_of_lt (by simpa using hok.2), read_append _ _ _ (toBytes_length _)]
  simp only [toBytes_length]
  rw [if_neg (by omega), ofBytes_toBytes _ (C63_bytes _ (fileFields_ok h hok.1)), fileOf_enc h hok.1]

theorem intro_length : intro.length = 16 := by decide

theorem checkIntro_intro (r : List Byte) (m : Bool) :
    RS.checkIntro { inp := { rest := intro ++ r, fail := false }, introRead := false, more := m }
      = .ok () { inp := { rest := r, fail := false }, introRead := true, more := m } := by
  unfold RS.checkIntro
  simp only [Bool.false_eq_true, if_false]
  rw [read_append _ _ 16 intro_length]
  have h1 : intro ++ intro.drop intro.length = intro := by decide
  simp only [h1]
  have h2 : cstr intro = some magic.dropLast := by decide
  have h3 : unle (intro.drop 12) = 1 := by decide
  simp [h2, h3]

theorem checkIntro_read (s : RS) (h : s.introRead = true) : s.checkIntro = .ok () s := by
  unfold RS.checkIntro
  simp [h]

/-- What a record of the list of states or a stand alone object starts with. -/
theorem checkIntro_either (b : Bool) (r : List Byte) (m : Bool) :
    RS.checkIntro { inp := { rest := (if b then [] else intro) ++ r, fail := false }, introRead := b, more := m }
      = .ok () { inp := { rest := r, fail := false }, introRead := true, more := m } := by
  cases b
  · simpa using checkIntro_intro r m
  · simpa using checkIntro_read _ rfl

end QDng.Stream
