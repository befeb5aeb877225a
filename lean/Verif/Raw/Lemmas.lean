import Verif.Raw.Model
import Verif.FileSeq.Props

/-! # Lemmas on wave function files in the binary format -/

namespace QDng.Raw

open QDng QDng.FileSeq QDng.Serial

/-- Contents a reader recognises as uncompressed raw data: at least one complex number, a zero byte among
the first 16 bytes, not beginning like a stream, not ending like compressed data. -/
structure Plain (d : List Byte) : Prop where
  len : 16 ≤ d.length
  zero : (0 : Byte) ∈ d.take 16
  noIntro : d.take 12 ≠ Stream.magic
  noZlib : d.drop (d.length - 8) ≠ magicOf .zlib
  noBzip : d.drop (d.length - 8) ≠ magicOf .bzip

/-- Object, class and parameters fit together: the module of the class, initialised with the parameters, has
room for exactly the data, and reading the data gives the object. -/
structure Storable {L P : Type} (k : Kind L P) (l : L) : Prop where
  name : 1 < (k.cls l).length
  notMulti : k.cls l ≠ msName
  nonempty : k.data l ≠ []
  read : ∃ w b, k.fresh (k.cls l) = some w ∧ k.init w (k.params l) = some b ∧
    (k.data b).length = (k.data l).length ∧ k.fill b (k.data l) = l

/-- The text of the meta file for a class name and parameters is read back. -/
def TextOk {L P : Type} (k : Kind L P) (c : Str) (p : P) : Prop := k.parse (k.text c p) = (c, p)

theorem put_same (fs : Files) (n : Str) (b : List Byte) : put fs n b n = some b := if_pos rfl

theorem put_other (fs : Files) {n m : Str} (b : List Byte) (h : m ≠ n) : put fs n b m = fs m := if_neg h

theorem cstr_some (l : List Byte) (h : (0 : Byte) ∈ l) : ∃ m r, Stream.cstr l = some m ∧ l = m ++ 0 :: r := by
  induction l with
  | nil => simp at h
  | cons a t ih =>
    unfold Stream.cstr
    by_cases ha : a = 0
    · exact ⟨[], t, by rw [if_pos ha], by rw [ha]; rfl⟩
    · have ht : (0 : Byte) ∈ t := by
        rcases List.mem_cons.1 h with h | h
        · exact absurd h.symm ha
        · exact h
      obtain ⟨m, r, e, e'⟩ := ih ht
      exact ⟨a :: m, r, by rw [if_neg ha, e]; rfl, by rw [e']; rfl⟩

theorem cstr_none (l : List Byte) (h : (0 : Byte) ∉ l) : Stream.cstr l = none := by
  induction l with
  | nil => rfl
  | cons a t ih =>
    unfold Stream.cstr
    rw [if_neg (fun e => h (by rw [e]; exact List.mem_cons_self)), ih (fun e => h (List.mem_cons_of_mem _ e))]
    rfl

theorem in_read16 (b : List Byte) (h : 16 ≤ b.length) :
    (In.read ⟨b, false⟩ 16) = (b.take 16, ⟨b.drop 16, false⟩) := by
  unfold In.read
  rw [if_neg Bool.false_ne_true, if_pos h]

theorem checkIntro_binary (b : List Byte) (h : 16 ≤ b.length) (hz : (0 : Byte) ∈ b.take 16)
    (hn : b.take 12 ≠ Stream.magic) : Stream.RS.checkIntro ⟨⟨b, false⟩, false, false⟩ = .threw := by
  unfold Stream.RS.checkIntro
  rw [if_neg Bool.false_ne_true]
  simp only [in_read16 b h]
  have hl : (b.take 16).length = 16 := by rw [List.length_take]; omega
  have hd : Stream.intro.drop (b.take 16).length = [] := by rw [hl]; decide
  rw [hd, List.append_nil]
  obtain ⟨m, r, e, e'⟩ := cstr_some _ hz
  rw [e]
  have : m ≠ Stream.magic.dropLast := by
    intro hm
    apply hn
    have : b.take 12 = (b.take 16).take 12 := by rw [List.take_take]; rfl
    rw [this, e', hm]
    rfl
  show (if m ≠ Stream.magic.dropLast then _ else _) = _
  rw [if_pos this]

theorem checkIntro_ub (b : List Byte) (h : 16 ≤ b.length) (hz : (0 : Byte) ∉ b.take 16) :
    Stream.RS.checkIntro ⟨⟨b, false⟩, false, false⟩ = .ub := by
  unfold Stream.RS.checkIntro
  rw [if_neg Bool.false_ne_true]
  simp only [in_read16 b h]
  have hl : (b.take 16).length = 16 := by rw [List.length_take]; omega
  have hd : Stream.intro.drop (b.take 16).length = [] := by rw [hl]; decide
  rw [hd, List.append_nil, cstr_none _ hz]

theorem detect_plain {s : St} {b : List Byte} (hf : s.fs s.seq.fileName = some b) (h : 16 ≤ b.length)
    (hz : (0 : Byte) ∈ b.take 16) (hn : b.take 12 ≠ Stream.magic) : detect s = .binary := by
  unfold detect
  rw [hf]
  show (match Stream.RS.checkIntro ⟨⟨b, false⟩, false, false⟩ with
    | .ok _ _ => Det.stream | .ub => Det.ub | _ => Det.binary) = _
  rw [checkIntro_binary b h hz hn]

theorem detect_ub {s : St} {b : List Byte} (hf : s.fs s.seq.fileName = some b) (h : 16 ≤ b.length)
    (hz : (0 : Byte) ∉ b.take 16) : detect s = .ub := by
  unfold detect
  rw [hf]
  show (match Stream.RS.checkIntro ⟨⟨b, false⟩, false, false⟩ with
    | .ok _ _ => Det.stream | .ub => Det.ub | _ => Det.binary) = _
  rw [checkIntro_ub b h hz]

theorem detectComp_plain {d : List Byte} (h : Plain d) : detectComp d = some .uncompressed := by
  unfold detectComp
  have := h.len
  rw [if_neg (by omega), if_neg h.noZlib, if_neg h.noBzip]

theorem readMeta_plain {L P : Type} (k : Kind L P) {s : St} {b : List Byte} {p : Str × P}
    (hf : s.fs s.seq.fileName = some b) (hb : Plain b) (hm : readMetaRaw k s = some p) :
    readMeta k s = .ok (p, .uncompressed) s := by
  unfold readMeta
  rw [detect_plain hf hb.len hb.zero hb.noIntro]
  show (match readMetaRaw k s, (s.fs s.seq.fileName).bind detectComp with
    | some p, some m => Res.ok (p, m) s
    | _, _ => Res.threw s) = _
  rw [hm, hf]
  show (match some p, detectComp b with
    | some p, some m => Res.ok (p, m) s
    | _, _ => Res.threw s) = _
  rw [detectComp_plain hb]

/-- Reading a single wave function whose data is in the file and whose class and parameters are found. -/
theorem load_plain {L P : Type} (k : Kind L P) (z : Codec) (l : L) (s : St) (n : Nat) (hs : Storable k l)
    (hf : s.fs s.seq.fileName = some (k.data l)) (hb : Plain (k.data l))
    (hm : readMetaRaw k s = some (k.cls l, k.params l)) :
    load k z (n + 1) s = .ok (.leaf l) ⟨s.seq.advance, s.fs⟩ := by
  obtain ⟨w, b, hw, hi, hlen, hfill⟩ := hs.read
  have hr : readData k z (k.params l) .uncompressed w s = .ok l ⟨s.seq.advance, s.fs⟩ := by
    unfold readData
    rw [hi, hf]
    show (if (k.data b).length = 0 then _ else _) = _
    have h0 : (k.data l).length ≠ 0 := fun e => hs.nonempty (List.length_eq_zero_iff.1 e)
    rw [if_neg (by rw [hlen]; exact h0), if_pos rfl, if_neg (by rw [hlen]; exact lt_irrefl _), hlen,
      List.take_length, hfill]
  have hl : loadLeaf k z (k.cls l) (k.params l) .uncompressed s = .ok l ⟨s.seq.advance, s.fs⟩ := by
    unfold loadLeaf
    rw [hw]
    show (match readData k z (k.params l) .uncompressed w s with
      | .ok t s => Res.ok (if Method.uncompressed = Method.uncompressed then t else k.restore w t) s
      | e => e) = _
    rw [hr]
    rfl
  rw [load]
  rw [readMeta_plain k hf hb hm]
  have hname : s.seq.advance.name = s.seq.name := by unfold Seq.advance; split <;> rfl
  show (if (k.cls l).length ≤ 1 then _ else _) = _
  rw [if_neg (by have := hs.name; omega), if_neg hs.notMulti, hl]
  show Res.ok (Stream.WF.leaf l) (⟨{ s.seq.advance with name := s.seq.name }, s.fs⟩ : St) = _
  rw [← hname]

theorem wf_ne_meta (s : Seq) (hsuf : s.suffix = ".wf".toList) : s.fileName ≠ metaName s := by
  unfold Seq.fileName metaName metaSuffix
  split
  · intro h
    have := List.append_cancel_left h
    injection this with h1 _
    exact absurd h1 (by decide)
  · rw [hsuf]
    intro h
    have := List.append_cancel_left h
    exact absurd this (by decide)

/-- Result of writing uncompressed. -/
theorem writeLeaf_plain {L P : Type} (k : Kind L P) (z : Codec) (l : L) (s : St) :
    writeLeaf k z .uncompressed l s =
      .ok () ⟨s.seq.advance, put (put s.fs (metaName s.seq) (k.text (k.cls l) (k.params l)))
        s.seq.fileName (k.data l)⟩ := by
  unfold writeLeaf
  simp only [if_true, prepare, magicOf, List.append_nil]

theorem readMetaRaw_of {L P : Type} (k : Kind L P) {s : St} {c : Str} {p : P} (ht : TextOk k c p)
    (h : s.fs (metaName s.seq) = some (k.text c p)) : readMetaRaw k s = some (c, p) := by
  unfold readMetaRaw
  rw [h]
  show some (k.parse (k.text c p)) = _
  rw [ht]

end QDng.Raw
