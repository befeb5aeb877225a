import Verif.Raw.Lemmas

/-!
# Properties of wave function files in the binary format

C222–C228.  `.wf` is the suffix the constructor of the class sets.
-/

namespace QDng.Raw

open QDng QDng.FileSeq QDng.Serial

/-! ## C222: one wave function -/

/-- **C222** (partial).  An uncompressed single wave function is read back unchanged, whatever was in the file
system before, and writing and reading move the counter alike.  Missing: data whose first 16 bytes contain no zero
or that looks like another format, see the violations. -/
theorem C222_roundtrip_partial {L P : Type} (k : Kind L P) (z : Codec) (l : L) (ht : TextOk k (k.cls l) (k.params l)) (hs : Storable k l)
    (hp : Plain (k.data l)) (s : St) (hsuf : s.seq.suffix = ".wf".toList) (n : Nat) :
    ∃ fs', writeLeaf k z .uncompressed l s = .ok () ⟨s.seq.advance, fs'⟩ ∧
      load k z (n + 1) ⟨s.seq, fs'⟩ = .ok (.leaf l) ⟨s.seq.advance, fs'⟩ := by
  refine ⟨_, writeLeaf_plain k z l s, ?_⟩
  apply load_plain k z l _ n hs (put_same _ _ _) hp
  apply readMetaRaw_of k ht
  exact (put_other _ _ (wf_ne_meta s.seq hsuf).symm).trans (put_same _ _ _)

/-- **C222** (partial).  The same when reading into an existing object of the class. -/
theorem C222_into_partial {L P : Type} (k : Kind L P) (z : Codec) (l w b : L)
    (ht : TextOk k (k.cls l) (k.params l))
    (hi : k.init w (k.params l) = some b) (hlen : (k.data b).length = (k.data l).length)
    (hfill : k.fill b (k.data l) = l)
    (hp : Plain (k.data l)) (s : St) (hsuf : s.seq.suffix = ".wf".toList) :
    ∃ fs', writeLeaf k z .uncompressed l s = .ok () ⟨s.seq.advance, fs'⟩ ∧
      readLeaf k z w ⟨s.seq, fs'⟩ = .ok l ⟨s.seq.advance, fs'⟩ := by
  refine ⟨_, writeLeaf_plain k z l s, ?_⟩
  have hm := readMetaRaw_of (s := ⟨s.seq, put (put s.fs (metaName s.seq) (k.text (k.cls l) (k.params l)))
        s.seq.fileName (k.data l)⟩) k ht
        (by exact (put_other _ _ (wf_ne_meta s.seq hsuf).symm).trans (put_same _ _ _))
  unfold readLeaf
  rw [readMeta_plain k (put_same _ _ _) hp hm]
  show (if Method.uncompressed = Method.uncompressed then _ else _) = _
  rw [if_pos rfl]
  unfold readData
  rw [hi]
  simp only [put_same]
  have h0 : (k.data l).length ≠ 0 := by have := hp.len; omega
  rw [if_neg (by rw [hlen]; exact h0), if_pos trivial, if_neg (by rw [hlen]; exact lt_irrefl _), hlen,
    List.take_length, hfill]

/-- **C222** (partial).  A compressed wave function is read back as what `Restore` makes of the reduced one. -/
theorem C222_compressed_partial {L P : Type} (k : Kind L P) (z : Codec) (m : Method)
    (hm : m = .zlib ∨ m = .bzip) (l w b : L) (ht : TextOk k (k.cls (k.reduce l)) (k.params (k.reduce l)))
    (hname : 1 < (k.cls (k.reduce l)).length) (hcls : k.cls (k.reduce l) ≠ msName)
    (hw : k.fresh (k.cls (k.reduce l)) = some w) (hi : k.init w (k.params (k.reduce l)) = some b)
    (hlen : (k.data b).length = (k.data (k.reduce l)).length)
    (hfill : k.fill b (k.data (k.reduce l)) = k.reduce l)
    (hz : z.decomp m (z.comp m (k.data (k.reduce l)) ++ magicOf m) = some (k.data (k.reduce l)))
    (hsmall : (z.comp m (k.data (k.reduce l))).length ≤ (k.data (k.reduce l)).length)
    (hne : k.data (k.reduce l) ≠ [])
    (h16 : 8 ≤ (z.comp m (k.data (k.reduce l))).length)
    (h0 : (0 : Byte) ∈ (z.comp m (k.data (k.reduce l)) ++ magicOf m).take 16)
    (hin : (z.comp m (k.data (k.reduce l)) ++ magicOf m).take 12 ≠ Stream.magic)
    (s : St) (hsuf : s.seq.suffix = ".wf".toList) (n : Nat) :
    ∃ fs', writeLeaf k z m l s = .ok () ⟨s.seq.advance, fs'⟩ ∧
      load k z (n + 1) ⟨s.seq, fs'⟩ = .ok (.leaf (k.restore w (k.reduce l))) ⟨s.seq.advance, fs'⟩ := by
  have hmu : m ≠ .uncompressed := by rcases hm with rfl | rfl <;> decide
  have h8 : (magicOf m).length = 8 := by rcases hm with rfl | rfl <;> rfl
  have hprep : prepare z m (k.data (k.reduce l)) = some (z.comp m (k.data (k.reduce l))) := by
    rcases hm with rfl | rfl <;> (unfold prepare; simp only [hsmall, if_true])
  refine ⟨put (put s.fs (metaName s.seq) (k.text (k.cls (k.reduce l)) (k.params (k.reduce l)))) s.seq.fileName
    (z.comp m (k.data (k.reduce l)) ++ magicOf m), ?_, ?_⟩
  · unfold writeLeaf
    simp only [hmu, if_false, hprep]
  · set c := z.comp m (k.data (k.reduce l)) with hc
    have hrm := readMetaRaw_of (s := ⟨s.seq, put (put s.fs (metaName s.seq)
        (k.text (k.cls (k.reduce l)) (k.params (k.reduce l)))) s.seq.fileName (c ++ magicOf m)⟩) k ht
        (by exact (put_other _ _ (wf_ne_meta s.seq hsuf).symm).trans (put_same _ _ _))
    have hdc : detectComp (c ++ magicOf m) = some m := by
      unfold detectComp
      rw [if_neg (by rw [List.length_append, h8]; omega)]
      have : (c ++ magicOf m).drop ((c ++ magicOf m).length - 8) = magicOf m := by
        rw [List.length_append, h8, Nat.add_sub_cancel, List.drop_left]
      rw [this]
      rcases hm with rfl | rfl
      · rw [if_pos rfl]
      · rw [if_neg (by decide), if_pos rfl]
    have hmeta : readMeta k ⟨s.seq, put (put s.fs (metaName s.seq)
        (k.text (k.cls (k.reduce l)) (k.params (k.reduce l)))) s.seq.fileName (c ++ magicOf m)⟩ =
        .ok ((k.cls (k.reduce l), k.params (k.reduce l)), m) ⟨s.seq, put (put s.fs (metaName s.seq)
        (k.text (k.cls (k.reduce l)) (k.params (k.reduce l)))) s.seq.fileName (c ++ magicOf m)⟩ := by
      unfold readMeta
      rw [detect_plain (put_same _ _ _) (by rw [List.length_append, h8]; omega) h0 hin]
      simp only [hrm, put_same, Option.bind_some, hdc]
    have hrd : readData k z (k.params (k.reduce l)) m w ⟨s.seq, put (put s.fs (metaName s.seq)
        (k.text (k.cls (k.reduce l)) (k.params (k.reduce l)))) s.seq.fileName (c ++ magicOf m)⟩ =
        .ok (k.reduce l) ⟨s.seq.advance, put (put s.fs (metaName s.seq)
        (k.text (k.cls (k.reduce l)) (k.params (k.reduce l)))) s.seq.fileName (c ++ magicOf m)⟩ := by
      unfold readData
      rw [hi]
      simp only [put_same]
      have hn0 : (k.data (k.reduce l)).length ≠ 0 := fun e => hne (List.length_eq_zero_iff.1 e)
      rw [if_neg (by rw [hlen]; exact hn0), if_neg hmu, hz]
      simp only [hlen, lt_irrefl, gt_iff_lt, if_false, hfill]
    rw [load, hmeta]
    show (if (k.cls (k.reduce l)).length ≤ 1 then _ else _) = _
    rw [if_neg (by omega), if_neg hcls]
    unfold loadLeaf
    rw [hw]
    simp only [hrd, hmu, if_false]
    have hname' : s.seq.advance.name = s.seq.name := by unfold Seq.advance; split <;> rfl
    rw [← hname']

/-- **C222** (partial).  Data that gets larger by compression cannot be stored: an exception, and no file is
touched. -/
theorem C222_incompressible_partial {L P : Type} (k : Kind L P) (z : Codec) (m : Method) (hm : m = .zlib ∨ m = .bzip)
    (l : L) (hbig : (k.data (k.reduce l)).length < (z.comp m (k.data (k.reduce l))).length) (s : St) :
    writeLeaf k z m l s = .threw s := by
  have hmu : m ≠ .uncompressed := by rcases hm with rfl | rfl <;> decide
  have hprep : prepare z m (k.data (k.reduce l)) = none := by
    rcases hm with rfl | rfl <;> (unfold prepare; simp only [not_le.2 hbig, if_false])
  unfold writeLeaf
  simp only [hmu, if_false, hprep]

/-- **C222** is violated: a wave function whose first complex number has no zero byte is written without complaint,
and reading it back reads beyond an object (the search for the end of the magic string). -/
theorem C222_violated_overread {L P : Type} (k : Kind L P) (z : Codec) (l : L) (hlen : 16 ≤ (k.data l).length)
    (h0 : (0 : Byte) ∉ (k.data l).take 16) (s : St) (n : Nat) :
    ∃ fs', writeLeaf k z .uncompressed l s = .ok () ⟨s.seq.advance, fs'⟩ ∧ load k z (n + 1) ⟨s.seq, fs'⟩ = .ub := by
  refine ⟨_, writeLeaf_plain k z l s, ?_⟩
  rw [load]
  unfold readMeta
  rw [detect_ub (put_same _ _ _) hlen h0]

/-- **C222** is violated: an uncompressed wave function whose last eight bytes are the tag of the compression is
taken for a compressed one; if the library does not accept the data, reading it back is an exception. -/
theorem C222_violated_tag {L P : Type} (k : Kind L P) (z : Codec) (l : L) (ht : TextOk k (k.cls l) (k.params l)) (hs : Storable k l)
    (hlen : 16 ≤ (k.data l).length) (h0 : (0 : Byte) ∈ (k.data l).take 16) (hin : (k.data l).take 12 ≠ Stream.magic)
    (htag : (k.data l).drop ((k.data l).length - 8) = magicOf .zlib) (hz : z.decomp .zlib (k.data l) = none)
    (s : St) (hsuf : s.seq.suffix = ".wf".toList) (n : Nat) :
    ∃ fs', writeLeaf k z .uncompressed l s = .ok () ⟨s.seq.advance, fs'⟩ ∧
      load k z (n + 1) ⟨s.seq, fs'⟩ = .threw ⟨s.seq, fs'⟩ := by
  refine ⟨_, writeLeaf_plain k z l s, ?_⟩
  have hrm := readMetaRaw_of (s := ⟨s.seq, put (put s.fs (metaName s.seq)
        (k.text (k.cls l) (k.params l))) s.seq.fileName (k.data l)⟩) k ht
        (by exact (put_other _ _ (wf_ne_meta s.seq hsuf).symm).trans (put_same _ _ _))
  have hdc : detectComp (k.data l) = some .zlib := by
    unfold detectComp
    rw [if_neg (by omega), if_pos htag]
  obtain ⟨w, b, hw, hi, hl, hfill⟩ := hs.read
  rw [load]
  unfold readMeta
  rw [detect_plain (put_same _ _ _) hlen h0 hin]
  simp only [hrm, put_same, Option.bind_some, hdc]
  rw [if_neg (by have := hs.name; omega), if_neg hs.notMulti]
  unfold loadLeaf
  rw [hw]
  have hrd : readData k z (k.params l) .zlib w ⟨s.seq, put (put s.fs (metaName s.seq)
        (k.text (k.cls l) (k.params l))) s.seq.fileName (k.data l)⟩ = .threw ⟨s.seq, put (put s.fs (metaName s.seq)
        (k.text (k.cls l) (k.params l))) s.seq.fileName (k.data l)⟩ := by
    unfold readData
    rw [hi]
    simp only [put_same]
    have hn0 : (k.data l).length ≠ 0 := by omega
    rw [if_neg (by rw [hl]; exact hn0), if_neg (by decide), hz]
  simp only [hrd]

/-! ### Example objects -/

/-- Example class: number of complex numbers as parameter, and the bytes. -/
def toy : Kind (Nat × List Byte) Nat where
  cls := fun _ => "WF".toList
  params := fun l => l.1
  data := fun l => l.2
  fresh := fun c => if c = "WF".toList then some (0, []) else none
  init := fun _ p => some (p, List.replicate (16 * p) 0)
  fill := fun w d => (w.1, d)
  newInstance := fun w => w
  reduce := fun l => l
  restore := fun _ t => t
  text := fun c p => if c = msName then [1, Fin.ofNat 256 p] else [0, Fin.ofNat 256 p]
  parse := fun b => if b.head? = some 1 then (msName, (b.getD 1 0).val) else ("WF".toList, (b.getD 1 0).val)
  msParams := fun n => n
  states := fun p => some p

/-- Example library: the run of zeros at the end is dropped and refilled from a length byte. -/
def toyZ : Codec where
  comp := fun _ d => d.take 8
  decomp := fun _ b => if b.length = 16 then some (b.take 8 ++ List.replicate 8 0) else none

/-- The number 1.0 + 0i. -/
def one : Nat × List Byte := (1, [0, 0, 0, 0, 0, 0, 240, 63, 0, 0, 0, 0, 0, 0, 0, 0])

/-- File object with the name "w". -/
def at_ (seq : Bool) (c : Int) : Seq := ⟨"w".toList, ".wf".toList, seq, c, 1⟩

theorem one_storable : Storable toy one :=
  ⟨by decide, by decide, by decide, (0, []), (1, List.replicate 16 0), rfl, rfl, rfl, rfl⟩

theorem one_plain : Plain (toy.data one) := ⟨by decide, by decide, by decide, by decide, by decide⟩

/-- The hypotheses of C222 are met. -/
example : ∃ fs', writeLeaf toy toyZ .uncompressed one ⟨at_ false 0, fun _ => none⟩ = .ok () ⟨at_ false 0, fs'⟩ ∧
    load toy toyZ 1 ⟨at_ false 0, fs'⟩ = .ok (.leaf one) ⟨at_ false 0, fs'⟩ :=
  C222_roundtrip_partial toy toyZ one rfl one_storable one_plain ⟨at_ false 0, fun _ => none⟩ rfl 0

example : ∃ fs', writeLeaf toy toyZ .uncompressed one ⟨at_ true 3, fun _ => none⟩ = .ok () ⟨at_ true 4, fs'⟩ ∧
    readLeaf toy toyZ (7, []) ⟨at_ true 3, fs'⟩ = .ok one ⟨at_ true 4, fs'⟩ :=
  C222_into_partial toy toyZ one (7, []) (1, List.replicate 16 0) rfl rfl rfl rfl one_plain
    ⟨at_ true 3, fun _ => none⟩ rfl

example : ∃ fs', writeLeaf toy toyZ .zlib one ⟨at_ false 0, fun _ => none⟩ = .ok () ⟨at_ false 0, fs'⟩ ∧
    load toy toyZ 1 ⟨at_ false 0, fs'⟩ = .ok (.leaf one) ⟨at_ false 0, fs'⟩ :=
  C222_compressed_partial toy toyZ .zlib (Or.inl rfl) one (0, []) (1, List.replicate 16 0) rfl (by decide) (by decide)
    rfl rfl rfl rfl (by decide) (by decide) (by decide) (by decide) (by decide) (by decide)
    ⟨at_ false 0, fun _ => none⟩ rfl 0

example : writeLeaf toy ⟨fun _ d => d ++ [1], fun _ _ => none⟩ .bzip one ⟨at_ false 0, fun _ => none⟩ =
    .threw ⟨at_ false 0, fun _ => none⟩ :=
  C222_incompressible_partial toy _ .bzip (Or.inr rfl) one (by decide) _

/-- The first number is 0.1 + 0.1i: no zero byte. -/
example : ∃ fs', writeLeaf toy toyZ .uncompressed
      (1, [154, 153, 153, 153, 153, 153, 185, 63, 154, 153, 153, 153, 153, 153, 185, 63])
      ⟨at_ false 0, fun _ => none⟩ = .ok () ⟨at_ false 0, fs'⟩ ∧ load toy toyZ 1 ⟨at_ false 0, fs'⟩ = .ub :=
  C222_violated_overread toy toyZ (1, [154, 153, 153, 153, 153, 153, 185, 63, 154, 153, 153, 153, 153, 153, 185, 63])
    (by decide) (by decide) ⟨at_ false 0, fun _ => none⟩ 0

example : ∃ fs', writeLeaf toy ⟨fun _ d => d, fun _ _ => none⟩ .uncompressed
      (1, [0, 0, 0, 0, 0, 0, 240, 63, 90, 76, 73, 66, 67, 79, 77, 0])
      ⟨at_ false 0, fun _ => none⟩ = .ok () ⟨at_ false 0, fs'⟩ ∧
      load toy ⟨fun _ d => d, fun _ _ => none⟩ 1 ⟨at_ false 0, fs'⟩ = .threw ⟨at_ false 0, fs'⟩ :=
  C222_violated_tag toy _ (1, [0, 0, 0, 0, 0, 0, 240, 63, 90, 76, 73, 66, 67, 79, 77, 0]) rfl
    ⟨by decide, by decide, by decide, (0, []), (1, List.replicate 16 0), rfl, rfl, rfl, rfl⟩
    (by decide) (by decide) (by decide) (by decide) rfl ⟨at_ false 0, fun _ => none⟩ rfl 0

/-! ## C223: numbered files -/

theorem writeAll_files {L P : Type} (k : Kind L P) (z : Codec) (ls : List L) (s : St) (g : FS (List Byte))
    (hseq : s.seq.sequence = true) (hg : ∀ n, n ≠ metaName s.seq → s.fs n = g n) :
    ∃ fs', writeAll k z .uncompressed ls s = .ok () ⟨(FileSeq.writeAll (ls.map k.data) (s.seq, g)).1, fs'⟩ ∧
      (∀ n, n ≠ metaName s.seq → fs' n = (FileSeq.writeAll (ls.map k.data) (s.seq, g)).2 n) ∧
      fs' (metaName s.seq) = (match ls.getLast? with
        | none => s.fs (metaName s.seq)
        | some l => some (k.text (k.cls l) (k.params l))) := by
  induction ls generalizing s g with
  | nil => exact ⟨s.fs, rfl, hg, rfl⟩
  | cons l r ih =>
    have hne : s.seq.fileName ≠ metaName s.seq := by
      unfold Seq.fileName metaName metaSuffix
      rw [if_pos hseq]
      intro h
      have := List.append_cancel_left h
      injection this with h1 _
      exact absurd h1 (by decide)
    have hname : metaName s.seq.advance = metaName s.seq := by
      unfold Seq.advance metaName; split <;> rfl
    have hadv : s.seq.advance.sequence = true := by unfold Seq.advance; split <;> exact hseq
    set fs1 := put (put s.fs (metaName s.seq) (k.text (k.cls l) (k.params l))) s.seq.fileName (k.data l) with hfs1
    obtain ⟨fs', h1, h2, h3⟩ := ih ⟨s.seq.advance, fs1⟩ (FileSeq.write (k.data l) (s.seq, g)).2 hadv (by
      intro n hn
      replace hn : n ≠ metaName s.seq := by rw [← hname]; exact hn
      show put (put s.fs (metaName s.seq) _) s.seq.fileName _ n = if n = s.seq.fileName then _ else g n
      unfold put
      split
      · rfl
      · exact hg n hn)
    refine ⟨fs', ?_, ?_, ?_⟩
    · rw [writeAll, writeLeaf_plain]
      exact h1
    · intro n hn
      exact h2 n (by show n ≠ metaName s.seq.advance; rw [hname]; exact hn)
    · have h3' : fs' (metaName s.seq) = _ := (congrArg fs' hname.symm).trans h3
      rw [h3']
      cases r with
      | nil =>
        show fs1 (metaName s.seq.advance) = _
        rw [hname, hfs1, put_other _ _ (Ne.symm hne), put_same]
        rfl
      | cons a t =>
        rw [List.getLast?_cons_cons, List.getLast?_eq_some_getLast (List.cons_ne_nil a t)]

theorem loadAll_of {L P : Type} (k : Kind L P) (z : Codec) (ls : List L) (s : St) (hseq : s.seq.sequence = true)
    (c : Str) (p : P) (hs : ∀ l ∈ ls, Storable k l ∧ Plain (k.data l) ∧ k.cls l = c ∧ k.params l = p)
    (hm : ls ≠ [] → s.fs (metaName s.seq) = some (k.text c p)) (ht : TextOk k c p)
    (h : ∀ i, (hi : i < ls.length) →
      s.fs ((s.seq.setCounter (s.seq.counter + i * s.seq.increment)).fileName) = some (k.data ls[i])) :
    loadAll k z ls.length s =
      .ok (ls.map .leaf) ⟨s.seq.setCounter (s.seq.counter + ls.length * s.seq.increment), s.fs⟩ := by
  induction ls generalizing s with
  | nil => simp [loadAll, Seq.setCounter]
  | cons l r ih =>
    obtain ⟨h1, h2, h3, h4⟩ := hs l List.mem_cons_self
    have h0 := h 0 (by simp)
    have he : s.seq.setCounter (s.seq.counter + ((0 : Nat) : Int) * s.seq.increment) = s.seq := by simp [Seq.setCounter]
    rw [he] at h0
    have hld := load_plain k z l s 0 h1 h0 h2 (by
      rw [h3, h4]; exact readMetaRaw_of k ht (hm (List.cons_ne_nil _ _)))
    have hadv := advance_seq s.seq hseq
    have hi := ih ⟨s.seq.advance, s.fs⟩ (by show s.seq.advance.sequence = true; rw [hadv]; exact hseq)
      (fun x hx => hs x (List.mem_cons_of_mem _ hx))
      (fun _ => by
        show s.fs (metaName s.seq.advance) = _
        rw [hadv]
        exact hm (List.cons_ne_nil _ _))
      (by
        intro i hi
        have := h (i + 1) (by simpa using hi)
        show s.fs ((s.seq.advance.setCounter (s.seq.advance.counter + i * s.seq.advance.increment)).fileName) = _
        rw [hadv]
        simp only [Seq.setCounter, List.getElem_cons_succ] at this ⊢
        have e : s.seq.counter + s.seq.increment + (i : Int) * s.seq.increment
            = s.seq.counter + ((i + 1 : Nat) : Int) * s.seq.increment := by
          push_cast; rw [Int.add_mul]; omega
        rw [e, this])
    show loadAll k z (r.length + 1) s = _
    rw [loadAll, hld]
    simp only [hi]
    rw [hadv]
    simp only [List.map_cons, List.length_cons, Seq.setCounter, Res.ok.injEq, St.mk.injEq, Seq.mk.injEq, true_and,
      and_true]
    push_cast; rw [Int.add_mul]; omega

/-- **C223** (partial).  A series of wave functions of one class with the same parameters, written uncompressed to
numbered files, is read back in order from the same start; the counter ends at the same place.  Missing: series
whose parameters change, see the violation. -/
theorem C223_series_partial {L P : Type} (k : Kind L P) (z : Codec) (c : Str) (p : P) (ht : TextOk k c p) (ls : List L)
    (hs : ∀ l ∈ ls, Storable k l ∧ Plain (k.data l) ∧ k.cls l = c ∧ k.params l = p) (s : St)
    (hseq : s.seq.sequence = true) (hinc : s.seq.increment ≠ 0) :
    ∃ fs', writeAll k z .uncompressed ls s =
        .ok () ⟨s.seq.setCounter (s.seq.counter + ls.length * s.seq.increment), fs'⟩ ∧
      loadAll k z ls.length ⟨s.seq, fs'⟩ =
        .ok (ls.map .leaf) ⟨s.seq.setCounter (s.seq.counter + ls.length * s.seq.increment), fs'⟩ := by
  obtain ⟨fs', h1, h2, h3⟩ := writeAll_files k z ls s s.fs hseq (fun _ _ => rfl)
  obtain ⟨w1, w2, _⟩ := FileSeq.writeAll_spec (ls.map k.data) s.seq s.fs hseq hinc
  rw [w1, List.length_map] at h1
  refine ⟨fs', h1, ?_⟩
  apply loadAll_of k z ls ⟨s.seq, fs'⟩ hseq c p hs _ ht
  · intro i hi
    have := w2 i (by rw [List.length_map]; exact hi)
    rw [List.getElem_map] at this
    show fs' _ = _
    rw [h2, this]
    unfold Seq.fileName metaName metaSuffix Seq.setCounter
    rw [if_pos (show ({ s.seq with counter := s.seq.counter + i * s.seq.increment } : Seq).sequence = true from hseq)]
    intro h
    have := List.append_cancel_left h
    injection this with h1 _
    exact absurd h1 (by decide)
  · intro hne
    show fs' (metaName s.seq) = _
    rw [h3, List.getLast?_eq_some_getLast hne]
    obtain ⟨_, _, e1, e2⟩ := hs _ (List.getLast_mem hne)
    show some (k.text _ _) = _
    rw [e1, e2]

/-- Two frames with one number each. -/
example : ∃ fs', writeAll toy toyZ .uncompressed [one, one] ⟨at_ true 0, fun _ => none⟩ =
      .ok () ⟨at_ true 2, fs'⟩ ∧
    loadAll toy toyZ 2 ⟨at_ true 0, fs'⟩ = .ok [.leaf one, .leaf one] ⟨at_ true 2, fs'⟩ :=
  C223_series_partial toy toyZ "WF".toList 1 rfl [one, one]
    (by intro l hl
        have : l = one := by simpa using hl
        subst this
        exact ⟨one_storable, one_plain, rfl, rfl⟩) ⟨at_ true 0, fun _ => none⟩ rfl (by decide)

/-- **C223** is violated: there is one file with parameters for the whole series and the last frame decides.  A
frame followed by one with smaller data is read back cut off, with the parameters of the other
one, without a message. -/
theorem C223_violated_params {L P : Type} (k : Kind L P) (z : Codec) (l₁ l₂ w b : L)
    (ht : TextOk k (k.cls l₂) (k.params l₂)) (hname : 1 < (k.cls l₂).length) (hcls : k.cls l₂ ≠ msName)
    (hw : k.fresh (k.cls l₂) = some w) (hi : k.init w (k.params l₂) = some b)
    (h0 : 0 < (k.data b).length) (hlen : (k.data b).length < (k.data l₁).length) (hp : Plain (k.data l₁)) (s : St)
    (hseq : s.seq.sequence = true) (hinc : s.seq.increment ≠ 0) :
    ∃ s' fs', writeAll k z .uncompressed [l₁, l₂] s = .ok () ⟨s', fs'⟩ ∧
      load k z 1 ⟨s.seq, fs'⟩ =
        .ok (.leaf (k.fill b ((k.data l₁).take (k.data b).length))) ⟨s.seq.advance, fs'⟩ := by
  obtain ⟨fs', h1, h2, h3⟩ := writeAll_files k z [l₁, l₂] s s.fs hseq (fun _ _ => rfl)
  obtain ⟨w1, w2, _⟩ := FileSeq.writeAll_spec ([l₁, l₂].map k.data) s.seq s.fs hseq hinc
  refine ⟨_, fs', h1, ?_⟩
  have he : s.seq.setCounter (s.seq.counter + ((0 : Nat) : Int) * s.seq.increment) = s.seq := by simp [Seq.setCounter]
  have hne : s.seq.fileName ≠ metaName s.seq := by
    unfold Seq.fileName metaName metaSuffix
    rw [if_pos hseq]
    intro h
    have := List.append_cancel_left h
    injection this with h1 _
    exact absurd h1 (by decide)
  have hf : fs' s.seq.fileName = some (k.data l₁) := by
    have := w2 0 (by simp)
    rw [he] at this
    rw [h2 _ hne, this]
    rfl
  have hm : readMetaRaw k ⟨s.seq, fs'⟩ = some (k.cls l₂, k.params l₂) := readMetaRaw_of k ht h3
  rw [load, readMeta_plain k (s := ⟨s.seq, fs'⟩) hf hp hm]
  show (if (k.cls l₂).length ≤ 1 then _ else _) = _
  rw [if_neg (by omega), if_neg hcls]
  have hrd : readData k z (k.params l₂) .uncompressed w ⟨s.seq, fs'⟩ =
      .ok (k.fill b ((k.data l₁).take (k.data b).length)) ⟨s.seq.advance, fs'⟩ := by
    unfold readData
    rw [hi]
    simp only [hf]
    rw [if_neg (by omega), if_pos trivial, if_neg (by omega)]
  unfold loadLeaf
  rw [hw]
  simp only [hrd, if_true]
  have hname' : s.seq.advance.name = s.seq.name := by unfold Seq.advance; split <;> rfl
  rw [← hname']

/-- Two numbers, then one: the first frame comes back with one number. -/
example : ∃ s' fs', writeAll toy toyZ .uncompressed [(2, List.replicate 32 0), one] ⟨at_ true 0, fun _ => none⟩ =
      .ok () ⟨s', fs'⟩ ∧
    load toy toyZ 1 ⟨at_ true 0, fs'⟩ = .ok (.leaf (1, List.replicate 16 0)) ⟨at_ true 1, fs'⟩ :=
  C223_violated_params toy toyZ (2, List.replicate 32 0) one (0, []) (1, List.replicate 16 0) rfl (by decide)
    (by decide) rfl rfl (by decide) (by decide) ⟨by decide, by decide, by decide, by decide, by decide⟩
    ⟨at_ true 0, fun _ => none⟩ rfl (by decide)

/-! ## C224, C225: several states -/

/-- Name of the data file of state `i`, in a series with the number of the frame. -/
def stateFile (q : Seq) (i : Nat) : Str :=
  q.name ++ ('-' :: showNat i) ++ (if q.sequence then '_' :: showInt q.counter else []) ++ q.suffix

/-- Name of the file with the parameters of state `i`. -/
def stateMeta (q : Seq) (i : Nat) : Str := q.name ++ ('-' :: showNat i) ++ ".meta".toList

theorem stateSeq_file (q q' : Seq) (i : Nat) (h1 : q'.sequence = q.sequence) (h2 : q'.suffix = q.suffix) :
    (stateSeq q.name q.counter i q').fileName = stateFile q i := by
  unfold stateSeq Seq.fileName stateFile
  simp only [h1, h2]
  split <;> simp

theorem stateSeq_meta (q q' : Seq) (i : Nat) : metaName (stateSeq q.name q.counter i q') = stateMeta q i := rfl

theorem stateFile_inj (q : Seq) (i j : Nat) (h : stateFile q i = stateFile q j) : i = j := by
  unfold stateFile at h
  have h := List.append_cancel_right (List.append_cancel_right h)
  have h := List.append_cancel_left h
  exact showNat_inj (List.cons.inj h).2

theorem stateMeta_inj (q : Seq) (i j : Nat) (h : stateMeta q i = stateMeta q j) : i = j := by
  unfold stateMeta at h
  have h := List.append_cancel_right h
  have h := List.append_cancel_left h
  exact showNat_inj (List.cons.inj h).2

theorem stateFile_ne_meta (q : Seq) (hsuf : q.suffix = ".wf".toList) (i j : Nat) : stateFile q i ≠ stateMeta q j := by
  intro h
  have := congrArg List.getLast? h
  unfold stateFile stateMeta at this
  rw [hsuf, List.getLast?_append, List.getLast?_append (l' := ".meta".toList)] at this
  have a : ".wf".toList.getLast? = some 'f' := rfl
  have b : ".meta".toList.getLast? = some 'a' := rfl
  rw [a, b, Option.some_or, Option.some_or] at this
  exact absurd this (by decide)

theorem writeLeaf_ok {L P : Type} (k : Kind L P) (z : Codec) (m : Method) (l : L) (s s' : St)
    (h : writeLeaf k z m l s = .ok () s') :
    ∃ b, prepare z m (k.data (if m = .uncompressed then l else k.reduce l)) = some b ∧
      s' = ⟨s.seq.advance, put (put s.fs (metaName s.seq)
        (k.text (k.cls (if m = .uncompressed then l else k.reduce l))
          (k.params (if m = .uncompressed then l else k.reduce l)))) s.seq.fileName (b ++ magicOf m)⟩ := by
  unfold writeLeaf at h
  simp only at h
  revert h
  cases hp : prepare z m (k.data (if m = .uncompressed then l else k.reduce l)) with
  | none => intro h; simp only [reduceCtorEq] at h
  | some b => intro h; injection h with _ h; exact ⟨b, rfl, h.symm⟩

theorem writeStates_ok {L P : Type} (k : Kind L P) (z : Codec) (m : Method) (q : Seq) (hsuf : q.suffix = ".wf".toList)
    (ls : List L) (i : Nat) (s s' : St) (h1 : s.seq.sequence = q.sequence) (h2 : s.seq.suffix = q.suffix)
    (h3 : s.seq.increment = q.increment)
    (h : writeStates k z m q.name q.counter i ls s = .ok () s') :
    s'.seq.sequence = q.sequence ∧ s'.seq.suffix = q.suffix ∧ s'.seq.increment = q.increment ∧
    (ls ≠ [] → s'.seq.counter = q.advance.counter) ∧
    (∀ j l, ls[j]? = some l →
      (∃ b, prepare z m (k.data (if m = .uncompressed then l else k.reduce l)) = some b ∧
        s'.fs (stateFile q (i + j)) = some (b ++ magicOf m)) ∧
      s'.fs (stateMeta q (i + j)) = some (k.text (k.cls (if m = .uncompressed then l else k.reduce l))
          (k.params (if m = .uncompressed then l else k.reduce l)))) ∧
    (∀ n, (∀ j, j < ls.length → n ≠ stateFile q (i + j) ∧ n ≠ stateMeta q (i + j)) → s'.fs n = s.fs n) := by
  induction ls generalizing i s with
  | nil =>
    injection h with _ h
    subst h
    exact ⟨h1, h2, h3, fun e => absurd rfl e, fun j l hl => by simp at hl, fun _ _ => rfl⟩
  | cons l r ih =>
    rw [writeStates] at h
    cases hw : writeLeaf k z m l { s with seq := stateSeq q.name q.counter i s.seq } with
    | ok u s1 =>
      rw [hw] at h
      obtain ⟨b, hb, e⟩ := writeLeaf_ok k z m l _ s1 hw
      have ef : (stateSeq q.name q.counter i s.seq).fileName = stateFile q i := stateSeq_file q s.seq i h1 h2
      have em : metaName (stateSeq q.name q.counter i s.seq) = stateMeta q i := rfl
      rw [show ({ s with seq := stateSeq q.name q.counter i s.seq } : St).seq =
        stateSeq q.name q.counter i s.seq from rfl, ef, em] at e
      have a1 : s1.seq.sequence = q.sequence := by
        rw [e]; show (Seq.advance _).sequence = _; unfold Seq.advance stateSeq; split <;> exact h1
      have a2 : s1.seq.suffix = q.suffix := by
        rw [e]; show (Seq.advance _).suffix = _; unfold Seq.advance stateSeq; split <;> exact h2
      have a3 : s1.seq.increment = q.increment := by
        rw [e]; show (Seq.advance _).increment = _; unfold Seq.advance stateSeq; split <;> exact h3
      have a4 : s1.seq.counter = q.advance.counter := by
        rw [e]; show (Seq.advance _).counter = _; unfold Seq.advance stateSeq
        simp only [h1, h3]
        split <;> rfl
      obtain ⟨b1, b2, b3, b4, b5, b6⟩ := ih (i + 1) s1 a1 a2 a3 h
      refine ⟨b1, b2, b3, ?_, ?_, ?_⟩
      · intro _
        by_cases hr : r = []
        · subst hr
          injection h with _ h
          rw [← h]; exact a4
        · exact b4 hr
      · intro j x hx
        cases j with
        | zero =>
          have : l = x := by simpa using hx
          subst this
          have f1 := b6 (stateFile q i) (fun j _ => ⟨fun e => by have := stateFile_inj _ _ _ e; omega,
            stateFile_ne_meta q hsuf _ _⟩)
          have f2 := b6 (stateMeta q i) (fun j _ => ⟨(stateFile_ne_meta q hsuf _ _).symm,
            fun e => by have := stateMeta_inj _ _ _ e; omega⟩)
          refine ⟨⟨b, hb, ?_⟩, ?_⟩
          · rw [Nat.add_zero, f1, e]
            exact put_same _ _ _
          · rw [Nat.add_zero, f2, e]
            exact (put_other _ _ (stateFile_ne_meta q hsuf i i).symm).trans (put_same _ _ _)
        | succ j =>
          have := b5 j x (by simpa using hx)
          rw [show i + 1 + j = i + (j + 1) by omega] at this
          exact this
      · intro n hn
        have h0 := hn 0 (by simp)
        rw [b6 n (fun j hj => by
          have := hn (j + 1) (by simpa using hj)
          rw [show i + (j + 1) = i + 1 + j by omega] at this
          exact this), e]
        exact (put_other _ _ h0.1).trans (put_other _ _ h0.2)
    | threw s1 => rw [hw] at h; cases h
    | stream s1 => rw [hw] at h; cases h
    | indet => rw [hw] at h; cases h
    | ub => rw [hw] at h; cases h
    | fuel => rw [hw] at h; cases h

theorem base_ne_state (q : Seq) (hsuf : q.suffix = ".wf".toList) (i : Nat) :
    q.fileName ≠ stateFile q i ∧ q.fileName ≠ stateMeta q i ∧ metaName q ≠ stateFile q i ∧ metaName q ≠ stateMeta q i := by
  unfold Seq.fileName metaName metaSuffix stateFile stateMeta
  rw [hsuf]
  refine ⟨?_, ?_, ?_, ?_⟩
  all_goals
    (try split)
    all_goals
      intro h
      simp only [List.append_assoc] at h
      have := List.append_cancel_left h
      simp at this

/-- **C225**.  Writing several states in the binary format: a data file and a parameter file for each state, one
parameter file for the whole, no other file is changed, the name is the same as before, and the counter of a
series moves on once. -/
theorem C225_files {L P : Type} (k : Kind L P) (z : Codec) (m : Method) (ls : List L) (s s' : St)
    (hsuf : s.seq.suffix = ".wf".toList) (h : writeMulti k z m ls s = .ok () s') :
    s'.seq = s.seq.advance ∧
    (∀ j l, ls[j]? = some l →
      (∃ b, prepare z m (k.data (if m = .uncompressed then l else k.reduce l)) = some b ∧
        s'.fs (stateFile s.seq j) = some (b ++ magicOf m)) ∧
      s'.fs (stateMeta s.seq j) = some (k.text (k.cls (if m = .uncompressed then l else k.reduce l))
          (k.params (if m = .uncompressed then l else k.reduce l)))) ∧
    s'.fs (s.seq.name ++ ".meta".toList) = some (k.text msName (k.msParams ls.length)) ∧
    (∀ n, n ≠ s.seq.name ++ ".meta".toList →
      (∀ j, j < ls.length → n ≠ stateFile s.seq j ∧ n ≠ stateMeta s.seq j) → s'.fs n = s.fs n) := by
  unfold writeMulti at h
  by_cases hl : ls.length < 1
  · rw [if_pos hl] at h; cases h
  · rw [if_neg hl] at h
    cases hw : writeStates k z m s.seq.name s.seq.counter 0 ls s with
    | ok u s1 =>
      rw [hw] at h
      injection h with _ h
      obtain ⟨b1, b2, b3, b4, b5, b6⟩ := writeStates_ok k z m s.seq hsuf ls 0 s s1 rfl rfl rfl hw
      have hne : ls ≠ [] := by rintro rfl; exact hl Nat.zero_lt_one
      have hseq : ({ s1.seq with name := s.seq.name } : Seq) = s.seq.advance := by
        have e4 := b4 hne
        have : s.seq.advance = ⟨s.seq.name, s.seq.suffix, s.seq.sequence, s.seq.advance.counter, s.seq.increment⟩ := by
          unfold Seq.advance; split <;> rfl
        rw [this, ← b1, ← b2, ← b3, ← e4]
      subst h
      refine ⟨hseq, ?_, ?_, ?_⟩
      · intro j l hj
        obtain ⟨⟨b, hb, c1⟩, c2⟩ := b5 j l hj
        rw [Nat.zero_add] at c1 c2
        obtain ⟨_, _, n3, n4⟩ := base_ne_state s.seq hsuf j
        exact ⟨⟨b, hb, (put_other _ _ (Ne.symm n3)).trans c1⟩, (put_other _ _ (Ne.symm n4)).trans c2⟩
      · exact put_same _ _ _
      · intro n hn hj
        refine (put_other _ _ hn).trans (b6 n (fun j hlt => ?_))
        rw [Nat.zero_add]; exact hj j hlt
    | threw s1 => rw [hw] at h; cases h
    | stream s1 => rw [hw] at h; cases h
    | indet => rw [hw] at h; cases h
    | ub => rw [hw] at h; cases h
    | fuel => rw [hw] at h; cases h

theorem writeStates_plain {L P : Type} (k : Kind L P) (z : Codec) (base : Str) (c : Int) (ls : List L) (i : Nat) (s : St) :
    ∃ s', writeStates k z .uncompressed base c i ls s = .ok () s' := by
  induction ls generalizing i s with
  | nil => exact ⟨s, rfl⟩
  | cons l r ih =>
    rw [writeStates, writeLeaf_plain]
    exact ih _ _

/-- **C225**.  Without compression the only reason for an exception is a wave function without states, which
changes nothing. -/
theorem C225_total {L P : Type} (k : Kind L P) (z : Codec) (ls : List L) (s : St) :
    (ls ≠ [] → ∃ s', writeMulti k z .uncompressed ls s = .ok () s') ∧ writeMulti k z .uncompressed [] s = .threw s := by
  refine ⟨fun h => ?_, rfl⟩
  unfold writeMulti
  have : ¬ ls.length < 1 := by
    intro e
    exact h (List.length_eq_zero_iff.1 (by omega))
  rw [if_neg this]
  obtain ⟨s', e⟩ := writeStates_plain k z s.seq.name s.seq.counter ls 0 s
  rw [e]
  exact ⟨_, rfl⟩

/-- **C224** is violated: several states written in the binary format can never be read back.  The reader looks for a
data file with the name of the whole, which the writer does not create; if there was none before, both ways of
reading end with an exception. -/
theorem C224_violated_multi {L P : Type} (k : Kind L P) (z : Codec) (m : Method) (ls ws : List L) (s s' : St)
    (hsuf : s.seq.suffix = ".wf".toList) (hfree : s.fs s.seq.fileName = none)
    (h : writeMulti k z m ls s = .ok () s') (n : Nat) :
    load k z (n + 1) ⟨s.seq, s'.fs⟩ = .threw ⟨s.seq, s'.fs⟩ ∧
    readMulti k z ws ⟨s.seq, s'.fs⟩ = .threw ⟨s.seq, s'.fs⟩ := by
  obtain ⟨_, _, _, h4⟩ := C225_files k z m ls s s' hsuf h
  have hf : s'.fs s.seq.fileName = none := by
    rw [h4 _ (wf_ne_meta s.seq hsuf) (fun j _ => ⟨(base_ne_state s.seq hsuf j).1, (base_ne_state s.seq hsuf j).2.1⟩), hfree]
  have hr : readMeta k ⟨s.seq, s'.fs⟩ = .threw ⟨s.seq, s'.fs⟩ := by
    unfold readMeta detect
    simp only [hf]
  refine ⟨?_, ?_⟩
  · rw [load, hr]
  · unfold readMulti
    rw [hr]
    split <;> rfl

/-- **C224** (partial).  Each state can be read back on its own under its own name. -/
theorem C224_state_partial {L P : Type} (k : Kind L P) (z : Codec) (ls : List L) (s s' : St)
    (hsuf : s.seq.suffix = ".wf".toList) (h : writeMulti k z .uncompressed ls s = .ok () s')
    (hs : ∀ l ∈ ls, Storable k l ∧ Plain (k.data l) ∧ TextOk k (k.cls l) (k.params l)) (j : Nat) (l : L)
    (hj : ls[j]? = some l) (n : Nat) :
    load k z (n + 1) ⟨{ s.seq with name := s.seq.name ++ ('-' :: showNat j) }, s'.fs⟩ =
      .ok (.leaf l) ⟨({ s.seq with name := s.seq.name ++ ('-' :: showNat j) } : Seq).advance, s'.fs⟩ := by
  obtain ⟨_, h2, _, _⟩ := C225_files k z .uncompressed ls s s' hsuf h
  obtain ⟨⟨b, hb, c1⟩, c2⟩ := h2 j l hj
  obtain ⟨a1, a2, a3⟩ := hs l (List.mem_of_getElem? hj)
  have hb' : b = k.data l := by
    have : some (k.data l) = some b := hb
    injection this with e; exact e.symm
  subst hb'
  have e := stateSeq_file s.seq s.seq j rfl rfl
  apply load_plain k z l _ n a1 _ a2
  · exact readMetaRaw_of k a3 c2
  · show s'.fs (stateSeq s.seq.name s.seq.counter j s.seq).fileName = _
    rw [e, c1]
    show some (k.data l ++ []) = _
    rw [List.append_nil]

theorem loadStates_of {L P : Type} (k : Kind L P) (z : Codec) (q : Seq) (ls : List L) (i : Nat) (s : St) (F : Nat)
    (hF : ls.length + 1 ≤ F) (h1 : s.seq.sequence = q.sequence) (h2 : s.seq.suffix = q.suffix)
    (h3 : s.seq.increment = q.increment) (h64 : i + ls.length < 64)
    (hs : ∀ l ∈ ls, Storable k l ∧ Plain (k.data l) ∧ TextOk k (k.cls l) (k.params l))
    (hf : ∀ j l, ls[j]? = some l → s.fs (stateFile q (i + j)) = some (k.data l) ∧
      s.fs (stateMeta q (i + j)) = some (k.text (k.cls l) (k.params l))) :
    ∃ q', loadStates k z F q.name q.counter i ls.length s = .ok (ls.map .leaf) ⟨q', s.fs⟩ ∧
      q'.sequence = q.sequence ∧ q'.suffix = q.suffix ∧ q'.increment = q.increment ∧
      (ls ≠ [] → q'.counter = q.advance.counter) := by
  induction ls generalizing i s F with
  | nil =>
    obtain ⟨F, rfl⟩ : ∃ F', F = F' + 1 := ⟨F - 1, by simp at hF; omega⟩
    exact ⟨s.seq, rfl, h1, h2, h3, fun e => absurd rfl e⟩
  | cons l r ih =>
    obtain ⟨F, rfl⟩ : ∃ F', F = F' + 2 := ⟨F - 2, by simp at hF; omega⟩
    simp only [List.length_cons] at hF h64
    obtain ⟨a1, a2, a3⟩ := hs l List.mem_cons_self
    obtain ⟨f1, f2⟩ := hf 0 l rfl
    rw [Nat.add_zero] at f1 f2
    have e := stateSeq_file q s.seq i h1 h2
    have hld := load_plain k z l { s with seq := stateSeq q.name q.counter i s.seq } F a1
      (by show s.fs (stateSeq q.name q.counter i s.seq).fileName = _; rw [e, f1]) a2
      (readMetaRaw_of k a3 f2)
    have b1 : (stateSeq q.name q.counter i s.seq).advance.sequence = q.sequence := by
      unfold Seq.advance stateSeq; split <;> exact h1
    have b2 : (stateSeq q.name q.counter i s.seq).advance.suffix = q.suffix := by
      unfold Seq.advance stateSeq; split <;> exact h2
    have b3 : (stateSeq q.name q.counter i s.seq).advance.increment = q.increment := by
      unfold Seq.advance stateSeq; split <;> exact h3
    have b4 : (stateSeq q.name q.counter i s.seq).advance.counter = q.advance.counter := by
      unfold Seq.advance stateSeq
      simp only [h1, h3]
      split <;> rfl
    obtain ⟨q', c0, c1, c2, c3, c4⟩ := ih (i + 1) ⟨(stateSeq q.name q.counter i s.seq).advance, s.fs⟩ (F + 1)
      (by omega) b1 b2 b3 (by omega) (fun x hx => hs x (List.mem_cons_of_mem _ hx))
      (by
        intro j x hx
        have := hf (j + 1) x (by simpa using hx)
        rw [show i + (j + 1) = i + 1 + j by omega] at this
        exact this)
    refine ⟨q', ?_, c1, c2, c3, ?_⟩
    · show loadStates k z (F + 1 + 1) q.name q.counter i (r.length + 1) s = _
      rw [loadStates, hld]
      show (if i + 1 ≥ 64 then _ else if 1 > 1 then _ else _) = _
      rw [if_neg (by omega)]
      refine (if_neg (by decide)).trans ?_
      simp only [c0]
      rfl
    · intro _
      by_cases hr : r = []
      · subst hr
        have : loadStates k z (F + 1) q.name q.counter (i + 1) 0
            ⟨(stateSeq q.name q.counter i s.seq).advance, s.fs⟩ = .ok [] ⟨(stateSeq q.name q.counter i s.seq).advance, s.fs⟩ := rfl
        have c0' := this.symm.trans c0
        injection c0' with _ c0'
        injection c0' with c0' _
        rw [← c0', b4]
      · exact c4 hr

/-- **C224** (partial).  If an unrelated plain data file with the name of the whole exists, all states are read
back; its contents do not matter.  Up to 63 states. -/
theorem C224_leftover_partial {L P : Type} (k : Kind L P) (z : Codec) (ls : List L) (s s' : St) (old : List Byte)
    (hsuf : s.seq.suffix = ".wf".toList) (hold : s.fs s.seq.fileName = some old) (hp : Plain old)
    (h : writeMulti k z .uncompressed ls s = .ok () s')
    (hs : ∀ l ∈ ls, Storable k l ∧ Plain (k.data l) ∧ TextOk k (k.cls l) (k.params l))
    (hms : TextOk k msName (k.msParams ls.length)) (hst : k.states (k.msParams ls.length) = some (ls.length : Int))
    (h64 : ls.length < 64) :
    load k z (ls.length + 2) ⟨s.seq, s'.fs⟩ = .ok (.multi (ls.map .leaf)) ⟨s.seq.advance, s'.fs⟩ := by
  obtain ⟨_, h2, h3, h4⟩ := C225_files k z .uncompressed ls s s' hsuf h
  have hf : s'.fs s.seq.fileName = some old := by
    rw [h4 _ (wf_ne_meta s.seq hsuf) (fun j _ => ⟨(base_ne_state s.seq hsuf j).1, (base_ne_state s.seq hsuf j).2.1⟩), hold]
  have hne : ls ≠ [] := by
    rintro rfl
    cases h
  have hpos : 0 < ls.length := List.length_pos_iff.2 hne
  have hm := readMetaRaw_of k (s := ⟨s.seq, s'.fs⟩) hms h3
  rw [load, readMeta_plain k (s := ⟨s.seq, s'.fs⟩) hf hp hm]
  show (if msName.length ≤ 1 then _ else _) = _
  rw [if_neg (by decide), if_pos rfl, hst]
  simp only
  rw [if_neg (by omega)]
  obtain ⟨q', c0, c1, c2, c3, c4⟩ := loadStates_of k z s.seq ls 0 ⟨s.seq, s'.fs⟩ (ls.length + 1) (le_refl _) rfl rfl rfl
    (by omega) hs (by
      intro j l hj
      obtain ⟨⟨b, hb, e1⟩, e2⟩ := h2 j l hj
      have hb' : b = k.data l := by
        have : some (k.data l) = some b := hb
        injection this with e; exact e.symm
      subst hb'
      rw [Nat.zero_add]
      refine ⟨?_, e2⟩
      show s'.fs _ = _
      rw [e1]
      show some (k.data l ++ []) = _
      rw [List.append_nil])
  rw [Int.toNat_natCast, c0]
  have : s.seq.advance = ⟨s.seq.name, s.seq.suffix, s.seq.sequence, s.seq.advance.counter, s.seq.increment⟩ := by
    unfold Seq.advance; split <;> rfl
  simp only
  rw [this, ← c1, ← c2, ← c3, ← c4 hne]

/-- An existing object into which another one can be read. -/
def Fits {L P : Type} (k : Kind L P) (w l : L) : Prop :=
  ∃ b, k.init w (k.params l) = some b ∧ (k.data b).length = (k.data l).length ∧ k.fill b (k.data l) = l ∧
    Plain (k.data l) ∧ TextOk k (k.cls l) (k.params l)

theorem readLeaf_of {L P : Type} (k : Kind L P) (z : Codec) (w l : L) (s : St) (h : Fits k w l)
    (hf : s.fs s.seq.fileName = some (k.data l)) (hm : s.fs (metaName s.seq) = some (k.text (k.cls l) (k.params l))) :
    readLeaf k z w s = .ok l ⟨s.seq.advance, s.fs⟩ := by
  obtain ⟨b, hi, hlen, hfill, hp, ht⟩ := h
  unfold readLeaf
  rw [readMeta_plain k hf hp (readMetaRaw_of k ht hm)]
  show (if Method.uncompressed = Method.uncompressed then _ else _) = _
  rw [if_pos rfl]
  unfold readData
  rw [hi]
  simp only [hf]
  have h0 : (k.data l).length ≠ 0 := by have := hp.len; omega
  rw [if_neg (by rw [hlen]; exact h0), if_pos trivial, if_neg (by rw [hlen]; exact lt_irrefl _), hlen,
    List.take_length, hfill]

theorem readStates_of {L P : Type} (k : Kind L P) (z : Codec) (q : Seq) (ws ls : List L) (h : List.Forall₂ (Fits k) ws ls)
    (i : Nat) (s : St) (h1 : s.seq.sequence = q.sequence) (h2 : s.seq.suffix = q.suffix)
    (h3 : s.seq.increment = q.increment)
    (hf : ∀ j l, ls[j]? = some l → s.fs (stateFile q (i + j)) = some (k.data l) ∧
      s.fs (stateMeta q (i + j)) = some (k.text (k.cls l) (k.params l))) :
    ∃ q', readStates k z q.name q.counter i ws s = .ok ls ⟨q', s.fs⟩ ∧
      q'.sequence = q.sequence ∧ q'.suffix = q.suffix ∧ q'.increment = q.increment ∧
      (ls ≠ [] → q'.counter = q.advance.counter) := by
  induction h generalizing i s with
  | nil => exact ⟨s.seq, rfl, h1, h2, h3, fun e => absurd rfl e⟩
  | @cons w l ws r hw hr ih =>
    obtain ⟨f1, f2⟩ := hf 0 l rfl
    rw [Nat.add_zero] at f1 f2
    have e := stateSeq_file q s.seq i h1 h2
    have hld := readLeaf_of k z w l { s with seq := stateSeq q.name q.counter i s.seq } hw
      (by show s.fs (stateSeq q.name q.counter i s.seq).fileName = _; rw [e, f1]) f2
    have b1 : (stateSeq q.name q.counter i s.seq).advance.sequence = q.sequence := by
      unfold Seq.advance stateSeq; split <;> exact h1
    have b2 : (stateSeq q.name q.counter i s.seq).advance.suffix = q.suffix := by
      unfold Seq.advance stateSeq; split <;> exact h2
    have b3 : (stateSeq q.name q.counter i s.seq).advance.increment = q.increment := by
      unfold Seq.advance stateSeq; split <;> exact h3
    have b4 : (stateSeq q.name q.counter i s.seq).advance.counter = q.advance.counter := by
      unfold Seq.advance stateSeq
      simp only [h1, h3]
      split <;> rfl
    obtain ⟨q', c0, c1, c2, c3, c4⟩ := ih (i + 1) ⟨(stateSeq q.name q.counter i s.seq).advance, s.fs⟩ b1 b2 b3
      (by
        intro j x hx
        have := hf (j + 1) x (by simpa using hx)
        rw [show i + (j + 1) = i + 1 + j by omega] at this
        exact this)
    refine ⟨q', ?_, c1, c2, c3, ?_⟩
    · rw [readStates, hld]
      simp only [c0]
    · intro _
      by_cases hn : r = []
      · subst hn
        cases hr
        injection c0 with _ c0
        injection c0 with c0 _
        rw [← c0, b4]
      · exact c4 hn

/-- **C224** (partial).  The same when reading into an existing wave function with the right number of states. -/
theorem C224_into_partial {L P : Type} (k : Kind L P) (z : Codec) (ws ls : List L) (s s' : St) (old : List Byte)
    (hsuf : s.seq.suffix = ".wf".toList) (hold : s.fs s.seq.fileName = some old) (hp : Plain old)
    (h : writeMulti k z .uncompressed ls s = .ok () s') (hs : List.Forall₂ (Fits k) ws ls)
    (hms : TextOk k msName (k.msParams ls.length)) :
    readMulti k z ws ⟨s.seq, s'.fs⟩ = .ok ls ⟨s.seq.advance, s'.fs⟩ := by
  obtain ⟨_, h2, h3, h4⟩ := C225_files k z .uncompressed ls s s' hsuf h
  have hf : s'.fs s.seq.fileName = some old := by
    rw [h4 _ (wf_ne_meta s.seq hsuf) (fun j _ => ⟨(base_ne_state s.seq hsuf j).1, (base_ne_state s.seq hsuf j).2.1⟩), hold]
  have hne : ls ≠ [] := by
    rintro rfl
    cases h
  have hpos : 0 < ls.length := List.length_pos_iff.2 hne
  have hm := readMetaRaw_of k (s := ⟨s.seq, s'.fs⟩) hms h3
  unfold readMulti
  have hws : ¬ ws.length < 1 := by
    cases hs with
    | nil => exact absurd rfl hne
    | cons _ _ => simp
  rw [if_neg hws, readMeta_plain k (s := ⟨s.seq, s'.fs⟩) hf hp hm]
  obtain ⟨q', c0, c1, c2, c3, c4⟩ := readStates_of k z s.seq ws ls hs 0 ⟨s.seq, s'.fs⟩ rfl rfl rfl (by
      intro j l hj
      obtain ⟨⟨b, hb, e1⟩, e2⟩ := h2 j l hj
      have hb' : b = k.data l := by
        have : some (k.data l) = some b := hb
        injection this with e; exact e.symm
      subst hb'
      rw [Nat.zero_add]
      refine ⟨?_, e2⟩
      show s'.fs _ = _
      rw [e1]
      show some (k.data l ++ []) = _
      rw [List.append_nil])
  simp only [c0]
  have : s.seq.advance = ⟨s.seq.name, s.seq.suffix, s.seq.sequence, s.seq.advance.counter, s.seq.increment⟩ := by
    unfold Seq.advance; split <;> rfl
  rw [this, ← c1, ← c2, ← c3, ← c4 hne]

theorem one_fits : Fits toy (7, []) one := ⟨(1, List.replicate 16 0), rfl, rfl, rfl, one_plain, rfl⟩

example : ∃ s', writeMulti toy toyZ .uncompressed [one, one]
      ⟨at_ true 0, put (fun _ => none) (at_ true 0).fileName one.2⟩ = .ok () s' ∧
    readMulti toy toyZ [(7, []), (7, [])] ⟨at_ true 0, s'.fs⟩ = .ok [one, one] ⟨at_ true 1, s'.fs⟩ := by
  obtain ⟨s', h⟩ := (C225_total toy toyZ [one, one]
    ⟨at_ true 0, put (fun _ => none) (at_ true 0).fileName one.2⟩).1 (by decide)
  exact ⟨s', h, C224_into_partial toy toyZ [(7, []), (7, [])] [one, one] _ s' one.2 rfl
    (put_same (fun _ => none) (at_ true 0).fileName one.2) one_plain h (.cons one_fits (.cons one_fits .nil)) rfl⟩

/-- Three states in a series: written, then not readable. -/
example : ∃ s', writeMulti toy toyZ .uncompressed [one, one, one] ⟨at_ true 5, fun _ => none⟩ = .ok () s' ∧
    s'.seq = at_ true 6 ∧
    load toy toyZ 9 ⟨at_ true 5, s'.fs⟩ = .threw ⟨at_ true 5, s'.fs⟩ := by
  obtain ⟨s', h⟩ := (C225_total toy toyZ [one, one, one] ⟨at_ true 5, fun _ => none⟩).1 (by decide)
  exact ⟨s', h, (C225_files toy toyZ _ _ _ s' rfl h).1, (C224_violated_multi toy toyZ _ _ [one] _ s' rfl rfl h 8).1⟩

/-- The same with a file that was there before. -/
example : ∃ s', writeMulti toy toyZ .uncompressed [one, one, one]
      ⟨at_ false 0, put (fun _ => none) (at_ false 0).fileName one.2⟩ = .ok () s' ∧
    load toy toyZ 5 ⟨at_ false 0, s'.fs⟩ = .ok (.multi [.leaf one, .leaf one, .leaf one]) ⟨at_ false 0, s'.fs⟩ ∧
    load toy toyZ 1 ⟨⟨"w-1".toList, ".wf".toList, false, 0, 1⟩, s'.fs⟩ =
      .ok (.leaf one) ⟨⟨"w-1".toList, ".wf".toList, false, 0, 1⟩, s'.fs⟩ := by
  obtain ⟨s', h⟩ := (C225_total toy toyZ [one, one, one]
    ⟨at_ false 0, put (fun _ => none) (at_ false 0).fileName one.2⟩).1 (by decide)
  have hs : ∀ l ∈ [one, one, one], Storable toy l ∧ Plain (toy.data l) ∧ TextOk toy (toy.cls l) (toy.params l) := by
    intro l hl
    have : l = one := by simpa using hl
    subst this
    exact ⟨one_storable, one_plain, rfl⟩
  refine ⟨s', h, C224_leftover_partial toy toyZ [one, one, one] _ s' one.2 rfl
    (put_same (fun _ => none) (at_ false 0).fileName one.2) one_plain h hs rfl rfl
    (by decide), ?_⟩
  have := C224_state_partial toy toyZ [one, one, one] _ s' rfl h hs 1 one rfl 0
  have e : showNat 1 = ['1'] := by unfold showNat; rfl
  rw [e] at this
  exact this

/-! ## C226: what reading and failing leave behind -/

/-- What a reading operation leaves: no file changed; after success the name is the old one and the counter has
moved on once. -/
def LoadFrame {A : Type} (s : St) (r : Res A) : Prop :=
  (∀ a s', r = .ok a s' → s'.seq = s.seq.advance ∧ s'.fs = s.fs) ∧
  (∀ s', r = .threw s' → s'.fs = s.fs) ∧ (∀ s', r = .stream s' → s'.fs = s.fs)

theorem readMeta_frame {L P : Type} (k : Kind L P) (s : St) :
    (∀ a s', readMeta k s = .ok a s' → s' = s) ∧ (∀ s', readMeta k s = .threw s' → s' = s) ∧
    (∀ s', readMeta k s = .stream s' → s' = s) := by
  unfold readMeta
  refine ⟨fun a s' h => ?_, fun s' h => ?_, fun s' h => ?_⟩
  all_goals
    revert h
    cases detect s with
    | missing => intro h; first | (injection h with h; exact h.symm) | cases h
    | stream => intro h; first | (injection h with h; exact h.symm) | cases h
    | ub => intro h; cases h
    | binary =>
      cases readMetaRaw k s with
      | none => intro h; first | (injection h with h; exact h.symm) | cases h
      | some p =>
        cases (s.fs s.seq.fileName).bind detectComp with
        | none => intro h; first | (injection h with h; exact h.symm) | cases h
        | some m => intro h; first | (injection h with _ h; exact h.symm) | cases h

theorem readData_frame {L P : Type} (k : Kind L P) (z : Codec) (p : P) (m : Method) (l : L) (s : St) :
    LoadFrame s (readData k z p m l s) := by
  unfold readData LoadFrame
  cases k.init l p with
  | none =>
    refine ⟨fun a s' h => (by cases h), fun s' h => ?_, fun s' h => (by cases h)⟩
    injection h with h; rw [← h]
  | some b =>
    cases s.fs s.seq.fileName with
    | none =>
      refine ⟨fun a s' h => (by cases h), fun s' h => ?_, fun s' h => (by cases h)⟩
      injection h with h; rw [← h]
    | some d =>
      simp only
      by_cases h1 : (k.data b).length = 0
      · rw [if_pos h1]
        refine ⟨fun a s' h => (by cases h), fun s' h => ?_, fun s' h => (by cases h)⟩
        injection h with h; rw [← h]
      · rw [if_neg h1]
        by_cases h2 : m = .uncompressed
        · rw [if_pos h2]
          by_cases h3 : d.length < (k.data b).length
          · rw [if_pos h3]
            refine ⟨fun a s' h => (by cases h), fun s' h => ?_, fun s' h => (by cases h)⟩
            injection h with h; rw [← h]
          · rw [if_neg h3]
            refine ⟨fun a s' h => ?_, fun s' h => (by cases h), fun s' h => (by cases h)⟩
            injection h with _ h; rw [← h]; exact ⟨rfl, rfl⟩
        · rw [if_neg h2]
          cases z.decomp m d with
          | none =>
            refine ⟨fun a s' h => (by cases h), fun s' h => ?_, fun s' h => (by cases h)⟩
            injection h with h; rw [← h]
          | some x =>
            simp only
            by_cases h4 : x.length > (k.data b).length
            · rw [if_pos h4]
              refine ⟨fun a s' h => (by cases h), fun s' h => ?_, fun s' h => (by cases h)⟩
              injection h with h; rw [← h]
            · rw [if_neg h4]
              by_cases h5 : x.length < (k.data b).length
              · rw [if_pos h5]
                exact ⟨fun a s' h => (by cases h), fun s' h => (by cases h), fun s' h => (by cases h)⟩
              · rw [if_neg h5]
                refine ⟨fun a s' h => ?_, fun s' h => (by cases h), fun s' h => (by cases h)⟩
                injection h with _ h; rw [← h]; exact ⟨rfl, rfl⟩

theorem loadLeaf_frame {L P : Type} (k : Kind L P) (z : Codec) (c : Str) (p : P) (m : Method) (s : St) :
    LoadFrame s (loadLeaf k z c p m s) := by
  unfold loadLeaf
  cases k.fresh c with
  | none =>
    refine ⟨fun a s' h => (by cases h), fun s' h => ?_, fun s' h => (by cases h)⟩
    injection h with h; rw [← h]
  | some w =>
    have hr := readData_frame k z p m w s
    simp only
    revert hr
    cases readData k z p m w s with
    | ok t s1 =>
      intro hr
      refine ⟨fun a s' h => ?_, fun s' h => (by cases h), fun s' h => (by cases h)⟩
      injection h with _ h; rw [← h]; exact hr.1 _ _ rfl
    | threw s1 =>
      intro hr
      refine ⟨fun a s' h => (by cases h), fun s' h => ?_, fun s' h => (by cases h)⟩
      injection h with h; rw [← h]; exact hr.2.1 _ rfl
    | stream s1 =>
      intro hr
      refine ⟨fun a s' h => (by cases h), fun s' h => (by cases h), fun s' h => ?_⟩
      injection h with h; rw [← h]; exact hr.2.2 _ rfl
    | indet => intro hr; exact ⟨fun a s' h => (by cases h), fun s' h => (by cases h), fun s' h => (by cases h)⟩
    | ub => intro hr; exact ⟨fun a s' h => (by cases h), fun s' h => (by cases h), fun s' h => (by cases h)⟩
    | fuel => intro hr; exact ⟨fun a s' h => (by cases h), fun s' h => (by cases h), fun s' h => (by cases h)⟩

theorem advance_name (q : Seq) : q.advance.name = q.name := by unfold Seq.advance; split <;> rfl

theorem advance_eta (q : Seq) :
    q.advance = ⟨q.name, q.suffix, q.sequence, q.advance.counter, q.increment⟩ := by
  unfold Seq.advance; split <;> rfl

/-- The same for the loop over the states. -/
def StatesFrame {A : Type} (q : Seq) (todo : Nat) (s : St) (r : Res A) : Prop :=
  (∀ a s', r = .ok a s' → s'.fs = s.fs ∧ s'.seq.sequence = q.sequence ∧ s'.seq.suffix = q.suffix ∧
    s'.seq.increment = q.increment ∧ (0 < todo → s'.seq.counter = q.advance.counter)) ∧
  (∀ s', r = .threw s' → s'.fs = s.fs) ∧ (∀ s', r = .stream s' → s'.fs = s.fs)

theorem load_frame {L P : Type} (k : Kind L P) (z : Codec) (n : Nat) :
    (∀ s, LoadFrame s (load k z n s)) ∧
    (∀ q i todo (s : St), s.seq.sequence = q.sequence → s.seq.suffix = q.suffix → s.seq.increment = q.increment →
      StatesFrame q todo s (loadStates k z n q.name q.counter i todo s)) := by
  induction n with
  | zero =>
    refine ⟨fun s => ?_, fun q i todo s _ _ _ => ?_⟩
    · exact ⟨fun a s' h => (by cases h), fun s' h => (by cases h), fun s' h => (by cases h)⟩
    · exact ⟨fun a s' h => (by cases h), fun s' h => (by cases h), fun s' h => (by cases h)⟩
  | succ n ih =>
    refine ⟨fun s => ?_, fun q i todo s h1 h2 h3 => ?_⟩
    · rw [load]
      have hm := readMeta_frame k s
      revert hm
      cases readMeta k s with
      | ok a s1 =>
        intro hm
        have := hm.1 _ _ rfl
        subst this
        obtain ⟨⟨c, p⟩, m⟩ := a
        simp only
        by_cases hc : c.length ≤ 1
        · rw [if_pos hc]
          refine ⟨fun a s' h => (by cases h), fun s' h => ?_, fun s' h => (by cases h)⟩
          injection h with h; rw [← h]
        · rw [if_neg hc]
          by_cases hms : c = msName
          · rw [if_pos hms]
            cases k.states p with
            | none => exact ⟨fun a s' h => (by cases h), fun s' h => (by cases h), fun s' h => (by cases h)⟩
            | some d =>
              simp only
              by_cases hd : d < 1
              · rw [if_pos hd]
                refine ⟨fun a s' h => (by cases h), fun s' h => ?_, fun s' h => (by cases h)⟩
                injection h with h; rw [← h]
              · rw [if_neg hd]
                have hs := ih.2 s1.seq 0 d.toNat s1 rfl rfl rfl
                revert hs
                cases loadStates k z n s1.seq.name s1.seq.counter 0 d.toNat s1 with
                | ok ws s2 =>
                  intro hs
                  refine ⟨fun a s' h => ?_, fun s' h => (by cases h), fun s' h => (by cases h)⟩
                  obtain ⟨e1, e2, e3, e4, e5⟩ := hs.1 _ _ rfl
                  injection h with _ h
                  rw [← h]
                  refine ⟨?_, e1⟩
                  rw [advance_eta s1.seq, ← e2, ← e3, ← e4, ← e5 (by omega)]
                | threw s2 =>
                  intro hs
                  refine ⟨fun a s' h => (by cases h), fun s' h => ?_, fun s' h => (by cases h)⟩
                  injection h with h; rw [← h]; exact hs.2.1 _ rfl
                | stream s2 =>
                  intro hs
                  refine ⟨fun a s' h => (by cases h), fun s' h => (by cases h), fun s' h => ?_⟩
                  injection h with h; rw [← h]; exact hs.2.2 _ rfl
                | indet => intro _; exact ⟨fun a s' h => (by cases h), fun s' h => (by cases h), fun s' h => (by cases h)⟩
                | ub => intro _; exact ⟨fun a s' h => (by cases h), fun s' h => (by cases h), fun s' h => (by cases h)⟩
                | fuel => intro _; exact ⟨fun a s' h => (by cases h), fun s' h => (by cases h), fun s' h => (by cases h)⟩
          · rw [if_neg hms]
            have hs := loadLeaf_frame k z c p m s1
            revert hs
            cases loadLeaf k z c p m s1 with
            | ok l s2 =>
              intro hs
              refine ⟨fun a s' h => ?_, fun s' h => (by cases h), fun s' h => (by cases h)⟩
              obtain ⟨e1, e2⟩ := hs.1 _ _ rfl
              injection h with _ h
              rw [← h]
              refine ⟨?_, e2⟩
              rw [e1, ← advance_name s1.seq]
            | threw s2 =>
              intro hs
              refine ⟨fun a s' h => (by cases h), fun s' h => ?_, fun s' h => (by cases h)⟩
              injection h with h; rw [← h]; exact hs.2.1 _ rfl
            | stream s2 =>
              intro hs
              refine ⟨fun a s' h => (by cases h), fun s' h => (by cases h), fun s' h => ?_⟩
              injection h with h; rw [← h]; exact hs.2.2 _ rfl
            | indet => intro _; exact ⟨fun a s' h => (by cases h), fun s' h => (by cases h), fun s' h => (by cases h)⟩
            | ub => intro _; exact ⟨fun a s' h => (by cases h), fun s' h => (by cases h), fun s' h => (by cases h)⟩
            | fuel => intro _; exact ⟨fun a s' h => (by cases h), fun s' h => (by cases h), fun s' h => (by cases h)⟩
      | threw s1 =>
        intro hm
        refine ⟨fun a s' h => (by cases h), fun s' h => ?_, fun s' h => (by cases h)⟩
        injection h with h; rw [← h, hm.2.1 _ rfl]
      | stream s1 =>
        intro hm
        refine ⟨fun a s' h => (by cases h), fun s' h => (by cases h), fun s' h => ?_⟩
        injection h with h; rw [← h, hm.2.2 _ rfl]
      | indet => intro _; exact ⟨fun a s' h => (by cases h), fun s' h => (by cases h), fun s' h => (by cases h)⟩
      | ub => intro _; exact ⟨fun a s' h => (by cases h), fun s' h => (by cases h), fun s' h => (by cases h)⟩
      | fuel => intro _; exact ⟨fun a s' h => (by cases h), fun s' h => (by cases h), fun s' h => (by cases h)⟩
    · cases todo with
      | zero =>
        refine ⟨fun a s' h => ?_, fun s' h => (by cases h), fun s' h => (by cases h)⟩
        injection h with _ h
        rw [← h]
        exact ⟨rfl, h1, h2, h3, fun e => absurd e (lt_irrefl _)⟩
      | succ todo =>
        rw [loadStates]
        have hl := ih.1 { s with seq := stateSeq q.name q.counter i s.seq }
        revert hl
        cases load k z n { s with seq := stateSeq q.name q.counter i s.seq } with
        | ok w s1 =>
          intro hl
          obtain ⟨e1, e2⟩ := hl.1 _ _ rfl
          simp only at e2 e1
          simp only
          by_cases h64 : i + 1 ≥ 64
          · rw [if_pos h64]
            refine ⟨fun a s' h => (by cases h), fun s' h => ?_, fun s' h => (by cases h)⟩
            injection h with h; rw [← h, e2]
          · rw [if_neg h64]
            by_cases hst : w.strides > 1
            · rw [if_pos hst]
              refine ⟨fun a s' h => (by cases h), fun s' h => ?_, fun s' h => (by cases h)⟩
              injection h with h; rw [← h, e2]
            · rw [if_neg hst]
              have b1 : s1.seq.sequence = q.sequence := by
                rw [e1]; unfold Seq.advance stateSeq; split <;> exact h1
              have b2 : s1.seq.suffix = q.suffix := by
                rw [e1]; unfold Seq.advance stateSeq; split <;> exact h2
              have b3 : s1.seq.increment = q.increment := by
                rw [e1]; unfold Seq.advance stateSeq; split <;> exact h3
              have b4 : s1.seq.counter = q.advance.counter := by
                rw [e1]; unfold Seq.advance stateSeq
                simp only [h1, h3]
                split <;> rfl
              have hs := ih.2 q (i + 1) todo s1 b1 b2 b3
              have hz : todo = 0 → ∀ a s', loadStates k z n q.name q.counter (i + 1) todo s1 = .ok a s' → s' = s1 := by
                rintro rfl a s' h
                cases n with
                | zero => cases h
                | succ n => injection h with _ h; exact h.symm
              revert hs hz
              cases loadStates k z n q.name q.counter (i + 1) todo s1 with
              | ok ws s2 =>
                intro hs hz
                refine ⟨fun a s' h => ?_, fun s' h => (by cases h), fun s' h => (by cases h)⟩
                obtain ⟨f1, f2, f3, f4, f5⟩ := hs.1 _ _ rfl
                injection h with _ h
                rw [← h]
                refine ⟨f1.trans e2, f2, f3, f4, fun _ => ?_⟩
                by_cases ht : todo = 0
                · rw [hz ht _ _ rfl, b4]
                · exact f5 (by omega)
              | threw s2 =>
                intro hs _
                refine ⟨fun a s' h => (by cases h), fun s' h => ?_, fun s' h => (by cases h)⟩
                injection h with h; rw [← h]; exact (hs.2.1 _ rfl).trans e2
              | stream s2 =>
                intro hs _
                refine ⟨fun a s' h => (by cases h), fun s' h => (by cases h), fun s' h => ?_⟩
                injection h with h; rw [← h]; exact (hs.2.2 _ rfl).trans e2
              | indet => intro _ _; exact ⟨fun a s' h => (by cases h), fun s' h => (by cases h), fun s' h => (by cases h)⟩
              | ub => intro _ _; exact ⟨fun a s' h => (by cases h), fun s' h => (by cases h), fun s' h => (by cases h)⟩
              | fuel => intro _ _; exact ⟨fun a s' h => (by cases h), fun s' h => (by cases h), fun s' h => (by cases h)⟩
        | threw s1 =>
          intro hl
          refine ⟨fun a s' h => (by cases h), fun s' h => ?_, fun s' h => (by cases h)⟩
          injection h with h; rw [← h]; exact hl.2.1 _ rfl
        | stream s1 =>
          intro hl
          refine ⟨fun a s' h => (by cases h), fun s' h => (by cases h), fun s' h => ?_⟩
          injection h with h; rw [← h]; exact hl.2.2 _ rfl
        | indet => intro _; exact ⟨fun a s' h => (by cases h), fun s' h => (by cases h), fun s' h => (by cases h)⟩
        | ub => intro _; exact ⟨fun a s' h => (by cases h), fun s' h => (by cases h), fun s' h => (by cases h)⟩
        | fuel => intro _; exact ⟨fun a s' h => (by cases h), fun s' h => (by cases h), fun s' h => (by cases h)⟩

/-- **C226** (partial).  Reading a wave function, with one or several states, changes no file; if it succeeds the file
object has its old name and the counter of a series has moved on exactly once.  Missing: the name after an
exception, see the violations. -/
theorem C226_read_partial {L P : Type} (k : Kind L P) (z : Codec) (n : Nat) (s : St) :
    LoadFrame s (load k z n s) := (load_frame k z n).1 s

/-- **C226** is violated: if the data of the first state does not fit the buffer for compression, the exception leaves
the name of that state in the file object, and the next wave function goes to another file. -/
theorem C226_violated_write {L P : Type} (k : Kind L P) (z : Codec) (m : Method) (hm : m = .zlib ∨ m = .bzip)
    (l : L) (r : List L) (hbig : (k.data (k.reduce l)).length < (z.comp m (k.data (k.reduce l))).length) (s : St) :
    ∃ s', writeMulti k z m (l :: r) s = .threw s' ∧ s'.fs = s.fs ∧ s'.seq.name = s.seq.name ++ "-0".toList ∧
      s'.seq.fileName ≠ s.seq.fileName := by
  refine ⟨⟨stateSeq s.seq.name s.seq.counter 0 s.seq, s.fs⟩, ?_, rfl, ?_, ?_⟩
  · unfold writeMulti
    rw [if_neg (by simp), writeStates, C222_incompressible_partial k z m hm l hbig]
  · show s.seq.name ++ ('-' :: showNat 0) = _
    have : showNat 0 = ['0'] := by unfold showNat; rfl
    rw [this]; rfl
  · rw [stateSeq_file s.seq s.seq 0 rfl rfl]
    unfold stateFile Seq.fileName
    intro h
    have := congrArg List.length h
    cases hq : s.seq.sequence <;> simp [hq] at this <;> omega

/-- **C226** is violated in the same way for reading: the parameter file promises two states, the first one is not
there. -/
theorem C226_violated_read {L P : Type} (k : Kind L P) (z : Codec) (s : St) (old : List Byte) (c : Nat) (n : Nat)
    (hold : s.fs s.seq.fileName = some old) (hp : Plain old)
    (hmeta : s.fs (metaName s.seq) = some (k.text msName (k.msParams (c + 1))))
    (hms : TextOk k msName (k.msParams (c + 1))) (hst : k.states (k.msParams (c + 1)) = some ((c + 1 : Nat) : Int))
    (hmiss : s.fs (stateFile s.seq 0) = none) :
    ∃ s', load k z (n + 3) s = .threw s' ∧ s'.seq.name = s.seq.name ++ "-0".toList := by
  refine ⟨⟨stateSeq s.seq.name s.seq.counter 0 s.seq, s.fs⟩, ?_, ?_⟩
  · have hm := readMetaRaw_of k hms hmeta
    rw [load, readMeta_plain k hold hp hm]
    show (if msName.length ≤ 1 then _ else _) = _
    rw [if_neg (by decide), if_pos rfl, hst]
    simp only
    rw [if_neg (by omega), Int.toNat_natCast, loadStates]
    have hr : readMeta k ⟨stateSeq s.seq.name s.seq.counter 0 s.seq, s.fs⟩ =
        .threw ⟨stateSeq s.seq.name s.seq.counter 0 s.seq, s.fs⟩ := by
      unfold readMeta detect
      simp only [stateSeq_file s.seq s.seq 0 rfl rfl, hmiss]
    rw [load]
    simp only [hr]
  · show s.seq.name ++ ('-' :: showNat 0) = _
    have : showNat 0 = ['0'] := by unfold showNat; rfl
    rw [this]; rfl

example : ∃ s', writeMulti toy ⟨fun _ d => d ++ [1], fun _ _ => none⟩ .zlib [one, one] ⟨at_ false 0, fun _ => none⟩ =
    .threw s' ∧ s'.seq.name = "w-0".toList := by
  obtain ⟨s', h1, _, h3, _⟩ := C226_violated_write toy ⟨fun _ d => d ++ [1], fun _ _ => none⟩ .zlib (Or.inl rfl) one [one]
    (by decide) ⟨at_ false 0, fun _ => none⟩
  exact ⟨s', h1, h3⟩

example : ∃ s', load toy toyZ 3 ⟨at_ false 0, fun n => if n = "w.wf".toList then some one.2 else
      if n = "w.meta".toList then some [1, 2] else none⟩ = .threw s' ∧ s'.seq.name = "w-0".toList :=
  C226_violated_read toy toyZ ⟨at_ false 0, fun n => if n = "w.wf".toList then some one.2 else
      if n = "w.meta".toList then some [1, 2] else none⟩ one.2 1 0 rfl one_plain rfl rfl rfl (by
        have : showNat 0 = ['0'] := by unfold showNat; rfl
        show (if stateFile (at_ false 0) 0 = "w.wf".toList then some one.2 else
          if stateFile (at_ false 0) 0 = "w.meta".toList then some [1, 2] else none) = none
        unfold stateFile
        rw [this]
        rfl)

/-! ## C227: one frame of a series by its name -/

theorem showNat_no_underscore (n : Nat) : '_' ∉ showNat n := by
  induction n using Nat.strongRecOn with
  | _ n ih =>
    have hd : '_' ≠ digit n := by
      intro h
      have := congrArg Char.toNat h
      rw [digit_val] at this
      have h2 : ('_' : Char).toNat = 95 := by decide
      omega
    rw [showNat]
    split
    · intro h; exact hd (by simpa using h)
    · intro h
      rcases List.mem_append.1 h with h | h
      · exact ih (n / 10) (by omega) h
      · exact hd (by simpa using h)

theorem showInt_no_underscore (i : Int) : '_' ∉ showInt i := by
  unfold showInt
  split
  · intro h
    rcases List.mem_cons.1 h with h | h
    · exact absurd h (by decide)
    · exact showNat_no_underscore _ h
  · exact showNat_no_underscore _

theorem stripIdx_frame (base t : Str) (ht : '_' ∉ t) : stripIdx (base ++ '_' :: t) = some base := by
  unfold stripIdx
  rw [if_pos (by simp)]
  congr 1
  have h1 : (base ++ '_' :: t).reverse = t.reverse ++ ('_' :: base.reverse) := by simp
  have h2 : (t.reverse ++ ('_' :: base.reverse)).dropWhile (· ≠ '_') = '_' :: base.reverse := by
    rw [List.dropWhile_append_of_pos]
    · simp
    · intro x hx
      have : x ≠ '_' := fun e => ht (by rw [← e]; exact List.mem_reverse.1 hx)
      simpa using this
  rw [h1, h2]
  simp

/-- **C227**.  Every frame of a series can be read on its own, with the name of its file (without suffix) and without
a counter, as long as there is no parameter file of that very name. -/
theorem C227_frame {L P : Type} (k : Kind L P) (z : Codec) (c : Str) (p : P) (ht : TextOk k c p) (ls : List L)
    (hs : ∀ l ∈ ls, Storable k l ∧ Plain (k.data l) ∧ k.cls l = c ∧ k.params l = p) (s : St)
    (hseq : s.seq.sequence = true) (hinc : s.seq.increment ≠ 0) (hsuf : s.seq.suffix = ".wf".toList)
    (i : Nat) (l : L) (hi : ls[i]? = some l) (n : Nat)
    (hfree : s.fs (s.seq.name ++ '_' :: (showInt (s.seq.counter + i * s.seq.increment) ++ ".meta".toList)) = none) :
    ∃ s' fs', writeAll k z .uncompressed ls s = .ok () ⟨s', fs'⟩ ∧
      ∀ q : Seq, q.name = s.seq.name ++ '_' :: showInt (s.seq.counter + i * s.seq.increment) →
        q.suffix = ".wf".toList → q.sequence = false →
        load k z (n + 1) ⟨q, fs'⟩ = .ok (.leaf l) ⟨q, fs'⟩ := by
  obtain ⟨fs', h1, h2, h3⟩ := writeAll_files k z ls s s.fs hseq (fun _ _ => rfl)
  obtain ⟨w1, w2, w3⟩ := FileSeq.writeAll_spec (ls.map k.data) s.seq s.fs hseq hinc
  refine ⟨_, fs', h1, fun q hn hq hf => ?_⟩
  obtain ⟨a1, a2, a3, a4⟩ := hs l (List.mem_of_getElem? hi)
  have hlt : i < ls.length := (List.getElem?_eq_some_iff.1 hi).1
  have hli : ls[i] = l := (List.getElem?_eq_some_iff.1 hi).2
  have hfile : q.fileName = (s.seq.setCounter (s.seq.counter + i * s.seq.increment)).fileName := by
    unfold Seq.fileName Seq.setCounter
    rw [hf, hn, hq]
    simp only [hseq, if_true, hsuf]
    simp
  have hqm : metaName q = s.seq.name ++ '_' :: (showInt (s.seq.counter + i * s.seq.increment) ++ ".meta".toList) := by
    unfold metaName
    rw [hn]
    simp [metaSuffix]
  have hdata : fs' q.fileName = some (k.data l) := by
    have := w2 i (by rw [List.length_map]; exact hlt)
    rw [List.getElem_map, hli] at this
    rw [hfile, h2, this]
    unfold Seq.fileName metaName metaSuffix Seq.setCounter
    simp only [hseq, if_true]
    intro h
    have := List.append_cancel_left h
    injection this with h1 _
    exact absurd h1 (by decide)
  have hmetanone : fs' (metaName q) = none := by
    rw [hqm, h2, w3, hfree]
    · intro j _ h
      have := congrArg List.getLast? h
      unfold Seq.fileName Seq.setCounter at this
      simp only [hseq, if_true, hsuf] at this
      have e1 : ∀ x : Str, (s.seq.name ++ '_' :: (x ++ ".wf".toList)).getLast? = some 'f' := by
        intro x
        rw [show s.seq.name ++ '_' :: (x ++ ".wf".toList) = (s.seq.name ++ '_' :: x ++ ['.', 'w']) ++ ['f'] by simp,
          List.getLast?_concat]
      have e2 : ∀ x : Str, (s.seq.name ++ '_' :: (x ++ ".meta".toList)).getLast? = some 'a' := by
        intro x
        rw [show s.seq.name ++ '_' :: (x ++ ".meta".toList) = (s.seq.name ++ '_' :: x ++ ['.', 'm', 'e', 't']) ++ ['a'] by simp,
          List.getLast?_concat]
      rw [e1, e2] at this
      exact absurd this (by decide)
    · unfold metaName metaSuffix
      intro h
      have := List.append_cancel_left h
      injection this with h1 _
      exact absurd h1 (by decide)
  have hm : readMetaRaw k ⟨q, fs'⟩ = some (k.cls l, k.params l) := by
    unfold readMetaRaw
    simp only [hmetanone]
    rw [hqm, stripIdx_frame _ _ (by
      intro h
      rcases List.mem_append.1 h with h | h
      · exact showInt_no_underscore _ h
      · exact absurd h (by decide))]
    have hne : ls ≠ [] := List.ne_nil_of_length_pos (by omega)
    have h3' : fs' (s.seq.name ++ metaSuffix) = _ := h3
    simp only [h3', List.getLast?_eq_some_getLast hne]
    obtain ⟨_, _, e1, e2⟩ := hs _ (List.getLast_mem hne)
    rw [e1, e2, a3, a4]
    show some (k.parse (k.text c p)) = _
    rw [ht]
  have hadv : q.advance = q := by unfold Seq.advance; rw [hf]; rfl
  have := load_plain k z l ⟨q, fs'⟩ n a1 hdata a2 hm
  simp only [hadv] at this
  exact this

/-- Frame 4 of a series of two that starts with 3. -/
example : ∃ s' fs', writeAll toy toyZ .uncompressed [one, one] ⟨at_ true 3, fun _ => none⟩ = .ok () ⟨s', fs'⟩ ∧
    ∀ q : Seq, q.name = "w".toList ++ '_' :: showInt 4 → q.suffix = ".wf".toList → q.sequence = false →
      load toy toyZ 1 ⟨q, fs'⟩ = .ok (.leaf one) ⟨q, fs'⟩ :=
  C227_frame toy toyZ "WF".toList 1 rfl [one, one]
    (by intro l hl
        have : l = one := by simpa using hl
        subst this
        exact ⟨one_storable, one_plain, rfl, rfl⟩) ⟨at_ true 3, fun _ => none⟩ rfl (by decide) rfl 1 one rfl 0 rfl

/-! ## C228: options -/

/-- **C228** (partial).  The options decide format and compression: an unknown format is refused at once, an unknown
method makes every attempt to write a single wave function, or states in the binary format, an exception that changes
no file; without `compress` the method is not looked at.  Missing: states in the stream format. -/
theorem C228_options_partial (o : Opts) :
    (openWF o = none ↔ ∃ f, o.format = some f ∧ f ≠ "binary".toList ∧ f ≠ "stream".toList) ∧
    (∀ m f, openWF o = some (m, f) →
      (m = .uncompressed ↔ o.compress ≠ some true) ∧
      (m = .zlib ↔ o.compress = some true ∧ (o.compmethod = none ∨ o.compmethod = some "ZLIB".toList)) ∧
      (m = .bzip ↔ o.compress = some true ∧ o.compmethod = some "BZIP".toList) ∧
      (f = .binary ↔ o.format = some "binary".toList) ∧ (f = .autodetect ↔ o.format = none)) := by
  obtain ⟨c, m, f⟩ := o
  have hc : (c.getD false = false ↔ c ≠ some true) ∧ (c.getD false = true ↔ c = some true) := by
    rcases c with _ | _ | _ <;> simp
  have hM : ∃ M, methodOf ⟨c, m, f⟩ = M ∧ (M = .uncompressed ↔ c ≠ some true) ∧
      (M = .zlib ↔ c = some true ∧ (m = none ∨ m = some "ZLIB".toList)) ∧
      (M = .bzip ↔ c = some true ∧ m = some "BZIP".toList) := by
    refine ⟨_, rfl, ?_⟩
    rw [← hc.1, ← hc.2]
    unfold methodOf
    simp only
    cases c.getD false with
    | false => simp
    | true =>
      cases m with
      | none => simp
      | some s =>
        by_cases h1 : s = "ZLIB".toList
        · subst h1; decide
        · by_cases h2 : s = "BZIP".toList
          · subst h2; decide
          · simp only [if_true, Option.some.injEq, h1, h2, reduceCtorEq, or_self, and_false, if_false, and_self]
  obtain ⟨M, hM, m1, m2, m3⟩ := hM
  unfold openWF
  simp only [hM]
  cases f with
  | none =>
    refine ⟨by simp, ?_⟩
    intro x y h
    injection h with h
    injection h with h1 h2
    subst h1; subst h2
    exact ⟨m1, m2, m3, by simp, by simp⟩
  | some t =>
    simp only
    by_cases h1 : t = "binary".toList
    · rw [if_pos h1]
      refine ⟨by simp [h1], ?_⟩
      intro x y h
      injection h with h
      injection h with e1 e2
      subst e1; subst e2
      exact ⟨m1, m2, m3, by simp [h1], by simp⟩
    · rw [if_neg h1]
      by_cases h2 : t = "stream".toList
      · rw [if_pos h2]
        refine ⟨by simp [h2], ?_⟩
        intro x y h
        injection h with h
        injection h with e1 e2
        subst e1; subst e2
        exact ⟨m1, m2, m3, by simp [h2], by simp⟩
      · rw [if_neg h2]
        refine ⟨⟨fun _ => ⟨t, rfl, h1, h2⟩, fun _ => rfl⟩, ?_⟩
        intro x y h
        cases h

/-- **C228** (partial).  With an unknown method nothing is written in the binary format. -/
theorem C228_invalid_partial {L P : Type} (k : Kind L P) (z : Codec) (l : L) (ls : List L) (s : St) :
    writeLeaf k z .invalid l s = .threw s ∧ ∃ s', writeMulti k z .invalid ls s = .threw s' ∧ s'.fs = s.fs := by
  refine ⟨rfl, ?_⟩
  unfold writeMulti
  cases ls with
  | nil => exact ⟨s, rfl, rfl⟩
  | cons l r => exact ⟨_, rfl, rfl⟩

/-- **C228** is violated for several states in the stream format: the exception comes after the file was opened, so
what was stored there before is lost. -/
theorem C228_violated_lost {L : Type} (l : L) (r : List L) (s : St) :
    ∃ s', writeMultiStreamInvalid (l :: r) s = .threw s' ∧ s'.fs s.seq.fileName = some [] :=
  ⟨_, rfl, put_same _ _ _⟩

example : openWF ⟨some true, some "GZIP".toList, none⟩ = some (.invalid, .autodetect) ∧
    openWF ⟨none, some "GZIP".toList, some "ascii".toList⟩ = none := by decide

/-- The file had one byte. -/
example : ∃ s', writeMultiStreamInvalid [one] ⟨at_ false 0, put (fun _ => none) (at_ false 0).fileName [1]⟩ = .threw s' ∧
    s'.fs (at_ false 0).fileName = some [] :=
  C228_violated_lost one [] ⟨at_ false 0, put (fun _ => none) (at_ false 0).fileName [1]⟩

end QDng.Raw
