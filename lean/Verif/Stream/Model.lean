import Verif.Wire.Props

/-!
# Model of the framed binary streams

Sources: `/repo/src/tools/FileSingle.h` (stream format), `/repo/src/qdlib/FileWF.cpp`,
`/repo/src/qdlib/WFMultistate.cpp`.

The stream is given by the caller and stays open (`_our_in_stream`, `_our_out_stream` false), as in the
interactive mode; a file is the same with a stream that is opened at the intro and closed after the last record.
The header message is encoded in the wire format of `Verif/Wire`.  The classes that are stored are a
parameter (`Kind`), zlib as well (`Zlib`).  Memory for the buffers is always available.
-/

namespace QDng.Stream

open QDng.Serial QDng.Wire

/-- The storable classes: name of the class, parameters as text, `Serialize`, loading the module of a
class name and `DeSerialize`, and the object a module creates before anything is read (`none`: no module). -/
structure Kind (L : Type) where
  cls : L → List Nat
  params : L → List Nat
  ser : L → List Byte
  deser : List Nat → In → Out L
  fresh : List Nat → Option L

/-- zlib as used through `GzipOutputStream` and `GzipInputStream`
(`/repo/src/tools/FileSingle.h:906-935,1163-1177`); `decomp` is the output until the first failure. -/
structure Zlib where
  comp : List Byte → List Byte
  decomp : List Byte → List Byte

/-- `PBUF_MAGIC` with the terminating zero (`/repo/src/tools/FileSingle.h:53,143-146`). -/
def magic : List Byte := [81, 68, 110, 103, 80, 114, 116, 111, 66, 117, 102, 0]

/-- `PbufHeader` as constructed (`/repo/src/tools/FileSingle.h:54,141-147`). -/
def intro : List Byte := magic ++ le 4 1

/-- The bytes of "WFMultistate" (`/repo/src/qdlib/FileWF.cpp:90`). -/
def msName : List Nat := [87, 70, 77, 117, 108, 116, 105, 115, 116, 97, 116, 101]

/-! ## Writer -/

/-- Writer state: bytes written and `_intro_written`. -/
structure WS where
  out : List Byte
  introWritten : Bool
  deriving DecidableEq, Repr

/-- `WriteIntroToStream` (`/repo/src/tools/FileSingle.h:950-976`) on an open stream. -/
def WS.writeIntro (st : WS) : WS :=
  if st.introWritten then st else { out := st.out ++ intro, introWritten := true }

/-- `WriteMetaToStream` (`/repo/src/tools/FileSingle.h:821-859`): length of the header (`uint32_t`) and header. -/
def WS.writeHdr (st : WS) (h : FileHdr) : WS :=
  { st with out := st.out ++ (le 4 (encFields (fileFields h)).length ++ toBytes (encFields (fileFields h))) }

/-- `PrepareStreamPayload` (`/repo/src/tools/FileSingle.h:894-944`). -/
def payload (z : Zlib) (comp : Compression) (data : List Byte) : List Byte :=
  match comp with
  | .uncompressed => data
  | .zlib => z.comp data
  | .bzip => z.comp data

/-- The compression entry of the header: BZIP is written as ZLIB (`/repo/src/tools/FileSingle.h:840-848`). -/
def hdrComp : Compression → Compression
  | .uncompressed => .uncompressed
  | .zlib => .zlib
  | .bzip => .zlib

/-- `WriteMeta` in the stream format (`/repo/src/tools/FileSingle.h:1472-1488`): intro if needed, header,
payload; the stream is finalised (`/repo/src/tools/FileSingle.h:989-999`) if nothing follows. -/
def WS.writeMeta (z : Zlib) (comp : Compression) (name cls params : List Nat) (data : List Byte)
    (more : Bool) (st : WS) : WS :=
  let st := st.writeIntro
  let p := payload z comp data
  let st := st.writeHdr { more := more, cls := cls, name := name, metaData := params,
                          payloadSize := p.length, compression := hdrComp comp }
  let st := { st with out := st.out ++ p }
  if more then st else { st with introWritten := false }

/-- `WriteFile` in the stream format: `WriteSingleFileToStream` (`/repo/src/tools/FileSingle.h:1005-1021`). -/
def writeFile {L : Type} (k : Kind L) (z : Zlib) (comp : Compression) (name : List Nat) (l : L) (st : WS) : WS :=
  st.writeMeta z comp name (k.cls l) (k.params l) (k.ser l) false

/-! ## Reader -/

/-- Reader state: stream, `_intro_read` and `more_files_follow` of the last header. -/
structure RS where
  inp : In
  introRead : Bool
  more : Bool
  deriving DecidableEq, Repr

/-- Outcome of the reader; `fuel` is only used to make the recursion of the model total. -/
inductive ROut (α : Type)
  | ok (a : α) (s : RS)
  | threw
  | indet
  | ub
  | fuel
  deriving DecidableEq, Repr

/-- `string(const char*)`: the bytes before the first zero; `none` if there is none (reading past the
object is undefined). -/
def cstr : List Byte → Option (List Byte)
  | [] => none
  | b :: r => if b = 0 then some [] else (cstr r).map (b :: ·)

/-- `CheckIntroFromStream` (`/repo/src/tools/FileSingle.h:1051-1069`).  The bytes are read over a valid
intro. -/
def RS.checkIntro (s : RS) : ROut Unit :=
  if s.introRead then .ok () s
  else
    let (b, inp) := s.inp.read 16
    let full := b ++ intro.drop b.length
    match cstr full with
    | none => .ub
    | some m =>
      if m ≠ magic.dropLast then .threw
      else if unle (full.drop 12) ≠ 1 then .threw
      else .ok () { s with inp := inp, introRead := true }

/-- `ReadMetaFromStream` (`/repo/src/tools/FileSingle.h:1075-1095`): the length is initialised with 0, the
buffer is not initialised. -/
def RS.readMeta (s : RS) : ROut FileHdr :=
  let (b1, inp) := s.inp.read 4
  let (b2, inp) := inp.read (unle b1)
  if b2.length < unle b1 then .indet
  else
    match fileOf (ofBytes b2) with
    | none => .threw
    | some h => .ok h { s with inp := inp, more := h.more }

/-- End of `ReadDataFromStream` (`/repo/src/tools/FileSingle.h:1183-1186`). -/
def RS.endData (s : RS) (h : FileHdr) : RS := if h.more then s else { s with introRead := false }

/-- `ReadDataFromStream` (`/repo/src/tools/FileSingle.h:1146-1196`) into a new object of the class. -/
def RS.readData {L : Type} (k : Kind L) (z : Zlib) (h : FileHdr) (s : RS) : ROut L :=
  if h.payloadSize > 0 then
    match h.compression with
    | .uncompressed =>
      match k.deser h.cls s.inp with
      | .ok l inp => .ok l ({ s with inp := inp }.endData h)
      | .threw => .threw
      | .indet => .indet
      | .ub => .ub
    | _ =>
      let (b, inp) := s.inp.read h.payloadSize
      if b.length ≠ h.payloadSize then .threw
      else
        match k.deser h.cls { rest := z.decomp b, fail := false } with
        | .ok l _ => .ok l ({ s with inp := inp }.endData h)
        | .threw => .threw
        | .indet => .indet
        | .ub => .ub
  else
    match k.fresh h.cls with
    | none => .threw
    | some l => .ok l (s.endData h)

/-- `ReadFile` in the stream format: `ReadSingleFileFromStream` (`/repo/src/tools/FileSingle.h:1203-1210`).
The class of the object is given by the caller; here it is the one of the header. -/
def readFile {L : Type} (k : Kind L) (z : Zlib) (s : RS) : ROut L :=
  match s.checkIntro with
  | .ok _ s =>
    match s.readMeta with
    | .ok h s => s.readData k z h
    | .threw => .threw
    | .indet => .indet
    | .ub => .ub
    | .fuel => .fuel
  | .threw => .threw
  | .indet => .indet
  | .ub => .ub
  | .fuel => .fuel

/-- Writing several objects to one stream. -/
def writeFiles {L : Type} (k : Kind L) (z : Zlib) (comp : Compression) (name : List Nat) : List L → WS → WS
  | [], st => st
  | l :: r, st => writeFiles k z comp name r (writeFile k z comp name l st)

/-- Reading `n` objects from one stream. -/
def readFiles {L : Type} (k : Kind L) (z : Zlib) : Nat → RS → ROut (List L)
  | 0, s => .ok [] s
  | n + 1, s =>
    match readFile k z s with
    | .ok l s =>
      match readFiles k z n s with
      | .ok r s => .ok (l :: r) s
      | .threw => .threw
      | .indet => .indet
      | .ub => .ub
      | .fuel => .fuel
    | .threw => .threw
    | .indet => .indet
    | .ub => .ub
    | .fuel => .fuel

/-! ## Wave functions -/

/-- A wave function: a single one or a multi state (`/repo/src/qdlib/WFMultistate.h:20-30`). -/
inductive WF (L : Type)
  | leaf (l : L)
  | multi (states : List (WF L))
  deriving Repr

/-- `strides()`: number of states of a multi state (`/repo/src/qdlib/WFMultistate.cpp:125-135`), 1 else. -/
def WF.strides {L : Type} : WF L → Nat
  | .leaf _ => 1
  | .multi ss => ss.length

mutual
/-- `WriteWaveFunction` in the stream format without compression (`/repo/src/qdlib/FileWF.cpp:236-298`).
`none` is the exception for an empty multi state.  `msParams` are the parameters of a multi state. -/
def writeWF {L : Type} (k : Kind L) (z : Zlib) (name msParams : List Nat) : WF L → Bool → WS → Option WS
  | .leaf l, more, st => some (st.writeMeta z .uncompressed name (k.cls l) (k.params l) (k.ser l) more)
  | .multi ss, more, st =>
    if ss.length < 1 then none
    else writeStates k z name msParams ss more
      (st.writeMeta z .uncompressed name msName msParams (le 4 ss.length) true)
/-- The loop over the states (`/repo/src/qdlib/FileWF.cpp:273-280`). -/
def writeStates {L : Type} (k : Kind L) (z : Zlib) (name msParams : List Nat) :
    List (WF L) → Bool → WS → Option WS
  | [], _, st => some st
  | w :: r, more, st =>
    match writeWF k z name msParams w (if r.isEmpty && !more then false else true) st with
    | none => none
    | some st => writeStates k z name msParams r more st
end

/-- The dummy read of a multi state (`/repo/src/qdlib/FileWF.cpp:120`,
`/repo/src/qdlib/WFMultistate.cpp:288-293`): the number of states is read and ignored. -/
def RS.dummyRead (h : FileHdr) (s : RS) : ROut Unit :=
  if h.payloadSize > 0 then
    match h.compression with
    | .uncompressed => .ok () ({ s with inp := (s.inp.read 4).2 }.endData h)
    | _ =>
      let (b, inp) := s.inp.read h.payloadSize
      if b.length ≠ h.payloadSize then .threw else .ok () ({ s with inp := inp }.endData h)
  else .ok () (s.endData h)

mutual
/-- `LoadWaveFunctionByMeta` in the stream format (`/repo/src/qdlib/FileWF.cpp:78-155`).  Simplification:
`Restore` after reading compressed data (lossy storage) is not applied. -/
def loadWF {L : Type} (k : Kind L) (z : Zlib) : Nat → RS → ROut (WF L)
  | 0, _ => .fuel
  | n + 1, s =>
    match s.checkIntro with
    | .ok _ s =>
      match s.readMeta with
      | .ok h s =>
        if h.cls.length ≤ 1 then .threw
        else if h.cls = msName then
          match s.dummyRead h with
          | .ok _ s => loadStates k z n s []
          | .threw => .threw
          | .indet => .indet
          | .ub => .ub
          | .fuel => .fuel
        else
          match s.readData k z h with
          | .ok l s => .ok (.leaf l) s
          | .threw => .threw
          | .indet => .indet
          | .ub => .ub
          | .fuel => .fuel
      | .threw => .threw
      | .indet => .indet
      | .ub => .ub
      | .fuel => .fuel
    | .threw => .threw
    | .indet => .indet
    | .ub => .ub
    | .fuel => .fuel
/-- The loop over the following records (`/repo/src/qdlib/FileWF.cpp:124-131`) with `WFMultistate::Add`
(`/repo/src/qdlib/WFMultistate.cpp:43-59`) and `WFMultistate::Init(int)`
(`/repo/src/qdlib/WFMultistate.cpp:89-139`), which throws if there is no state. -/
def loadStates {L : Type} (k : Kind L) (z : Zlib) : Nat → RS → List (WF L) → ROut (WF L)
  | 0, _, _ => .fuel
  | n + 1, s, acc =>
    if s.more then
      match loadWF k z n s with
      | .ok w s =>
        if acc.length + 1 ≥ 64 then .threw
        else if w.strides > 1 then .threw
        else loadStates k z n s (acc ++ [w])
      | .threw => .threw
      | .indet => .indet
      | .ub => .ub
      | .fuel => .fuel
    else if acc = [] then .threw
    else .ok (.multi acc) s
end

end QDng.Stream
