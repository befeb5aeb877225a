import Verif.FileSeq.Model
import Verif.Stream.Model

/-!
# Model of wave function files in the binary format

Sources: `/repo/src/tools/FileSingle.h` (raw files with a separate text file for the parameters),
`/repo/src/qdlib/FileWF.cpp` (wave functions with several states, options).

The file system maps names to bytes; a file can always be created and written.  The stored classes, the
text of the parameters and the compression libraries are parameters (`Kind`, `Codec`).  No input stream is
open when an operation starts.  MPI is off; zlib and bzip2 are available.  Counters do not overflow.
-/

namespace QDng.Raw

open QDng QDng.FileSeq QDng.Serial

/-- The file system. -/
abbrev Files := Str → Option (List Byte)

/-- Creating or replacing a file. -/
def put (fs : Files) (n : Str) (b : List Byte) : Files := fun m => if m = n then some b else fs m

/-- The stored classes: name of the class, parameters, bytes of the data (`begin(0)`, `sizeBytes`), the
object the module of a class creates, `Init`, reading the bytes, `NewInstance`, `Reduce`, `Restore`; the text of
the meta file with and without parsing; the entry `states`. -/
structure Kind (L P : Type) where
  cls : L → Str
  params : L → P
  data : L → List Byte
  fresh : Str → Option L
  init : L → P → Option L
  fill : L → List Byte → L
  newInstance : L → L
  reduce : L → L
  restore : L → L → L
  text : Str → P → List Byte
  parse : List Byte → Str × P
  msParams : Nat → P
  states : P → Option Int

/-- `compMethod_t` (`/repo/src/tools/FileSingle.h:179-182`). -/
inductive Method
  | zlib | bzip | uncompressed | invalid
  deriving DecidableEq, Repr

/-- The two libraries: complete compressed output and the output of decompression if the end of the
compressed data is found (`/repo/src/tools/FileSingle.h:595-758`). -/
structure Codec where
  comp : Method → List Byte → List Byte
  decomp : Method → List Byte → Option (List Byte)

/-- `ZLIB_MAGIC`, `BZIP_MAGIC` with the terminating zero (`/repo/src/tools/FileSingle.h:23-27`). -/
def magicOf : Method → List Byte
  | .zlib => [90, 76, 73, 66, 67, 79, 77, 0]
  | .bzip => [66, 90, 73, 80, 67, 79, 77, 0]
  | _ => []

/-- `METAFILE_SUFFIX` (`/repo/src/tools/FileSingle.h:51`). -/
def metaSuffix : Str := ['.', 'm', 'e', 't', 'a']

/-- `WFMultistate::Name` (`/repo/src/qdlib/WFMultistate.cpp:12,152-155`). -/
def msName : Str := "WFMultistate".toList

/-- Name, suffix, counter of the file object and the file system. -/
structure St where
  seq : Seq
  fs : Files

/-- Outcome.  The state after an exception is kept.  `stream`: the file is taken for one in the stream
format (`Verif/Stream`); `indet`: the result depends on uninitialised memory; `ub`: read beyond an object;
`fuel` only makes the recursion of the model total. -/
inductive Res (A : Type)
  | ok (a : A) (s : St)
  | threw (s : St)
  | stream (s : St)
  | indet
  | ub
  | fuel

/-! ## Writing -/

/-- `PrepareData` (`/repo/src/tools/FileSingle.h:865-888`) with `_CompressZLIB`, `_CompressBZIP`
(`/repo/src/tools/FileSingle.h:595-626,680-713`): the buffer has the size of the data, `none` is the
exception. -/
def prepare (z : Codec) (m : Method) (d : List Byte) : Option (List Byte) :=
  match m with
  | .uncompressed => some d
  | .invalid => none
  | m => if (z.comp m d).length ≤ d.length then some (z.comp m d) else none

/-- `BuildMetaFileName` (`/repo/src/tools/FileSingle.h:1387-1390`). -/
def metaName (s : Seq) : Str := s.name ++ metaSuffix

/-- `WriteWaveFunction` for a single wave function in the binary format
(`/repo/src/qdlib/FileWF.cpp:283-297`) with `WriteMeta`, `WriteData` (`/repo/src/tools/FileSingle.h:1487-1490,
1511-1519`), `WriteMetaToRaw` (`/repo/src/tools/FileSingle.h:1306-1314`), `WriteDataToRaw`
(`/repo/src/tools/FileSingle.h:1320-1366`). -/
def writeLeaf {L P : Type} (k : Kind L P) (z : Codec) (m : Method) (l : L) (s : St) : Res Unit :=
  let t := if m = .uncompressed then l else k.reduce l
  match prepare z m (k.data t) with
  | none => .threw s
  | some b =>
    let fs := put s.fs (metaName s.seq) (k.text (k.cls t) (k.params t))
    .ok () ⟨s.seq.advance, put fs s.seq.fileName (b ++ magicOf m)⟩

/-- `Name(basename + ss.str())` and `Counter(counter)` for a state
(`/repo/src/qdlib/FileWF.cpp:109-112,186-189,254-257`). -/
def stateSeq (base : Str) (c : Int) (i : Nat) (q : Seq) : Seq :=
  { q with name := base ++ ('-' :: showNat i), counter := c }

/-- The loop over the states when writing (`/repo/src/qdlib/FileWF.cpp:253-259`).  Simplification: the states
are single wave functions. -/
def writeStates {L P : Type} (k : Kind L P) (z : Codec) (m : Method) (base : Str) (c : Int) :
    Nat → List L → St → Res Unit
  | _, [], s => .ok () s
  | i, l :: r, s =>
    match writeLeaf k z m l { s with seq := stateSeq base c i s.seq } with
    | .ok _ s => writeStates k z m base c (i + 1) r s
    | e => e

/-- `WriteWaveFunction` for several states in the binary format (`/repo/src/qdlib/FileWF.cpp:242-269`) with
`WriteMeta(ParamContainer&)` (`/repo/src/tools/FileSingle.h:807-815`). -/
def writeMulti {L P : Type} (k : Kind L P) (z : Codec) (m : Method) (ls : List L) (s : St) : Res Unit :=
  if ls.length < 1 then .threw s
  else
    match writeStates k z m s.seq.name s.seq.counter 0 ls s with
    | .ok _ s' =>
      let q := { s'.seq with name := s.seq.name }
      .ok () ⟨q, put s'.fs (metaName q) (k.text msName (k.msParams ls.length))⟩
    | e => e

/-- `WriteWaveFunction` for several states in the stream format up to the first header, if the compression
method is invalid (`/repo/src/qdlib/FileWF.cpp:270-272`, `/repo/src/tools/FileSingle.h:950-967,1471-1476,
938-939`): the file is opened, which empties it, before the exception. -/
def writeMultiStreamInvalid {L : Type} (ls : List L) (s : St) : Res Unit :=
  if ls.length < 1 then .threw s
  else .threw { s with fs := put s.fs s.seq.fileName [] }

/-- Writing a list of single wave functions one after the other (`file << wf` in a loop). -/
def writeAll {L P : Type} (k : Kind L P) (z : Codec) (m : Method) : List L → St → Res Unit
  | [], s => .ok () s
  | l :: r, s =>
    match writeLeaf k z m l s with
    | .ok _ s => writeAll k z m r s
    | e => e

/-! ## Reading -/

/-- What `DetectFormat` finds. -/
inductive Det
  | missing | stream | binary | ub
  deriving DecidableEq, Repr

/-- `DetectFormat` (`/repo/src/tools/FileSingle.h:1113-1140`); the attempt to open the file is not inside
the `try` block.  The test of the intro is the one of `Verif/Stream`. -/
def detect (s : St) : Det :=
  match s.fs s.seq.fileName with
  | none => .missing
  | some b =>
    match (Stream.RS.checkIntro ⟨⟨b, false⟩, false, false⟩) with
    | .ok _ _ => .stream
    | .ub => .ub
    | _ => .binary

/-- `name.substr(0, name.rfind('_'))` (`/repo/src/tools/FileSingle.h:1224-1225`); `none`: there is no `_`. -/
def stripIdx (n : Str) : Option Str :=
  if '_' ∈ n then some ((n.reverse.dropWhile (· ≠ '_')).drop 1).reverse else none

/-- `ReadMetaFromRaw` (`/repo/src/tools/FileSingle.h:1217-1235`). -/
def readMetaRaw {L P : Type} (k : Kind L P) (s : St) : Option (Str × P) :=
  match s.fs (metaName s.seq) with
  | some b => some (k.parse b)
  | none =>
    match stripIdx (metaName s.seq) with
    | none => none
    | some n => (s.fs (n ++ metaSuffix)).map k.parse

/-- `DetectCompressionInPayload` (`/repo/src/tools/FileSingle.h:770-802`); `none` is the exception. -/
def detectComp (b : List Byte) : Option Method :=
  if b.length < 8 then none
  else if b.drop (b.length - 8) = magicOf .zlib then some .zlib
  else if b.drop (b.length - 8) = magicOf .bzip then some .bzip
  else some .uncompressed

/-- `ReadMeta` (`/repo/src/tools/FileSingle.h:1419-1438`). -/
def readMeta {L P : Type} (k : Kind L P) (s : St) : Res ((Str × P) × Method) :=
  match detect s with
  | .missing => .threw s
  | .stream => .stream s
  | .ub => .ub
  | .binary =>
    match readMetaRaw k s, (s.fs s.seq.fileName).bind detectComp with
    | some p, some m => .ok (p, m) s
    | _, _ => .threw s

/-- `ReadData` in the binary format (`/repo/src/tools/FileSingle.h:1446-1462,1101-1105`) with
`ReadDataFromRaw` (`/repo/src/tools/FileSingle.h:1243-1286`) and the functions for decompression
(`/repo/src/tools/FileSingle.h:632-671,719-758`).  Data that does not fill the object leaves uninitialised
memory. -/
def readData {L P : Type} (k : Kind L P) (z : Codec) (p : P) (m : Method) (l : L) (s : St) : Res L :=
  match k.init l p, s.fs s.seq.fileName with
  | some l, some b =>
    if (k.data l).length = 0 then .threw s
    else if m = .uncompressed then
      if b.length < (k.data l).length then .threw s
      else .ok (k.fill l (b.take (k.data l).length)) ⟨s.seq.advance, s.fs⟩
    else
      match z.decomp m b with
      | none => .threw s
      | some d =>
        if d.length > (k.data l).length then .threw s
        else if d.length < (k.data l).length then .indet
        else .ok (k.fill l d) ⟨s.seq.advance, s.fs⟩
  | _, _ => .threw s

/-- Reading a single wave function of a class (`/repo/src/qdlib/FileWF.cpp:135-151`). -/
def loadLeaf {L P : Type} (k : Kind L P) (z : Codec) (cls : Str) (p : P) (m : Method) (s : St) : Res L :=
  match k.fresh cls with
  | none => .threw s
  | some w =>
    match readData k z p m w s with
    | .ok t s => .ok (if m = .uncompressed then t else k.restore w t) s
    | e => e

mutual
/-- `LoadWaveFunctionByMeta` (`/repo/src/qdlib/FileWF.cpp:78-155`), the operator `>>` with a wave function
that does not exist yet. -/
def load {L P : Type} (k : Kind L P) (z : Codec) : Nat → St → Res (Stream.WF L)
  | 0, _ => .fuel
  | n + 1, s =>
    match readMeta k s with
    | .ok ((cls, p), m) s =>
      if cls.length ≤ 1 then .threw s
      else if cls = msName then
        match k.states p with
        | none => .indet
        | some c =>
          if c < 1 then .threw s
          else
            match loadStates k z n s.seq.name s.seq.counter 0 c.toNat s with
            | .ok ws s' => .ok (.multi ws) { s' with seq := { s'.seq with name := s.seq.name } }
            | .threw s => .threw s
            | .stream s => .stream s
            | .indet => .indet
            | .ub => .ub
            | .fuel => .fuel
      else
        match loadLeaf k z cls p m s with
        | .ok l s' => .ok (.leaf l) { s' with seq := { s'.seq with name := s.seq.name } }
        | .threw s => .threw s
        | .stream s => .stream s
        | .indet => .indet
        | .ub => .ub
        | .fuel => .fuel
    | .threw s => .threw s
    | .stream s => .stream s
    | .indet => .indet
    | .ub => .ub
    | .fuel => .fuel
/-- The loop over the states when reading (`/repo/src/qdlib/FileWF.cpp:101-117`) with `WFMultistate::Add`
(`/repo/src/qdlib/WFMultistate.cpp:43-59`); `todo` states are left.  Simplification: the sizes of the states are
not compared. -/
def loadStates {L P : Type} (k : Kind L P) (z : Codec) : Nat → Str → Int → Nat → Nat → St → Res (List (Stream.WF L))
  | 0, _, _, _, _, _ => .fuel
  | _, _, _, _, 0, s => .ok [] s
  | n + 1, base, c, i, todo + 1, s =>
    match load k z n { s with seq := stateSeq base c i s.seq } with
    | .ok w s =>
      if i + 1 ≥ 64 then .threw s
      else if w.strides > 1 then .threw s
      else
        match loadStates k z n base c (i + 1) todo s with
        | .ok ws s => .ok (w :: ws) s
        | e => e
    | .threw s => .threw s
    | .stream s => .stream s
    | .indet => .indet
    | .ub => .ub
    | .fuel => .fuel
end

/-- `ReadWaveFunction` into an existing single wave function (`/repo/src/qdlib/FileWF.cpp:212-226`). -/
def readLeaf {L P : Type} (k : Kind L P) (z : Codec) (w : L) (s : St) : Res L :=
  match readMeta k s with
  | .ok ((_, p), m) s =>
    if m = .uncompressed then readData k z p m w s
    else
      match readData k z p m (k.newInstance w) s with
      | .ok t s => .ok (k.restore w t) s
      | e => e
  | .threw s => .threw s
  | .stream s => .stream s
  | .indet => .indet
  | .ub => .ub
  | .fuel => .fuel

/-- The loop over the states of an existing wave function (`/repo/src/qdlib/FileWF.cpp:185-191`). -/
def readStates {L P : Type} (k : Kind L P) (z : Codec) (base : Str) (c : Int) : Nat → List L → St → Res (List L)
  | _, [], s => .ok [] s
  | i, w :: r, s =>
    match readLeaf k z w { s with seq := stateSeq base c i s.seq } with
    | .ok l s =>
      match readStates k z base c (i + 1) r s with
      | .ok ls s => .ok (l :: ls) s
      | e => e
    | .threw s => .threw s
    | .stream s => .stream s
    | .indet => .indet
    | .ub => .ub
    | .fuel => .fuel

/-- `ReadWaveFunction` into an existing wave function with several states
(`/repo/src/qdlib/FileWF.cpp:165-197`). -/
def readMulti {L P : Type} (k : Kind L P) (z : Codec) (ws : List L) (s : St) : Res (List L) :=
  if ws.length < 1 then .threw s
  else
    match readMeta k s with
    | .ok _ s =>
      match readStates k z s.seq.name s.seq.counter 0 ws s with
      | .ok ls s' => .ok ls { s' with seq := { s'.seq with name := s.seq.name } }
      | e => e
    | .threw s => .threw s
    | .stream s => .stream s
    | .indet => .indet
    | .ub => .ub
    | .fuel => .fuel

/-- Reading `n` wave functions one after the other (`file >> &wf` in a loop). -/
def loadAll {L P : Type} (k : Kind L P) (z : Codec) : Nat → St → Res (List (Stream.WF L))
  | 0, s => .ok [] s
  | n + 1, s =>
    match load k z 1 s with
    | .ok w s =>
      match loadAll k z n s with
      | .ok ws s => .ok (w :: ws) s
      | e => e
    | .threw s => .threw s
    | .stream s => .stream s
    | .indet => .indet
    | .ub => .ub
    | .fuel => .fuel

/-! ## Options -/

/-- `StorageType` as far as it is used for output (`/repo/src/tools/FileSingle.h:187-199`). -/
inductive Fmt
  | binary | stream | autodetect
  deriving DecidableEq, Repr

/-- The global parameters the constructor looks at. -/
structure Opts where
  compress : Option Bool
  compmethod : Option Str
  format : Option Str
  deriving DecidableEq, Repr

/-- Compression method chosen by the constructor of `FileWF` (`/repo/src/qdlib/FileWF.cpp:22-50`,
`/repo/src/qdlib/FileWF.h:11,38-43`). -/
def methodOf (o : Opts) : Method :=
  if o.compress.getD false then
    match o.compmethod with
    | none => .zlib
    | some s => if s = "ZLIB".toList then .zlib else if s = "BZIP".toList then .bzip else .invalid
  else .uncompressed

/-- The constructor of `FileWF` (`/repo/src/qdlib/FileWF.cpp:16-65`) on top of the one of `FileSingle`
(`/repo/src/tools/FileSingle.h:415-422`); `none` is the exception. -/
def openWF (o : Opts) : Option (Method × Fmt) :=
  match o.format with
  | none => some (methodOf o, .autodetect)
  | some f =>
    if f = "binary".toList then some (methodOf o, .binary)
    else if f = "stream".toList then some (methodOf o, .stream)
    else none

end QDng.Raw
