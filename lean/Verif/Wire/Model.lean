import Verif.Serial.Props

/-!
# Model of the protocol buffer messages

Sources: `/repo/src/matlab/pblib_generic_serialize_to_string.m`, `/repo/src/matlab/pblib_generic_parse_from_string.m`,
`/repo/src/matlab/pblib_write_wire_type.m`, `/repo/src/matlab/pblib_read_wire_type.m` and the message definitions
`/repo/src/qdlib/GridSystem.proto`, `/repo/src/tools/FileSingleHeader.proto`.  The C++ side uses the
protobuf runtime, which is not part of the repository; it is assumed to implement the same wire format.
-/

namespace QDng.Wire

open QDng.Serial

/-- Value of a field on the wire; bytes are numbers below 256. -/
inductive WireVal
  | varint (n : Nat)
  | fixed64 (bs : List Nat)
  | bytes (bs : List Nat)
  | fixed32 (bs : List Nat)
  deriving DecidableEq, Repr

/-- The wire type numbers (`/repo/src/matlab/pblib_write_wire_type.m:51-65`). -/
def WireVal.type : WireVal → Nat
  | .varint _ => 0
  | .fixed64 _ => 1
  | .bytes _ => 2
  | .fixed32 _ => 5

/-- `pblib_write_wire_type` (`/repo/src/matlab/pblib_write_wire_type.m:51-65`). -/
def writeWire : WireVal → List Nat
  | .varint n => writeVarint n
  | .fixed64 bs => bs
  | .bytes bs => writeVarint bs.length ++ bs
  | .fixed32 bs => bs

/-- `pblib_read_wire_type` (`/repo/src/matlab/pblib_read_wire_type.m:49-72`) on the buffer from the offset;
result is the value and the number of bytes read, `none` is an error.  Simplification: a length that
runs over the end of the buffer is an error here, the code raises it when the value is extracted. -/
def readWire (bs : List Nat) (wt : Nat) : Option (WireVal × Nat) :=
  if wt = 0 then (readVarint64 bs 1).map (fun x => (.varint x.1, x.2))
  else if wt = 1 then if 8 ≤ bs.length then some (.fixed64 (bs.take 8), 8) else none
  else if wt = 2 then
    match readVarint32 bs 1 with
    | none => none
    | some (len, ll) =>
      if ll + len ≤ bs.length then some (.bytes ((bs.drop ll).take len), ll + len) else none
  else if wt = 5 then if 4 ≤ bs.length then some (.fixed32 (bs.take 4), 4) else none
  else none

/-- A field of a message: number and value. -/
abbrev WField := Nat × WireVal

/-- The loop of `pblib_generic_serialize_to_string` over the present fields in descriptor order, repeated
fields one entry each (`/repo/src/matlab/pblib_generic_serialize_to_string.m:45-86`, not packed). -/
def encFields : List WField → List Nat
  | [] => []
  | (n, v) :: r => writeTag n v.type ++ writeWire v ++ encFields r

/-- The loop of `pblib_generic_parse_from_string` (`/repo/src/matlab/pblib_generic_parse_from_string.m:65-105`);
every round consumes at least one byte, so the number of bytes bounds the rounds (`fuel`). -/
def parseFields : Nat → List Nat → Option (List WField)
  | _, [] => some []
  | 0, _ :: _ => none
  | fuel + 1, b :: bs =>
    match readTag (b :: bs) 1 with
    | none => none
    | some (num, wt, k) =>
      match readWire ((b :: bs).drop k) wt with
      | none => none
      | some (v, m) =>
        match parseFields fuel ((b :: bs).drop (k + m)) with
        | none => none
        | some r => some ((num, v) :: r)

/-- Parsing a whole buffer. -/
def parse (bs : List Nat) : Option (List WField) := parseFields bs.length bs

/-- Conversion of numbers below 256 to bytes. -/
def toBytes (l : List Nat) : List Byte := l.map (fun n => Fin.ofNat 256 n)

/-- Conversion of bytes to numbers. -/
def ofBytes (l : List Byte) : List Nat := l.map (fun b => b.val)

/-- Last varint with a field number (`/repo/src/matlab/pblib_generic_parse_from_string.m:95`: a later
value replaces an earlier one). -/
def lastVarint (n : Nat) : List WField → Option Nat
  | [] => none
  | (k, v) :: r =>
    match lastVarint n r with
    | some x => some x
    | none => match v with
      | .varint x => if k = n then some x else none
      | _ => none

/-- Last byte string with a field number. -/
def lastBytes (n : Nat) : List WField → Option (List Nat)
  | [] => none
  | (k, v) :: r =>
    match lastBytes n r with
    | some x => some x
    | none => match v with
      | .bytes x => if k = n then some x else none
      | _ => none

/-- Last 64 bit word with a field number. -/
def lastFixed (n : Nat) : List WField → Option (List Nat)
  | [] => none
  | (k, v) :: r =>
    match lastFixed n r with
    | some x => some x
    | none => match v with
      | .fixed64 x => if k = n then some x else none
      | _ => none

/-- All byte strings with a field number in order (`/repo/src/matlab/pblib_generic_parse_from_string.m:78-93`). -/
def allBytes (n : Nat) : List WField → List (List Nat)
  | [] => []
  | (k, v) :: r => match v with
    | .bytes x => if k = n then x :: allBytes n r else allBytes n r
    | _ => allBytes n r

/-! ## Grid header -/

/-- Message `dim_description_t` (`/repo/src/qdlib/GridSystem.proto:10-14`). -/
def dimFields (d : Nat × Dbl × Dbl) : List WField :=
  [(1, .varint d.1), (2, .fixed64 (ofBytes (le 8 d.2.1.toNat))), (3, .fixed64 (ofBytes (le 8 d.2.2.toNat)))]

/-- Message `GridSystemHeader` (`/repo/src/qdlib/GridSystem.proto:6-17`). -/
def gridFields (h : GridHdr) : List WField :=
  (1, .varint h.dims) :: (h.dim.map (fun d => ((2 : Nat), WireVal.bytes (encFields (dimFields d))))
    ++ [(3, .varint h.dataSize)])

/-- Reading of a dimension; the fields are required (`/repo/src/qdlib/GridSystem.proto:11-13`). -/
def dimOf (bs : List Nat) : Option (Nat × Dbl × Dbl) :=
  match parse bs with
  | none => none
  | some fs =>
    match lastVarint 1 fs, lastFixed 2 fs, lastFixed 3 fs with
    | some n, some a, some b => some (n, BitVec.ofNat 64 (unle (toBytes a)), BitVec.ofNat 64 (unle (toBytes b)))
    | _, _, _ => none

/-- Reading of the grid header; `dims` is required, `data_size` has default 0. -/
def gridOf (bs : List Nat) : Option GridHdr :=
  match parse bs with
  | none => none
  | some fs =>
    match lastVarint 1 fs, (allBytes 2 fs).mapM dimOf with
    | some n, some ds => some { dims := n, dim := ds, dataSize := (lastVarint 3 fs).getD 0 }
    | _, _ => none

/-! ## File header -/

/-- Compression of the payload (`/repo/src/tools/FileSingleHeader.proto:15-19`). -/
inductive Compression
  | uncompressed | zlib | bzip
  deriving DecidableEq, Repr

/-- `FileSingleHeader` (`/repo/src/tools/FileSingleHeader.proto:8-21`); texts are byte strings,
`sequence_number` and `sub_header` are never set by the code. -/
structure FileHdr where
  more : Bool
  cls : List Nat
  name : List Nat
  metaData : List Nat
  payloadSize : Nat
  compression : Compression
  deriving DecidableEq, Repr

/-- Enum values (`/repo/src/tools/FileSingleHeader.proto:16-18`). -/
def Compression.code : Compression → Nat
  | .uncompressed => 0
  | .zlib => 1
  | .bzip => 2

/-- Enum value to compression; other values are unknown and ignored by proto2 parsers. -/
def Compression.ofCode : Nat → Option Compression
  | 0 => some .uncompressed
  | 1 => some .zlib
  | 2 => some .bzip
  | _ => none

/-- The fields as set by `WriteMetaToStream` (`/repo/src/tools/FileSingle.h:821-851`). -/
def fileFields (h : FileHdr) : List WField :=
  [(1, .varint (if h.more then 1 else 0)), (2, .bytes h.cls), (3, .bytes h.name), (5, .bytes h.metaData),
    (6, .varint h.payloadSize), (7, .varint h.compression.code)]

/-- Reading of the file header: fields 1, 2, 6, 7 are required (`/repo/src/tools/FileSingleHeader.proto:9-15`). -/
def fileOf (bs : List Nat) : Option FileHdr :=
  match parse bs with
  | none => none
  | some fs =>
    match lastVarint 1 fs, lastBytes 2 fs, lastVarint 6 fs, (lastVarint 7 fs).bind Compression.ofCode with
    | some m, some c, some p, some z =>
      some { more := decide (m ≠ 0), cls := c, name := (lastBytes 3 fs).getD [],
             metaData := (lastBytes 5 fs).getD [], payloadSize := p, compression := z }
    | _, _, _, _ => none

end QDng.Wire
