import Mathlib.Data.List.Basic

/-!
# Model of the binary serialisation of single objects

Sources: `/repo/src/qdlib/WFLevel.cpp`, `/repo/src/qdlib/OHermitianMatrix.cpp`,
`/repo/src/qdlib/Laser.cpp`, `/repo/src/qdlib/WFGridSystem.cpp`, `/repo/src/matlab/pblib_*.m`.

Floating point numbers are 64 bit patterns; the host is little endian.  An input stream is the list of
remaining bytes and the fail bit.  `Out.indet` is a normal return with an object whose contents
depend on indeterminate (uninitialised) memory, `Out.ub` an out of bounds write.
-/

namespace QDng.Serial

/-- A byte of a stream. -/
abbrev Byte := Fin 256

/-- `double` as its bit pattern. -/
abbrev Dbl := BitVec 64

/-- Number of values of `uint64_t`. -/
def W : Nat := 2 ^ 64

/-- Object representation of an unsigned integer with `n` bytes, as written by
`os.write(reinterpret_cast<char*>(&x), sizeof(x))` (`/repo/src/qdlib/WFLevel.cpp:143-144`). -/
def le : Nat → Nat → List Byte
  | 0, _ => []
  | n + 1, x => ⟨x % 256, Nat.mod_lt _ (by decide)⟩ :: le n (x / 256)

/-- The integer with the given object representation. -/
def unle : List Byte → Nat
  | [] => 0
  | b :: r => b.val + 256 * unle r

/-- Input stream: remaining bytes and fail bit. -/
structure In where
  rest : List Byte
  fail : Bool
  deriving DecidableEq, Repr

/-- `istream::read` (e.g. `/repo/src/qdlib/WFLevel.cpp:152`): the bytes stored in the target; fewer than
requested if the stream ends or has failed before. -/
def In.read (s : In) (n : Nat) : List Byte × In :=
  if s.fail then ([], s)
  else if n ≤ s.rest.length then (s.rest.take n, { rest := s.rest.drop n, fail := false })
  else (s.rest, { rest := [], fail := true })

/-- Outcome of a read function. -/
inductive Out (α : Type)
  | ok (a : α) (s : In)
  | threw
  | indet
  | ub
  deriving DecidableEq, Repr

/-- Conversion of an unsigned value to `lint` = `int` (`/repo/src/math/typedefs.h:16`). -/
def toInt32 (n : Nat) : Int :=
  if n % 2 ^ 32 < 2 ^ 31 then (n % 2 ^ 32 : Nat) else (n % 2 ^ 32 : Nat) - (2 : Int) ^ 32

/-! ## Level wave functions -/

/-- Object representation of `dcomplex` (`/repo/src/math/dcomplex.h`: two doubles). -/
def encC (z : Dbl × Dbl) : List Byte := le 8 z.1.toNat ++ le 8 z.2.toNat

/-- `n` complex numbers from their object representation. -/
def decCs : Nat → List Byte → List (Dbl × Dbl)
  | 0, _ => []
  | n + 1, bs =>
    (BitVec.ofNat 64 (unle (bs.take 8)), BitVec.ofNat 64 (unle ((bs.drop 8).take 8))) ::
      decCs n (bs.drop 16)

/-- `sizeBytes` of a complex vector with one stride (`/repo/src/math/Vector.h:356`). -/
def sizeBytes (v : List (Dbl × Dbl)) : Nat := v.length * 16

/-- `WFLevel::Serialize` (`/repo/src/qdlib/WFLevel.cpp:136-146`), vector with one stride. -/
def levelSer (v : List (Dbl × Dbl)) : List Byte :=
  le 8 v.length ++ le 8 (sizeBytes v) ++ v.flatMap encC

/-- `WFLevel::DeSerialize` (`/repo/src/qdlib/WFLevel.cpp:148-161`) with `mem` bytes of memory available.
`newsize` takes an `int` (`/repo/src/math/Vector.h:523`); a negative size makes the allocation throw
(`/repo/src/math/Vector.h:123`).  The last read stores up to `sizeb` bytes in a buffer of `16 n` bytes. -/
def levelDeser (mem : Nat) (s : In) : Out (List (Dbl × Dbl)) :=
  let (b1, s) := s.read 8
  let (b2, s) := s.read 8
  if b1.length < 8 ∨ b2.length < 8 then .indet
  else if unle b1 * 16 % W ≠ unle b2 then .threw
  else
    let n := toInt32 (unle b1)
    if n < 0 then .threw
    else if mem < 16 * n.toNat then .threw
    else
      let (b3, s) := s.read (unle b2)
      if 16 * n.toNat < b3.length then .ub
      else if b3.length < 16 * n.toNat then .indet
      else .ok (decCs n.toNat b3) s

/-! ## Real vectors: matrices and laser fields -/

/-- Object representation of real data. -/
def encDs (v : List Dbl) : List Byte := v.flatMap (fun d => le 8 d.toNat)

/-- `n` real numbers from their object representation. -/
def decDs : Nat → List Byte → List Dbl
  | 0, _ => []
  | n + 1, bs => BitVec.ofNat 64 (unle (bs.take 8)) :: decDs n (bs.drop 8)

/-- A matrix: rows, columns and the storage in column order (`/repo/src/math/Matrix.h:80-95`). -/
structure Mat where
  rows : Nat
  cols : Nat
  v : List Dbl
  deriving DecidableEq, Repr

/-- `OHermitianMatrix::Serialize` (`/repo/src/qdlib/OHermitianMatrix.cpp:279-289`). -/
def matSer (M : Mat) : List Byte := le 4 M.rows ++ le 4 M.rows ++ encDs M.v

/-- `OHermitianMatrix::DeSerialize` (`/repo/src/qdlib/OHermitianMatrix.cpp:291-302`) with
`Matrix::newsize` (`/repo/src/math/Matrix.h:80-95,140-146`): the product `m*n` is an `int`, overflow is
undefined. -/
def matDeser (mem : Nat) (s : In) : Out Mat :=
  let (b1, s) := s.read 4
  let (b2, s) := s.read 4
  if b1.length < 4 ∨ b2.length < 4 then .indet
  else
    let n := unle b2
    if 2 ^ 31 ≤ n then .ub
    else if 2 ^ 31 ≤ n * n then .ub
    else if mem < 8 * (n * n) then .threw
    else
      let (b3, s) := s.read (8 * (n * n))
      if b3.length < 8 * (n * n) then .indet
      else .ok { rows := n, cols := n, v := decDs (n * n) b3 } s

/-- A laser field: time step and samples (`/repo/src/qdlib/Laser.h`). -/
structure Field where
  dt : Dbl
  v : List Dbl
  deriving DecidableEq, Repr

/-- `dt <= 0` on the bit pattern (IEEE 754 binary64): not NaN, and zero or negative
(`/repo/src/qdlib/Laser.cpp:231`). -/
def nonPos (d : Dbl) : Bool :=
  let mag := d.toNat % 2 ^ 63
  decide (mag ≤ 0x7FF0000000000000) && (decide (mag = 0) || decide (2 ^ 63 ≤ d.toNat))

/-- `Laser::Serialize` (`/repo/src/qdlib/Laser.cpp:206-217`). -/
def laserSer (f : Field) : List Byte :=
  if f.v.length = 0 then []
  else le 8 f.v.length ++ le 8 f.dt.toNat ++ encDs f.v

/-- `Laser::DeSerialize` (`/repo/src/qdlib/Laser.cpp:219-239`). -/
def laserDeser (mem : Nat) (s : In) : Out Field :=
  let (b1, s) := s.read 8
  if b1.length < 8 then .indet
  else if unle b1 = 0 then .threw
  else
    let (b2, s) := s.read 8
    if b2.length < 8 then .indet
    else
      let dt : Dbl := BitVec.ofNat 64 (unle b2)
      if nonPos dt then .threw
      else
        let n := toInt32 (unle b1)
        if n < 0 then .threw
        else if mem < 8 * n.toNat then .threw
        else
          let (b3, s) := s.read (8 * n.toNat)
          if b3.length < 8 * n.toNat then .indet
          else .ok { dt := dt, v := decDs n.toNat b3 } s

/-! ## Grid wave functions -/

/-- Encoder and parser of a protocol buffer message (the protobuf runtime is external).  Assumed: parsing
the encoding of a message with valid field values returns the message. -/
structure Codec (H : Type) where
  enc : H → List Byte
  dec : List Byte → Option H
  valid : H → Prop
  dec_enc : ∀ h, valid h → dec (enc h) = some h

/-- `GridSystemHeader` (`/repo/src/qdlib/GridSystem.proto`); a dimension is (points, xmin, xmax). -/
structure GridHdr where
  dims : Nat
  dim : List (Nat × Dbl × Dbl)
  dataSize : Nat
  deriving DecidableEq, Repr

/-- `GridSystem::Size` (`/repo/src/qdlib/GridSystem.cpp:149-158`); `none` is access to a missing
dimension or overflow of `int`. -/
def gridSize (h : GridHdr) : Option Nat :=
  if h.dims = 0 then some 0
  else if h.dim.length < h.dims then none
  else
    let n := ((h.dim.take h.dims).map (fun d => d.1)).foldl (· * ·) 1
    if 2 ^ 31 ≤ n then none else some n

/-- `WFGridSystem::Serialize` (`/repo/src/qdlib/WFGridSystem.cpp:140-152`). -/
def gridSer (c : Codec GridHdr) (h : GridHdr) (v : List (Dbl × Dbl)) : List Byte :=
  let h' := { h with dataSize := sizeBytes v }
  le 4 (c.enc h').length ++ c.enc h' ++ v.flatMap encC

/-- `WFGridSystem::DeSerialize` (`/repo/src/qdlib/WFGridSystem.cpp:158-177`). -/
def gridDeser (c : Codec GridHdr) (mem : Nat) (s : In) : Out (GridHdr × List (Dbl × Dbl)) :=
  let (b1, s) := s.read 4
  if b1.length < 4 then .indet
  else
    let (b2, s) := s.read (unle b1)
    if b2.length < unle b1 then .indet
    else
      match c.dec b2 with
      | none => .threw
      | some h =>
        match gridSize h with
        | none => .ub
        | some n =>
          if mem < 16 * n then .threw
          else
            let (b3, s) := s.read (16 * n)
            if b3.length < 16 * n then .indet
            else .ok ({ h with dataSize := n * 16 }, decCs n b3) s

/-! ## Varints of the Matlab interface -/

/-- `pblib_write_varint` (`/repo/src/matlab/pblib_write_varint.m:74-82`).  The preallocated buffer
(lines 45-73) only matters for speed: Matlab arrays grow on assignment. -/
def writeVarint (value : Nat) : List Nat :=
  if value > 127 then (value % 128 + 128) :: writeVarint (value / 128) else [value]
termination_by value
decreasing_by omega

/-- The loops of `pblib_read_varint64` and `pblib_read_varint32`
(`/repo/src/matlab/pblib_read_varint64.m:38-46`, `/repo/src/matlab/pblib_read_varint32.m:38-46`) for words of
`bits` bits.  The first byte is the round `index = 0`.  `none` is the index error at the end of the
buffer. -/
def readLoop (bits : Nat) : List Nat → Nat → Nat → Option (Nat × Nat)
  | [], _, _ => none
  | b :: r, num, index =>
    let num := (((b % 128) <<< (7 * index)) % 2 ^ bits) ||| num
    if b > 127 then readLoop bits r num (index + 1) else some (num, index + 1)

/-- `pblib_read_varint64(buffer, offset)` (`/repo/src/matlab/pblib_read_varint64.m:1-46`), `offset`
counts from 1. -/
def readVarint64 (buffer : List Nat) (offset : Nat) : Option (Nat × Nat) :=
  readLoop 64 (buffer.drop (offset - 1)) 0 0

/-- `pblib_read_varint32(buffer, offset)` (`/repo/src/matlab/pblib_read_varint32.m:1-46`). -/
def readVarint32 (buffer : List Nat) (offset : Nat) : Option (Nat × Nat) :=
  readLoop 32 (buffer.drop (offset - 1)) 0 0

/-- `pblib_encoded_varint_size` (`/repo/src/matlab/pblib_encoded_varint_size.m:41-77`). -/
def varintSize (value : Nat) : Nat :=
  if value < 268435456 then
    if value < 16384 then
      if value < 128 then 1 else 2
    else
      if value < 2097152 then 3 else 4
  else
    if value < 4398046511104 then
      if value < 34359738368 then 5 else 6
    else
      if value < 72057594037927936 then
        if value < 562949953421312 then 7 else 8
      else
        if value < 9223372036854775808 then 9 else 10

/-- `pblib_write_tag` (`/repo/src/matlab/pblib_write_tag.m:38-39`). -/
def writeTag (number wireType : Nat) : List Nat := writeVarint (number * 8 + wireType)

/-- `pblib_read_tag` (`/repo/src/matlab/pblib_read_tag.m:38-40`). -/
def readTag (buffer : List Nat) (offset : Nat) : Option (Nat × Nat × Nat) :=
  match readVarint32 buffer offset with
  | none => none
  | some (num, n) => some (num >>> 3, num &&& 7, n)

/-- `pblib_encoded_tag_size` (`/repo/src/matlab/pblib_encoded_tag_size.m:38-39`). -/
def tagSize (number wireType : Nat) : Nat := varintSize (number * 8 + wireType)

end QDng.Serial
