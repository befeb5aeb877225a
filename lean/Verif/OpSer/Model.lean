import Verif.Serial.Model

/-!
# Model of the serialisation of operators on a grid

Source: `/repo/src/qdlib/OGridsystem.cpp:63-95`; streams, numbers and headers are those of `Verif.Serial`, with the same
simplifications.
-/

namespace QDng.OpSer

open QDng.Serial

/-- `sizeBytes` of a real vector (`/repo/src/math/Vector.h:356`). -/
def sizeBytesD (v : List Dbl) : Nat := v.length * 8

/-- `OGridSystem::Serialize` (`/repo/src/qdlib/OGridsystem.cpp:63-76`). -/
def opSer (c : Codec GridHdr) (h : GridHdr) (v : List Dbl) : List Byte :=
  let h' := { h with dataSize := sizeBytesD v }
  le 4 (c.enc h').length ++ c.enc h' ++ encDs v

/-- `OGridSystem::DeSerialize` (`/repo/src/qdlib/OGridsystem.cpp:78-95`). -/
def opDeser (c : Codec GridHdr) (mem : Nat) (s : In) : Out (GridHdr × List Dbl) :=
  let (b1, s) := s.read 4
  if b1.length < 4 then .indet
  else
    let (b2, s) := s.read (unle b1)
    if b2.length < unle b1 then .indet
    else
      match c.dec b2 with
      | none => .threw
      | some h =>
        match gridSize h with
        | none => .ub
        | some n =>
          if mem < 8 * n then .threw
          else
            let (b3, s) := s.read (8 * n)
            if b3.length < 8 * n then .indet
            else .ok ({ h with dataSize := n * 8 }, decDs n b3) s

end QDng.OpSer
