import Mathlib.Data.Nat.Notation

/-!
# Model of the names of the files of a wave function buffer

Source: `/repo/src/qdlib/WFBuffer.cpp:34-64, 73-79`.

Simplification: the random number of a buffer is a parameter; that `/dev/urandom` can be read is assumed here (otherwise
the constructor throws, lines 54 and 58).
-/

namespace QDng.BufName

/-- One digit of `%X` (`/repo/src/qdlib/WFBuffer.cpp:62, 76`). -/
def digit (d : Nat) : Char := if d < 10 then Char.ofNat (48 + d) else Char.ofNat (55 + d)

/-- The digits of a number, without leading zeros, as `%X` writes them (`/repo/src/qdlib/WFBuffer.cpp:62, 76`). -/
def digits (n : Nat) : List Nat := if n < 16 then [n] else digits (n / 16) ++ [n % 16]

/-- `sprintf(hex, "%X", n)` of a 32 bit number (`/repo/src/qdlib/WFBuffer.cpp:61-62, 75-76`): eight digits at most, so nine
characters are enough. -/
def hex (n : Nat) : List Char := (digits (n % 2 ^ 32)).map digit

/-- The directory (`/repo/src/qdlib/WFBuffer.cpp:34-44`): the parameter `tmpdir`, else the environment variable `TMPDIR`,
else nothing. -/
def dir (param env : Option (List Char)) : List Char :=
  match param with
  | some p => p
  | none =>
    match env with
    | some e => e
    | none => []

/-- The name without numbers (`/repo/src/qdlib/WFBuffer.cpp:47-50`, `DEFAULT_BUFFER_NAME` is in
`/repo/src/qdlib/WFBuffer.h:18`). -/
def base (param env : Option (List Char)) (name : List Char) : List Char :=
  if 0 < (dir param env).length then dir param env ++ ['/'] ++ name else name

/-- `_GetFileName(pos)` (`/repo/src/qdlib/WFBuffer.cpp:64, 73-79`) of a buffer with the random number `num`. -/
def fileName (param env : Option (List Char)) (name : List Char) (num pos : Nat) : List Char :=
  (base param env name ++ hex num) ++ hex pos

end QDng.BufName
