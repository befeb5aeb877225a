/-
Model of src/tools/ZCopyStream.cpp: copying between memory and streams that hand out their own
buffers (`ZeroCopyOutputStream`, `ZeroCopyInputStream` of protobuf).

The streams are modelled by their documented behaviour.  `Next` of an output stream appends a buffer of
a size the stream chooses (it may be zero) to the output, with unspecified contents, or fails;
`Next` of an input stream hands out the next piece of the input or fails at its end.  `BackUp(n)` is
allowed directly behind a `Next`, for at most the size it handed out, and takes the last `n` bytes
back; anything else is undefined behaviour.
-/

namespace QDng.Zcopy

/-- Outcome: normal end, exception, undefined behaviour. -/
inductive Res (S : Type) where
  | ok (s : S)
  | threw (s : S)
  | ub
  deriving DecidableEq, Repr

/-- An output stream: its bytes so far (`none`: unspecified contents) and the sizes of the buffers it
will hand out; `Next` fails when there are none left
(parameter of src/tools/ZCopyStream.cpp:19). -/
structure OStream (B : Type) where
  bytes : List (Option B)
  sizes : List Nat

/-- The result of copying `xs` to the begin of the last `n` bytes (`memcpy` in
src/tools/ZCopyStream.cpp:32). -/
def fill {B : Type} (bytes : List (Option B)) (n : Nat) (xs : List B) : List (Option B) :=
  bytes.take (bytes.length - n) ++ (xs.map some ++ bytes.drop (bytes.length - n + xs.length))

/-- Models the loop of `WriteToZeroCopyStream` (src/tools/ZCopyStream.cpp:25-35) with the bytes that
are still to be written and the values of `buf_size` and `len` (`none`: not yet set).  The recursion
is over the buffers of the stream. -/
def writeLoop {B : Type} (bytes : List (Option B)) :
    List Nat → List B → Option (Nat × Nat) → Res (OStream B × Option (Nat × Nat))
  | sizes, [], last => .ok (⟨bytes, sizes⟩, last)
  | [], _ :: _, last => .threw (⟨bytes, []⟩, last)
  | n :: sizes, x :: rest, _ =>
    let data := x :: rest
    let bytes' := bytes ++ List.replicate n none
    let len := if n > data.length then data.length else n
    writeLoop (fill bytes' n (data.take len)) sizes (data.drop len) (some (n, len))

/-- Models `WriteToZeroCopyStream` (src/tools/ZCopyStream.cpp:19-38).  If the loop was not entered,
`buf_size` is not set and the test reads it (line 37). -/
def write {B : Type} (s : OStream B) (data : List B) : Res (OStream B) :=
  match writeLoop s.bytes s.sizes data none with
  | .ok (s', some (n, len)) =>
    if n - len > 0 then .ok { s' with bytes := s'.bytes.take (s'.bytes.length - (n - len)) } else .ok s'
  | .ok (_, none) => .ub
  | .threw (s', _) => .threw s'
  | .ub => .ub

/-- An input stream: the pieces it will hand out (parameter of src/tools/ZCopyStream.cpp:40). -/
structure IStream (B : Type) where
  pieces : List (List B)

/-- Models the loop of `ReadFromZeroCopyStream` (src/tools/ZCopyStream.cpp:46-56): the number of bytes
that are missing, the bytes read, and the last piece with the value of `len`.  The recursion is over
the pieces. -/
def readLoop {B : Type} : List (List B) → Nat → List B → (List B × Nat) →
    Res (List B × IStream B × (List B × Nat))
  | pieces, 0, acc, last => .ok (acc, ⟨pieces⟩, last)
  | [], _ + 1, acc, last => .threw (acc, ⟨[]⟩, last)
  | p :: pieces, k + 1, acc, _ =>
    let len := if p.length > k + 1 then k + 1 else p.length
    readLoop pieces (k + 1 - len) (acc ++ p.take len) (p, len)

/-- Models `ReadFromZeroCopyStream` (src/tools/ZCopyStream.cpp:40-60): the bytes and the stream
behind them. -/
def read {B : Type} (s : IStream B) (size : Nat) : Res (List B × IStream B) :=
  match readLoop s.pieces size [] ([], 0) with
  | .ok (acc, s', (p, len)) =>
    if p.length - len > 0 then .ok (acc, ⟨p.drop len :: s'.pieces⟩) else .ok (acc, s')
  | .threw (acc, s', _) => .threw (acc, s')
  | .ub => .ub

end QDng.Zcopy
