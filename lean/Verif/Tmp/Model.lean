/-
Model of the temporary file src/tools/TmpFile.h and of the pair of pipes src/tools/FIFO.cpp.

The file system maps names to contents.  Contents are lists of elements; all positions the class
uses are multiples of the size `sz` of an element in bytes, `zero` is the element of zero bytes.
Products of sizes are exact (no wraparound of `size_t`).
-/

namespace QDng.Tmp

abbrev Str := List Char

/-- The file descriptor `_fd`: none (−1), open with a position in elements, or the number of a
descriptor that was closed (src/tools/TmpFile.h:35). -/
inductive Fd where
  | none
  | live (pos : Nat)
  | stale
  deriving DecidableEq, Repr

/-- The object (src/tools/TmpFile.h:34-40) and the file system. -/
structure State (T : Type) where
  files : Str → Option (List T)
  name : Str
  fd : Fd
  size : Nat
  isOpen : Bool
  mmap : Bool

/-- Outcome: normal end with a value, or exception. -/
inductive Res (S A : Type) where
  | ok (s : S) (a : A)
  | threw (s : S)

/-- The constructor (src/tools/TmpFile.h:44). -/
def State.new {T : Type} (files : Str → Option (List T)) : State T := ⟨files, [], .none, 0, false, false⟩

/-- `lseek` to a byte, with the result stored in an `int` that is compared with −1
(src/tools/TmpFile.h:74-75, 241-242): offsets beyond 63 bits are refused by the system. -/
def seekFails (byte : Nat) : Bool := byte ≥ 2 ^ 63 ∨ byte % 2 ^ 32 = 2 ^ 32 - 1

/-- Setting the contents of a file. -/
def setFile {T : Type} (files : Str → Option (List T)) (n : Str) (c : Option (List T)) : Str → Option (List T) :=
  fun m => if m = n then c else files m

/-- Contents after a write at a position; a gap is filled with zeros (the system call `write` of
src/tools/TmpFile.h:81, 271). -/
def put {T : Type} (zero : T) (c : List T) (pos : Nat) (xs : List T) : List T :=
  (c ++ List.replicate (pos - c.length) zero).take pos ++ (xs ++ c.drop (pos + xs.length))

/-- Models `_Upsize` (src/tools/TmpFile.h:71-90); `space` tells whether the disk has space. -/
def State.upsize {T : Type} (zero : T) (sz : Nat) (space : Bool) (s : State T) (size : Nat) : Res (State T) Unit :=
  if seekFails (size * sz - 1) then .threw { s with fd := .stale, isOpen := false }
  else if !space then .threw { s with fd := .stale, isOpen := false, files := setFile s.files s.name none }
  else .ok { s with size := size, fd := .live size
                    files := setFile s.files s.name
                      (some (put zero ((s.files s.name).getD []) (size - 1) [zero])) } ()

/-- Models `Close` (src/tools/TmpFile.h:199-226). -/
def State.close {T : Type} (s : State T) (remove : Bool) : State T :=
  if !s.isOpen then s
  else { files := if remove then setFile s.files s.name none else s.files
         name := [], fd := .none, size := 0, isOpen := false, mmap := false }

/-- The pointer handed out for a mapped file: none, the mapping, or the value that stands for a failure
(src/tools/TmpFile.h:135-149). -/
inductive Ptr where
  | null
  | mapped
  | failed
  deriving DecidableEq, Repr

/-- Models `Open` (src/tools/TmpFile.h:101-152): `temp` is the answer of `mkstemp`, `mapOk` that of
`mmap`; the failure of `mmap` is compared with the wrong value. -/
def State.open {T : Type} (zero : T) (sz : Nat) (temp : Option Str) (space mapOk : Bool) (s : State T) (size : Nat)
    (memmap : Bool) : Res (State T) Ptr :=
  let s := if s.isOpen then s.close true else s
  let s := { s with size := size, mmap := memmap }
  match temp with
  | .none => .threw { s with fd := .none }
  | some n =>
    let s := { s with name := n, fd := .live 0, isOpen := true, files := setFile s.files n (some []) }
    let r := if size > 0 then s.upsize zero sz space size else .ok s ()
    match r with
    | .threw s => .threw s
    | .ok s _ =>
      if memmap then .ok s (if mapOk then .mapped else .failed) else .ok s .null

/-- Models `Resize` for a file that is not mapped (src/tools/TmpFile.h:159-195). -/
def State.resize {T : Type} (zero : T) (space : Bool) (s : State T) (size : Nat) : Res (State T) Unit :=
  if s.size = size ∨ s.isOpen = false then .ok s ()
  else if !space then .threw { s with fd := .stale, isOpen := false, files := setFile s.files s.name none }
  else
    let c := (s.files s.name).getD []
    .ok { s with files := setFile s.files s.name (some ((c ++ List.replicate (size - c.length) zero).take size)) } ()

/-- Models `Seek` (src/tools/TmpFile.h:239-247). -/
def State.seek {T : Type} (sz : Nat) (s : State T) (pos : Nat) : Res (State T) Unit :=
  match s.fd with
  | .live _ => if seekFails (pos * sz) then .threw { s with fd := .stale, isOpen := false }
    else .ok { s with fd := .live pos } ()
  | .none => .threw { s with isOpen := false }
  | .stale => .threw { s with isOpen := false }

/-- Models `Read` (src/tools/TmpFile.h:252-262): the elements and the number that is returned. -/
def State.read {T : Type} (sz : Nat) (s : State T) (count : Nat) : Res (State T) (List T × Nat) :=
  match s.fd with
  | .live pos =>
    let got := (((s.files s.name).getD []).drop pos).take count
    if got.length ≠ count then .threw { s with fd := .stale, isOpen := false }
    else .ok { s with fd := .live (pos + count) } (got, count * sz)
  | .none => .threw { s with isOpen := false }
  | .stale => .threw { s with isOpen := false }

/-- Models `Write` (src/tools/TmpFile.h:267-276); `space` tells whether the disk has space. -/
def State.write {T : Type} (zero : T) (space : Bool) (s : State T) (xs : List T) : Res (State T) Unit :=
  match s.fd with
  | .live pos =>
    if !space then .threw { s with fd := .stale, isOpen := false }
    else .ok { s with fd := .live (pos + xs.length)
                      files := setFile s.files s.name (some (put zero ((s.files s.name).getD []) pos xs)) } ()
  | .none => .threw { s with isOpen := false }
  | .stale => .threw { s with isOpen := false }

/-- The destructor (src/tools/TmpFile.h:65-69). -/
def State.destroy {T : Type} (s : State T) : State T := s.close true

/-- A call of a method (src/tools/TmpFile.h:48-57) with the answers of the system. -/
inductive Call (T : Type) where
  | open (temp : Option Str) (space mapOk : Bool) (size : Nat) (memmap : Bool)
  | close (remove : Bool)
  | resize (space : Bool) (size : Nat)
  | seek (pos : Nat)
  | read (count : Nat)
  | write (space : Bool) (xs : List T)

/-- One call: the state afterwards and whether it ended normally (src/tools/TmpFile.h:48-57). -/
def State.call {T : Type} (zero : T) (sz : Nat) (s : State T) : Call T → State T × Bool
  | .open temp space mapOk size memmap =>
    match s.open zero sz temp space mapOk size memmap with
    | .ok s _ => (s, true)
    | .threw s => (s, false)
  | .close remove => (s.close remove, true)
  | .resize space size =>
    match s.resize zero space size with
    | .ok s _ => (s, true)
    | .threw s => (s, false)
  | .seek pos =>
    match s.seek sz pos with
    | .ok s _ => (s, true)
    | .threw s => (s, false)
  | .read count =>
    match s.read sz count with
    | .ok s _ => (s, true)
    | .threw s => (s, false)
  | .write space xs =>
    match s.write zero space xs with
    | .ok s _ => (s, true)
    | .threw s => (s, false)

/-! ### The pair of pipes -/

/-- Models `FIFO::_Open` (src/tools/FIFO.cpp:26-53) on the set of names that exist; `can` tells whether
the pipes can be opened after their creation.  An exception leaves the constructor, so the destructor is
not called. -/
def fifoOpen (can : Bool) (names : Str → Bool) (name : Str) : (Str → Bool) × Bool :=
  let rx := name ++ "rx".toList
  let tx := name ++ "tx".toList
  if names rx then (names, false)
  else
    let names := fun n => if n = rx then true else names n
    if names tx then (names, false)
    else
      let names := fun n => if n = tx then true else names n
      (names, can)

/-- The name of a pipe without given path (src/tools/FIFO.cpp:58-82, FIFO.h:21). -/
def fifoName (tmpdir : Option Str) (env : Option Str) : Str :=
  let d := match tmpdir with
    | some d => d
    | none => env.getD []
  if d.length > 0 then d ++ "/".toList ++ "QDng_cmd_XXXXXX".toList else "QDng_cmd_XXXXXX".toList

/-- The destructor (src/tools/FIFO.cpp:94-102). -/
def fifoDestroy (names : Str → Bool) (name : Str) : Str → Bool :=
  fun n => if n = name ++ "rx".toList ∨ n = name ++ "tx".toList then false else names n

end QDng.Tmp
