import Verif.Common.Outcome

/-
Model of the wave function buffer, src/qdlib/WFBuffer.cpp.

Every slot holds a pointer to a wave function in memory (`psi`, `none` is the null pointer), a lock flag and the
note that a file exists.  The files are a map from slots to contents; writing and reading them is assumed to
preserve the content (see Verif.Stream and Verif.Serial).  All wave functions have the same size in bytes.  The
counters `_locked` and `_ondisk` are only ever written and are left out.  A vector access out of range and the
use of a null pointer are undefined behaviour.
-/

namespace QDng.Buffer

open QDng.Common

/-- `BufMap` (src/qdlib/WFBuffer.h:35-40). -/
structure Slot (V : Type) where
  psi : Option V
  locked : Bool
  ondisk : Bool
  deriving DecidableEq

/-- A new slot (src/qdlib/WFBuffer.h:39). -/
def Slot.new {V : Type} : Slot V := { psi := none, locked := false, ondisk := false }

/-- The buffer (src/qdlib/WFBuffer.h:42-53): `lastLocks` is `_LastLocks`, `maxBuf` is `_MaxBuf`, `last` is
`_LastAccess`, `slots` is `_buf`; `disk` are the files; `size` is the size of a wave function in bytes. -/
structure Buf (V : Type) where
  lastLocks : Nat
  maxBuf : Nat
  size : Nat
  last : List Nat
  slots : List (Slot V)
  disk : Nat → Option V

/-- Constructor (src/qdlib/WFBuffer.cpp:16-17). -/
def Buf.new {V : Type} (maxBuf size : Nat) : Buf V :=
  { lastLocks := 2, maxBuf := maxBuf, size := size, last := [], slots := [], disk := fun _ => none }

/-- `_BytesInMem()` (src/qdlib/WFBuffer.cpp:81-89). -/
def Buf.bytes {V : Type} (b : Buf V) : Nat :=
  b.slots.foldl (fun n s => match s.psi with | some _ => n + b.size | none => n) 0

/-- `_ValidEntry() != NULL` (src/qdlib/WFBuffer.cpp:95-101). -/
def Buf.validEntry {V : Type} (b : Buf V) : Bool := b.slots.any fun s => s.psi.isSome

/-- The search in `_MoveToDisk` (src/qdlib/WFBuffer.cpp:121-122): the largest slot number, from `i` down to one,
of a slot in memory that is not locked. -/
def Buf.victim {V : Type} (b : Buf V) : Nat → Option Nat
  | 0 => none
  | i + 1 =>
    match b.slots[i + 1]? with
    | some s => if s.psi.isSome && !s.locked then some (i + 1) else b.victim i
    | none => b.victim i

/-- `_MoveToDisk()` (src/qdlib/WFBuffer.cpp:119-139).  It is only called with at least one slot. -/
def Buf.moveToDisk {V : Type} (b : Buf V) : Buf V :=
  match b.victim (b.slots.length - 1) with
  | none => b
  | some i =>
    match b.slots[i]? with
    | none => b
    | some s =>
      { b with
        disk := fun j => if j = i then s.psi else b.disk j
        slots := b.slots.set i { s with ondisk := true, psi := none } }

/-- `_MoveToDisk()` if the budget is used up (src/qdlib/WFBuffer.cpp:232-234, 243-245, 271-273, 280-282). -/
def Buf.makeRoom {V : Type} (b : Buf V) : Buf V := if b.bytes ≥ b.maxBuf then b.moveToDisk else b

/-- Assignment to one slot of `_buf`, for instance (src/qdlib/WFBuffer.cpp:262). -/
def Buf.update {V : Type} (b : Buf V) (pos : Nat) (f : Slot V → Slot V) : Buf V :=
  { b with slots := b.slots.modify pos f }

/-- `_buf.resize(n)` for a larger number (src/qdlib/WFBuffer.cpp:184, 228). -/
def Buf.enlarge {V : Type} (b : Buf V) (n : Nat) : Buf V :=
  { b with slots := b.slots ++ List.replicate (n - b.slots.length) Slot.new }

/-- `Init(Psi)` (src/qdlib/WFBuffer.cpp:192-217) with a wave function of the common size; `blank` is the content
of a new instance. -/
def Buf.init {V : Type} (b : Buf V) (blank : V) : Out (Buf V) :=
  if b.maxBuf > 0 ∧ b.maxBuf < b.size then .threw b
  else if b.slots.length = 0 then .ok { b with slots := [{ (Slot.new : Slot V) with psi := some blank }] }
  else .ok b

/-- The final check of the budget (src/qdlib/WFBuffer.cpp:247-249, 284-286, 356-357). -/
def Buf.check {V : Type} (b : Buf V) : Out (Buf V) := if b.bytes > b.maxBuf then .threw b else .ok b

/-- The statements of `Set` before the final check (src/qdlib/WFBuffer.cpp:226-245). -/
def Buf.store {V : Type} (b : Buf V) (pos : Nat) (v : V) : Buf V :=
  (((if pos ≥ b.slots.length then b.enlarge (pos + 1) else b).makeRoom).update pos
    fun s => { s with psi := some v }).makeRoom

/-- `Set(pos, Psi)` (src/qdlib/WFBuffer.cpp:224-250). -/
def Buf.set {V : Type} (b : Buf V) (pos : Nat) (v : V) : Out (Buf V) := (b.store pos v).check

/-- `Add(Psi)` (src/qdlib/WFBuffer.cpp:252-255). -/
def Buf.add {V : Type} (b : Buf V) (v : V) : Out (Buf V) := b.set b.slots.length v

/-- What `Get` gives back: the buffer and the content behind the pointer returned (`none`: null pointer), an
exception, or undefined behaviour (src/qdlib/WFBuffer.cpp:257-290). -/
inductive Got (V : Type) where
  | ok (b : Buf V) (p : Option V)
  | threw (b : Buf V)
  | ub

/-- A position is noted as the latest one (src/qdlib/WFBuffer.cpp:264). -/
def Buf.remember {V : Type} (b : Buf V) (pos : Nat) : Buf V :=
  if b.lastLocks > 0 then { b with last := pos :: b.last } else b

/-- The oldest position is unlocked when there are too many (src/qdlib/WFBuffer.cpp:265-268). -/
def Buf.forget {V : Type} (b : Buf V) : Buf V :=
  if b.last.length > b.lastLocks then
    match b.last.getLast? with
    | some q => { b.update q (fun s => { s with locked := false }) with last := b.last.dropLast }
    | none => b
  else b

/-- The book keeping at the start of `Get` (src/qdlib/WFBuffer.cpp:262-268). -/
def Buf.touch {V : Type} (b : Buf V) (pos : Nat) : Buf V :=
  ((b.update pos fun s => { s with locked := true }).remember pos).forget

/-- The content a slot receives in `Get` when it is not in memory (src/qdlib/WFBuffer.cpp:275-278, 148-154). -/
def Buf.fetch {V : Type} (b : Buf V) (pos : Nat) (blank : V) (s : Slot V) : V :=
  if !s.ondisk then blank else (b.disk pos).getD blank

/-- `Get` for a slot `s` that is not in memory, after the first eviction (src/qdlib/WFBuffer.cpp:275-282). -/
def Buf.load {V : Type} (b : Buf V) (pos : Nat) (blank : V) (s : Slot V) : Buf V :=
  (b.update pos fun s' => { s' with psi := some (b.fetch pos blank s) }).makeRoom

/-- The end of `Get` (src/qdlib/WFBuffer.cpp:284-289): check and pointer returned. -/
def Buf.answer {V : Type} (b : Buf V) (pos : Nat) : Got V :=
  match b.check with
  | .ok b => .ok b ((b.slots[pos]?).bind fun s => s.psi)
  | .threw b => .threw b
  | .ub => .ub

/-- `Get(pos)` behind the book keeping (src/qdlib/WFBuffer.cpp:270-289). -/
def Buf.getTouched {V : Type} (b : Buf V) (pos : Nat) (blank : V) : Got V :=
  match b.slots[pos]? with
  | none => .ub
  | some s =>
    match s.psi with
    | some v => .ok b (some v)
    | none => if !b.makeRoom.validEntry then .ub else (b.makeRoom.load pos blank s).answer pos

/-- `Get(pos)` (src/qdlib/WFBuffer.cpp:257-290). -/
def Buf.get {V : Type} (b : Buf V) (pos : Nat) (blank : V) : Got V :=
  if pos ≥ b.slots.length then .threw b else (b.touch pos).getTouched pos blank

/-- The eviction in `Lock` (src/qdlib/WFBuffer.cpp:349-354); the slot itself is protected from it. -/
def Buf.lockRoom {V : Type} (b : Buf V) (pos : Nat) (old : Bool) : Buf V :=
  if b.bytes ≥ b.maxBuf then
    ((b.update pos fun s => { s with locked := true }).moveToDisk).update pos fun s => { s with locked := old }
  else b

/-- `Lock(pos)` (src/qdlib/WFBuffer.cpp:346-362). -/
def Buf.lock {V : Type} (b : Buf V) (pos : Nat) : Out (Buf V) :=
  match b.slots[pos]? with
  | none => .ub
  | some s => (b.lockRoom pos s.locked).check.bind fun b => .ok (b.update pos fun s => { s with locked := true })

/-- `UnLock(pos)` (src/qdlib/WFBuffer.cpp:367-371). -/
def Buf.unlock {V : Type} (b : Buf V) (pos : Nat) : Out (Buf V) :=
  match b.slots[pos]? with
  | none => .ub
  | some _ => .ok (b.update pos fun s => { s with locked := false })

/-- `AutoLock(n)` (src/qdlib/WFBuffer.cpp:378-381). -/
def Buf.autoLock {V : Type} (b : Buf V) (n : Nat) : Buf V := { b with lastLocks := n }

/-- `ResizeBuffer(size)` (src/qdlib/WFBuffer.cpp:162-186); the loop that shrinks the buffer counts an unsigned
number down to `size`, which for zero runs past the first slot. -/
def Buf.resize {V : Type} (b : Buf V) (n : Nat) : Out (Buf V) :=
  if b.slots.length > n then
    if n = 0 then .ub
    else .ok { b with
      slots := b.slots.take n
      disk := fun j => if n ≤ j then none else b.disk j
      last := [] }
  else if b.slots.length < n then .ok (b.enlarge n)
  else .ok b

/-- `Clear()` (src/qdlib/WFBuffer.cpp:386-398). -/
def Buf.clear {V : Type} (b : Buf V) : Buf V :=
  { b with slots := [], last := [], disk := fun j => if j < b.slots.length then none else b.disk j }

/-- Assignment through a pointer that `Get` returned, by the caller (for instance src/ProgOCT.cpp); the slot must
be in memory, else the pointer is not valid any more. -/
def Buf.assign {V : Type} (b : Buf V) (pos : Nat) (v : V) : Out (Buf V) :=
  match b.slots[pos]? with
  | some s => if s.psi.isSome then .ok (b.update pos fun s => { s with psi := some v }) else .ub
  | none => .ub

end QDng.Buffer
