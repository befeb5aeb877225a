import Verif.Common.OMap

/-!
# Model of the memory pool

Sources: `/repo/src/tools/Memory.h`, `/repo/src/tools/Memory.cpp`.

The heap of the operating system is part of the state: `posix_memalign` adds a block at an address
chosen by the environment, `free` of an address that is not a block of the heap is undefined
behaviour.  Addresses are natural numbers.  `size_t` arithmetic is modulo `2^64`.
-/

namespace QDng.Memory

open QDng

/-- Number of values of `size_t`. -/
def W : Nat := 2 ^ 64

/-- Unsigned subtraction with wrap around (`/repo/src/tools/Memory.cpp:88,259,274`). -/
def usub (a b : Nat) : Nat := (a + (W - b % W)) % W

/-- Build configuration: with `NDEBUG` blocks of 4096 bytes, otherwise of 1 byte
(`/repo/src/tools/Memory.h:21-25`). -/
def blockSize (ndebug : Bool) : Nat := if ndebug then 4096 else 1

/-- `SlotEntry` (`/repo/src/tools/Memory.h:46-54`); the pointer is the key in the map. -/
structure Slot where
  size : Nat
  free : Bool
  deriving DecidableEq, Repr

/-- `Memory` (`/repo/src/tools/Memory.h:60-67`) together with the heap of the operating system
(address, bytes).  `freeMap` is the multimap from block number to slot; equal keys are in insertion
order, the slot is given by its address. -/
structure Pool where
  slots : OMap Nat Slot
  freeMap : List (Nat × Nat)
  used : Nat
  maxMem : Nat
  maxUsed : Nat
  heap : OMap Nat Nat
  deriving DecidableEq, Repr

/-- Result of a call: normal return, exception `EMemory`, undefined behaviour. -/
inductive Res (α : Type)
  | ok (s : Pool) (a : α)
  | threw (s : Pool)
  | ub
  deriving DecidableEq, Repr

/-- Constructor (`/repo/src/tools/Memory.cpp:34-37`) with limit `max`. -/
def Pool.init (max : Nat) : Pool :=
  { slots := [], freeMap := [], used := 0, maxMem := max, maxUsed := 0, heap := [] }

/-- `CurrentSizeAvail` (`/repo/src/tools/Memory.cpp:86-89`). -/
def Pool.avail (s : Pool) : Nat := usub s.maxMem s.used

/-- Number of blocks for a request (`/repo/src/tools/Memory.cpp:212-213`). -/
def numBlocks (ndebug : Bool) (size : Nat) : Nat :=
  size / blockSize ndebug + (if size % blockSize ndebug > 0 then 1 else 0)

/-- Bytes of a slot as `size_t`, `nb * QDMEM_BLOCK_SIZE` (`/repo/src/tools/Memory.cpp:221,226,259,274`). -/
def slotBytes (ndebug : Bool) (nb : Nat) : Nat := (nb * blockSize ndebug) % W

/-- Book keeping of the peak value (`/repo/src/tools/Memory.cpp:236-237`). -/
def Pool.track (s : Pool) : Pool := if s.used > s.maxUsed then { s with maxUsed := s.used } else s

/-- `Align` (`/repo/src/tools/Memory.cpp:205-240`).  `os` is the answer of `posix_memalign` if it is
called: an address or failure.  `multimap::find` takes the first of several equal entries (libstdc++).
`map::insert` keeps an existing entry. -/
def Pool.align (ndebug : Bool) (s : Pool) (size : Nat) (os : Option Nat) : Res Nat :=
  if s.avail < size then .threw s
  else
    let nb := numBlocks ndebug size
    match s.freeMap.find? (fun e => e.1 = nb) with
    | none =>
      match os with
      | none => .threw s
      | some p =>
        let s' : Pool :=
          { s with
            slots := if (OMap.find p s.slots).isSome then s.slots
              else OMap.insert p { size := nb, free := false } s.slots
            used := (s.used + slotBytes ndebug nb) % W
            heap := OMap.insert p (slotBytes ndebug nb) s.heap }
        .ok s'.track p
    | some e =>
      match OMap.find e.2 s.slots with
      | none => .ub
      | some sl =>
        let s' : Pool :=
          { s with
            slots := OMap.insert e.2 { sl with free := false } s.slots
            freeMap := s.freeMap.erase e }
        .ok s'.track e.2

/-- `free` of the C library on the modelled heap; `none` is undefined behaviour. -/
def heapFree (p : Nat) (heap : OMap Nat Nat) : Option (OMap Nat Nat) :=
  match OMap.find p heap with
  | none => none
  | some _ => some (OMap.erase p heap)

/-- `Free` (`/repo/src/tools/Memory.cpp:245-263`). -/
def Pool.free (ndebug : Bool) (s : Pool) (p : Nat) : Res Unit :=
  match OMap.find p s.slots with
  | none => .ok s ()
  | some sl =>
    if ndebug then
      .ok { s with
            slots := OMap.insert p { sl with free := true } s.slots
            freeMap := s.freeMap ++ [(sl.size, p)] } ()
    else
      match heapFree p s.heap with
      | none => .ub
      | some h =>
        .ok { s with
              used := usub s.used (slotBytes ndebug sl.size)
              heap := h
              slots := OMap.erase p s.slots } ()

/-- The loop of `Cleanup` (`/repo/src/tools/Memory.cpp:270-280`).  After an erase the code starts again
at the beginning of the map; the slots before the erased one are in use and are only skipped, so the
loop is written as one pass. -/
def cleanupLoop (ndebug : Bool) : OMap Nat Slot → Nat → OMap Nat Nat →
    Option (OMap Nat Slot × Nat × OMap Nat Nat)
  | [], used, heap => some ([], used, heap)
  | (p, sl) :: r, used, heap =>
    if sl.free then
      match heapFree p heap with
      | none => none
      | some h => cleanupLoop ndebug r (usub used (slotBytes ndebug sl.size)) h
    else
      match cleanupLoop ndebug r used heap with
      | none => none
      | some (k, u, h) => some ((p, sl) :: k, u, h)

/-- `Cleanup` (`/repo/src/tools/Memory.cpp:268-283`). -/
def Pool.cleanup (ndebug : Bool) (s : Pool) : Res Unit :=
  match cleanupLoop ndebug s.slots s.used s.heap with
  | none => .ub
  | some (k, u, h) => .ok { s with slots := k, used := u, heap := h, freeMap := [] } ()

/-- `Reconfigure` with a given limit (`/repo/src/tools/Memory.cpp:56-71`). -/
def Pool.reconfigure (s : Pool) (max : Nat) : Pool := { s with maxMem := max }

/-! ## Size strings -/

/-- Outcome of `ReadFromString`. -/
inductive SizeRes
  | value (n : Nat)
  | threw
  | ub
  deriving DecidableEq, Repr

/-- `'0' .. '9'` (`/repo/src/tools/Memory.cpp:129-138,150`). -/
def isDigit (c : Char) : Bool :=
  c = '0' || c = '1' || c = '2' || c = '3' || c = '4' || c = '5' || c = '6' || c = '7' || c = '8' ||
    c = '9'

/-- The number denoted by a digit string, as read by `sscanf("%lu")` (`/repo/src/tools/Memory.cpp:156`). -/
def decVal (s : Str) : Nat := s.foldl (fun a c => 10 * a + (c.toNat - '0'.toNat)) 0

/-- The `switch` on the suffix (`/repo/src/tools/Memory.cpp:116-143`); `none` is the exception. -/
def unitFactor (c : Char) : Option Nat :=
  if c = 'K' then some 1024
  else if c = 'M' then some (1024 * 1024)
  else if c = 'G' then some (1024 * 1024 * 1024)
  else if c = 'T' then some (1024 * 1024 * 1024 * 1024)
  else if isDigit c then some 1
  else none

/-- `ReadFromString` (`/repo/src/tools/Memory.cpp:105-160`).  Reading the last character of an empty
string (`s[npos]`), using the result variable when `sscanf` converts nothing and a number that does not
fit `size_t` are undefined behaviour. -/
def readFromString (value : Str) : SizeRes :=
  match value.getLast? with
  | none => .ub
  | some last =>
    let s := if last = 'B' then value.dropLast else value
    match s.getLast? with
    | none => .ub
    | some suffix =>
      match unitFactor suffix with
      | none => .threw
      | some factor =>
        let s := if factor > 1 then s.dropLast else s
        if s.all isDigit then
          if s.isEmpty then .ub
          else if decVal s < W then .value (decVal s * factor % W) else .ub
        else .threw

end QDng.Memory
