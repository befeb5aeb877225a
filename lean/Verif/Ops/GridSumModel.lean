import Verif.Common.Loop
import Verif.Common.Outcome
import Mathlib.Algebra.Ring.Defs

/-
Model of the sum of grid operators, src/qdlib/OGridSum.cpp.
-/

namespace QDng.Ops

open QDng.Common

/-- A member of the sum: an operator that is a vector over the grid (src/qdlib/OGridsystem.h:19).  `now` is
the stored vector, `next` the vector that `UpdateTime` computes for the current time of the clock. -/
structure GridOp (K : Type) where
  now : List K
  next : List K

/-- `UpdateTime` of a member. -/
def GridOp.updateTime {K : Type} (o : GridOp K) : GridOp K := { o with now := o.next }

/-- `OGridSum` (src/qdlib/OGridSum.h:24-32): `vals` is the vector of the operator itself (base class
`dVec`), `slots` the array `_O`. -/
structure GridSum (K : Type) where
  size : Nat
  slots : List (Option (GridOp K))
  vals : List K
  upToDate : Bool

/-- Constructor (src/qdlib/OGridSum.cpp:11-16) with `MAX_OPS` 16 (src/qdlib/OGridSum.h:10). -/
def GridSum.new (K : Type) : GridSum K :=
  { size := 0, slots := List.replicate 16 none, vals := [], upToDate := false }

/-- `Add` (src/qdlib/OGridSum.cpp:176-196); `none` is a null pointer.  Time dependence and clock are left
out.  `newsize` leaves unspecified values, taken as zero. -/
def GridSum.add {K : Type} [Zero K] (s : GridSum K) (o : Option (GridOp K)) : Out (GridSum K) :=
  if s.size ≥ 16 then .threw s
  else match o with
    | none => .threw s
    | some op =>
      let vals := if s.vals.length = 0 then List.replicate op.now.length 0 else s.vals
      if op.now.length ≠ vals.length then .threw { s with vals := vals }
      else .ok { slots := s.slots.set s.size (some op), size := s.size + 1, vals := vals,
                 upToDate := false }

/-- `_O[k]->UpdateTime()` (src/qdlib/OGridSum.cpp:31, 39); a null pointer or an index outside of the array is
undefined behaviour. -/
def updateSlot {K : Type} (k : Nat) (slots : List (Option (GridOp K))) :
    Option (List (Option (GridOp K))) :=
  match slots[k]? with
  | some (some o) => some (slots.set k (some o.updateTime))
  | _ => none

/-- One round of the copy loop (src/qdlib/OGridSum.cpp:32-33). -/
def copyPoint {K : Type} (slots : List (Option (GridOp K))) (i : Nat) (vals : List K) :
    Option (List K) :=
  match slots[0]? with
  | some (some o) => match o.now[i]? with
    | some x => upd i (fun _ => x) vals
    | none => none
  | _ => none

/-- One round of the addition loop (src/qdlib/OGridSum.cpp:40-41) with the value of `k` at that place. -/
def addPoint {K : Type} [Add K] (slots : List (Option (GridOp K))) (k i : Nat) (vals : List K) :
    Option (List K) :=
  match slots[k]? with
  | some (some o) => match o.now[i]? with
    | some x => upd i (fun v => v + x) vals
    | none => none
  | _ => none

/-- `_Update` (src/qdlib/OGridSum.cpp:28-45).  The loop over the operators has no braces: only `UpdateTime`
belongs to it.  The addition loop runs once afterwards, with `k` equal to `_size`. -/
def GridSum.update {K : Type} [Add K] (s : GridSum K) : Option (GridSum K) :=
  match updateSlot 0 s.slots with
  | none => none
  | some slots1 =>
    match loop s.vals.length (copyPoint slots1) s.vals with
    | none => none
    | some vals1 =>
      if s.size > 1 then
        match loop (s.size - 1) (fun j => updateSlot (j + 1)) slots1 with
        | none => none
        | some slots2 =>
          match loop vals1.length (addPoint slots2 s.size) vals1 with
          | none => none
          | some vals2 => some { s with slots := slots2, vals := vals2, upToDate := true }
      else some { s with slots := slots1, vals := vals1, upToDate := true }

/-- `UpdateTime` (src/qdlib/OGridSum.cpp:60-63). -/
def GridSum.updateTime {K : Type} [Add K] (s : GridSum K) : Option (GridSum K) :=
  if s.size > 0 then s.update else some s

/-- `Apply(dest, source)` (src/qdlib/OGridSum.cpp:112-117): the operator and the new value of `dest`.
`MultElements` multiplies point by point. -/
def GridSum.apply {K : Type} [Add K] [Mul K] (s : GridSum K) (src : List K) :
    Option (GridSum K × List K) :=
  match (if s.upToDate then some s else s.update) with
  | none => none
  | some s' => some (s', List.zipWith (fun a b => a * b) src s'.vals)

end QDng.Ops
