import Verif.Ops.Model
import Mathlib.Algebra.Module.Defs

/-
Model of the projection operator, src/qdlib/OProjection.cpp.

The set of states is a list of wave functions (the buffer that holds them, `WFBuffer`, is modelled in
Verif.Buffer); wave functions that the operator is applied to live in a store, as in Verif.Ops.Model.  The
scalar product of wave functions is a parameter.
-/

namespace QDng.Ops

open QDng.Common

/-- `OProjection` (src/qdlib/OProjection.h:33-35): `sign`, `inv`, the states, and whether the scratch wave
function `_buf` exists. -/
structure Proj (V : Type) where
  sign : ℤ
  inv : Bool
  states : List V
  hasBuf : Bool

/-- Constructor (src/qdlib/OProjection.cpp:13). -/
def Proj.new (V : Type) : Proj V := { sign := 1, inv := false, states := [], hasBuf := false }

/-- `Init(params)` (src/qdlib/OProjection.cpp:78-87) with the values of `positive` (`true` if missing) and
`inv` (`false` if missing). -/
def Proj.initParams {V : Type} (s : Proj V) (positive inv : Bool) : Proj V :=
  { s with sign := if positive then 1 else -1, inv := inv }

/-- `Add(Psi)` (src/qdlib/WFBuffer.cpp:257-260), inherited. -/
def Proj.addState {V : Type} (s : Proj V) (v : V) : Proj V := { s with states := s.states ++ [v] }

/-- `Init(Psi)` (src/qdlib/OProjection.cpp:30-76); `files` is the content of the files named in the
parameters (`none`: parameter missing), `num` the number of states wanted.  Files that are missing at the end
show as a shorter list. -/
def Proj.initWF {V : Type} (s : Proj V) (files : Option (List V)) (num : Nat) : Out (Proj V) :=
  if s.states.length > 0 then .ok s
  else
    let s := { s with hasBuf := true }
    match files with
    | none => .ok s
    | some fs =>
      let s := { s with states := fs.take num }
      if s.states.length ≠ num then .threw s else .ok s

/-- The loop of `Apply` (src/qdlib/OProjection.cpp:138-141): `dest += <phi|source> * sign * phi`. -/
def projLoop {V K : Type} [Add V] [SMul K V] [Mul K] [IntCast K] (inner : V → V → K) (sign : ℤ) (d s : Nat) :
    List V → Store V → Store V
  | [], σ => σ
  | φ :: φs, σ => projLoop inner sign d s φs (put σ d (σ d + (inner φ (σ s) * (sign : K)) • φ))

/-- `Apply(dest, source)` (src/qdlib/OProjection.cpp:133-149) with `_buf` at address `buf`.  Retiring the
scratch object leaves arbitrary values in it.  -/
def Proj.apply {V K : Type} [AddCommGroup V] [SMul K V] [Mul K] [IntCast K] (inner : V → V → K) (P : Proj V)
    (buf : Nat) (junk : V) (d s : Nat) (σ : Store V) : Out (Store V) :=
  let σ := projLoop inner P.sign d s P.states (put σ d 0)
  if P.inv then
    if P.hasBuf then
      let σ := put σ buf (σ s)
      let σ := put σ buf (σ buf - σ d)
      let σ := put σ d (σ buf)
      .ok (put σ buf junk)
    else .ub
  else .ok σ

/-- `Apply(Psi)` (src/qdlib/OProjection.cpp:123-131). -/
def Proj.applyIn {V K : Type} [AddCommGroup V] [SMul K V] [Mul K] [IntCast K] (inner : V → V → K) (P : Proj V)
    (buf : Nat) (junk : V) (p : Nat) (σ : Store V) : Out (Store V) :=
  if P.hasBuf then
    (P.apply inner buf junk p buf (put σ buf (σ p))).bind fun σ => .ok (put σ buf junk)
  else .ub

/-- The loop of `Copy` (src/qdlib/OProjection.cpp:115-117): `n` is the size of the target, which grows with
every addition; the states are read from `from_`. -/
def projCopyLoop {V : Type} (from_ : List V) (s : Proj V) : Nat → Nat → Option (Proj V)
  | 0, _ => some s
  | n + 1, i => match from_[i]? with
    | none => none
    | some v => projCopyLoop from_ (s.addState v) n (i + 1)

/-- `Copy(O)` (src/qdlib/OProjection.cpp:98-121).  The loop runs over the states of the target, which has
none at that point. -/
def Proj.copyFrom {V : Type} (s o : Proj V) : Option (Proj V) :=
  let s := if s.states.length > 0 then { s with hasBuf := false, states := [] } else s
  let s := { s with inv := o.inv, sign := o.sign }
  projCopyLoop o.states s s.states.length 0

end QDng.Ops
