import Verif.Common.Outcome
import Mathlib.Algebra.Group.Defs

/-
Model of sums and products of operators acting on wave functions.

Source: src/qdlib/OSum.cpp, src/qdlib/OProduct.cpp and the default members of src/qdlib/Operator.h.

Wave functions are objects with an address; the store holds their values, elements of an arbitrary
additive structure `V`.  The scratch wave functions of the operators (`_buf`, `_buf1`, `_WFbuf[0]`)
are objects in the same store, so that reading a source after it was overwritten, or using somebody
else's scratch object, shows in the model.  Simplification: `NewInstance`, `Reaquire` and `Retire` of
a scratch object (memory management, modelled in Verif.Memory) leave an arbitrary value (`junk`) in
it.
-/

namespace QDng.Ops

open QDng.Common

/-- Values of the wave function objects by address. -/
abbrev Store (V : Type) := Nat → V

/-- Assignment to a wave function object, `*a = v` (for instance src/qdlib/Operator.h:286). -/
def put {V : Type} (σ : Store V) (a : Nat) (v : V) : Store V := fun p => if p = a then v else σ p

/-- The virtual members of an operator that act on wave functions (src/qdlib/Operator.h:276, 281, 297,
307): `Apply(dest, source)`, `Apply(Psi)`, `ApplyAdd(dest, source)`, `ApplyParent(dest, source)`. -/
structure OpImpl (V : Type) where
  app : Nat → Nat → Store V → Out (Store V)
  inp : Nat → Store V → Out (Store V)
  add : Nat → Nat → Store V → Out (Store V)
  parent : Nat → Nat → Store V → Out (Store V)

/-- Default `Apply(Psi)` (src/qdlib/Operator.h:281-290) with `_buf` at address `buf`. -/
def defaultIn {V : Type} (buf : Nat) (junk : V) (app : Nat → Nat → Store V → Out (Store V))
    (p : Nat) (σ : Store V) : Out (Store V) :=
  let σ1 := put σ buf junk
  let σ2 := put σ1 buf (σ1 p)
  (app p buf σ2).bind fun σ3 => .ok (put σ3 buf junk)

/-- Default `ApplyAdd` (src/qdlib/Operator.h:307-316) with `_buf1` at address `buf1`. -/
def defaultAdd {V : Type} [Add V] (buf1 : Nat) (junk : V)
    (app : Nat → Nat → Store V → Out (Store V)) (d s : Nat) (σ : Store V) : Out (Store V) :=
  (app buf1 s (put σ buf1 junk)).bind fun σ1 =>
    let σ2 := put σ1 d (σ1 d + σ1 buf1)
    .ok (put σ2 buf1 junk)

/-- Default `MatrixElement(bra, ket)` (src/qdlib/Operator.h:226-239): the store and the value.
`inner` is the scalar product of wave functions. -/
def matrixElement {V K : Type} (inner : V → V → K) (buf : Nat) (junk : V)
    (app : Nat → Nat → Store V → Out (Store V)) (bra ket : Nat) (σ : Store V) :
    Option (Store V × K) :=
  match app buf ket (put σ buf junk) with
  | .ok σ1 => some (put σ1 buf junk, inner (σ1 bra) (σ1 buf))
  | .threw _ => none
  | .ub => none

/-- An operator that implements `Apply(dest, source)` only and inherits the other members
(src/qdlib/Operator.h:276-316). -/
def withDefaults {V : Type} [Add V] (buf buf1 : Nat) (junk : V)
    (app : Nat → Nat → Store V → Out (Store V)) : OpImpl V :=
  { app := app
    inp := defaultIn buf junk app
    add := defaultAdd buf1 junk app
    parent := app }

/-- The loop `for (int i = 1; i < Size(); i++) Get(i)->...` over the remaining entries
(src/qdlib/OSum.cpp:57-59, 71-73). -/
def each {V : Type} (f : OpImpl V → Store V → Out (Store V)) :
    List (OpImpl V) → Store V → Out (Store V)
  | [], σ => .ok σ
  | m :: ms, σ => (f m σ).bind (each f ms)

/-- `OSum::Apply(dest, source)` (src/qdlib/OSum.cpp:53-60); `Get(0)` of an empty list throws
(src/qdlib/OList.cpp:49-50). -/
def sumTo {V : Type} (ops : List (OpImpl V)) (d s : Nat) (σ : Store V) : Out (Store V) :=
  match ops with
  | [] => .threw σ
  | m :: ms => (m.app d s σ).bind (each (fun o => o.add d s) ms)

/-- `OSum::Apply(Psi)` (src/qdlib/OSum.cpp:62-76) with `_WFbuf[0]` at address `wb`. -/
def sumIn {V : Type} (ops : List (OpImpl V)) (wb : Nat) (junk : V) (p : Nat) (σ : Store V) :
    Out (Store V) :=
  let σ1 := put σ wb junk
  let σ2 := put σ1 wb (σ1 p)
  match ops with
  | [] => .threw σ2
  | m :: ms =>
    ((m.inp p σ2).bind (each (fun o => o.add p wb) ms)).bind fun σ3 => .ok (put σ3 wb junk)

/-- One round of the loop in `OSum::ApplyParent` (src/qdlib/OSum.cpp:85-89). -/
def sumParentRound {V : Type} [Add V] (wb d s : Nat) (o : OpImpl V) (σ : Store V) : Out (Store V) :=
  (o.parent wb s σ).bind fun σ1 => .ok (put σ1 d (σ1 d + σ1 wb))

/-- `OSum::ApplyParent(dest, source)` (src/qdlib/OSum.cpp:78-92). -/
def sumParent {V : Type} [Add V] (ops : List (OpImpl V)) (wb : Nat) (junk : V) (d s : Nat)
    (σ : Store V) : Out (Store V) :=
  let σ1 := put σ wb junk
  match ops with
  | [] => .threw σ1
  | m :: ms =>
    ((m.parent d s σ1).bind (each (sumParentRound wb d s) ms)).bind fun σ3 => .ok (put σ3 wb junk)

/-- `OSum` (src/qdlib/OSum.h:21-52): everything but `ApplyAdd` is overridden. -/
def sumOp {V : Type} [Add V] (ops : List (OpImpl V)) (wb buf1 : Nat) (junk : V) : OpImpl V :=
  { app := sumTo ops
    inp := sumIn ops wb junk
    add := defaultAdd buf1 junk (sumTo ops)
    parent := sumParent ops wb junk }

/-- `OProduct::Apply(dest, source)` (src/qdlib/OProduct.cpp:54-61).  For an empty list `Get(-1)` passes
the test in src/qdlib/OList.cpp:49 and reads in front of the array. -/
def prodTo {V : Type} (ops : List (OpImpl V)) (d s : Nat) (σ : Store V) : Out (Store V) :=
  match ops.reverse with
  | [] => .ub
  | m :: ms => (m.app d s σ).bind (each (fun o => o.inp d) ms)

/-- `OProduct::Apply(Psi)` (src/qdlib/OProduct.cpp:63-67). -/
def prodIn {V : Type} (ops : List (OpImpl V)) (p : Nat) (σ : Store V) : Out (Store V) :=
  each (fun o => o.inp p) ops.reverse σ

/-- `OProduct::ApplyParent(dest, source)` (src/qdlib/OProduct.cpp:69-76). -/
def prodParent {V : Type} (ops : List (OpImpl V)) (d s : Nat) (σ : Store V) : Out (Store V) :=
  match ops.reverse with
  | [] => .ub
  | m :: ms => (m.parent d s σ).bind (each (fun o => o.parent d d) ms)

/-- `OProduct` (src/qdlib/OProduct.h:19-48): `ApplyAdd` is inherited. -/
def prodOp {V : Type} [Add V] (ops : List (OpImpl V)) (buf1 : Nat) (junk : V) : OpImpl V :=
  { app := prodTo ops
    inp := prodIn ops
    add := defaultAdd buf1 junk (prodTo ops)
    parent := prodParent ops }

/-- `OScalar` (src/qdlib/OScalar.cpp:49-58): multiplication with a number; `ApplyAdd` and `ApplyParent`
are inherited. -/
def scalarOp {V : Type} [Add V] [Mul V] (c : V) (buf1 : Nat) (junk : V) : OpImpl V :=
  { app := fun d s σ => .ok (put σ d (σ s * c))
    inp := fun p σ => .ok (put σ p (σ p * c))
    add := defaultAdd buf1 junk fun d s σ => .ok (put σ d (σ s * c))
    parent := fun d s σ => .ok (put σ d (σ s * c)) }

end QDng.Ops
