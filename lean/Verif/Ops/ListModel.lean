import Verif.Common.OMap
import Verif.Common.Outcome

/-
Model of the operator list, the base class of sums, products and propagators.

Source: src/qdlib/OList.h and src/qdlib/OList.cpp.  Operators are identified by their address, `0`
is `NULL`.  Of an operator object the list only looks at two properties (`isTimeDep`, `Hermitian`)
and sets one flag (`Conj`).
-/

namespace QDng.Ops

open QDng.Common

/-- What the list asks an operator (src/qdlib/Operator.h:176, 206): time dependence and
hermiticity. -/
structure OpInfo where
  timeDep : Bool
  hermitian : Bool
  deriving DecidableEq, Repr

/-- The program state an operator list works on.  `size`, `slots`, `names` are `_size`, `_O`,
`_NamedEntries` (src/qdlib/OList.h:20-24); `timeDep`, `conj`, `hermitian` are the protected members
of the base class (src/qdlib/Operator.h:75-90).  `flags` is the `Conj` flag of the operator objects
(by address), `info` their fixed properties. -/
structure OList where
  size : Nat
  slots : List Nat
  names : OMap Str Nat
  timeDep : Bool
  conj : Bool
  hermitian : Bool
  flags : Nat → Bool

/-- `MAX_OPS` (src/qdlib/OList.h:11). -/
def maxOps : Nat := 128

/-- Constructor (src/qdlib/OList.cpp:9-16, src/qdlib/Operator.h:104-105). -/
def OList.new (flags : Nat → Bool) : OList :=
  { size := 0, slots := List.replicate maxOps 0, names := [], timeDep := false, conj := false,
    hermitian := true, flags := flags }

/-- `O->Conj(c)` on the object with address `o` (src/qdlib/Operator.h:219). -/
def setFlag (flags : Nat → Bool) (o : Nat) (c : Bool) : Nat → Bool :=
  fun p => if p = o then c else flags p

/-- `Get(int)` (src/qdlib/OList.cpp:47-52).  A negative index passes the check and reads in front of
the array: undefined behaviour. -/
def OList.get (l : OList) (index : Int) : Ans Nat :=
  if index ≥ l.size then .threw
  else if index < 0 then .ub
  else match l.slots[index.toNat]? with
    | none => .ub
    | some o => .val o

/-- `GetIndex(name)` (src/qdlib/OList.cpp:64-70). -/
def OList.getIndex (l : OList) (name : Str) : Ans Nat :=
  match OMap.find name l.names with
  | none => .threw
  | some i => .val i

/-- `Get(name)` (src/qdlib/OList.cpp:59-62). -/
def OList.getNamed (l : OList) (name : Str) : Ans Nat :=
  match l.getIndex name with
  | .threw => .threw
  | .ub => .ub
  | .val i => match l.slots[i]? with
    | none => .ub
    | some o => .val o

/-- `Exists(name)` (src/qdlib/OList.cpp:72-78). -/
def OList.exists (l : OList) (name : Str) : Bool := (OMap.find name l.names).isSome

/-- The assignment `_O[index] = O; _O[index]->Conj(_conj)` (src/qdlib/OList.cpp:88-89, 96-97): a null
operator is dereferenced. -/
def OList.store (l : OList) (index : Nat) (o : Nat) : Out OList :=
  if index < l.slots.length then
    if o = 0 then .ub
    else .ok { l with slots := l.slots.set index o, flags := setFlag l.flags o l.conj }
  else .ub

/-- `Set(int, O)` (src/qdlib/OList.cpp:83-90). -/
def OList.set (l : OList) (index : Int) (o : Nat) : Out OList :=
  if index ≥ l.size then .threw l
  else if index < 0 then .ub
  else l.store index.toNat o

/-- `Set(name, O)` (src/qdlib/OList.cpp:92-98). -/
def OList.setNamed (l : OList) (name : Str) (o : Nat) : Out OList :=
  match l.getIndex name with
  | .threw => .threw l
  | .ub => .ub
  | .val i => l.store i o

/-- `Add(O)` (src/qdlib/OList.cpp:113-130). -/
def OList.add (info : Nat → OpInfo) (l : OList) (o : Nat) : Out OList :=
  if l.size ≥ maxOps then .threw l
  else if o = 0 then .threw l
  else
    if l.size < l.slots.length then
      .ok { l with
        timeDep := if (info o).timeDep then true else l.timeDep
        slots := l.slots.set l.size o
        flags := setFlag l.flags o l.conj
        hermitian := if !(info o).hermitian then false else l.hermitian
        size := l.size + 1 }
    else .ub

/-- `Add(name, O)` (src/qdlib/OList.cpp:136-144). -/
def OList.addNamed (info : Nat → OpInfo) (l : OList) (name : Str) (o : Nat) : Out OList :=
  match OMap.find name l.names with
  | some _ => .threw l
  | none => match l.add info o with
    | .threw l' => .threw l'
    | .ub => .ub
    | .ok l' => .ok { l' with names := OMap.insert name (l'.size - 1) l'.names }

/-- `Conj(bool)` (src/qdlib/OList.cpp:161-168). -/
def OList.setConj (l : OList) (c : Bool) : OList :=
  { l with
    flags := (l.slots.take l.size).foldl (fun f o => setFlag f o c) l.flags
    conj := c }

/-- `Copy(O)` (src/qdlib/OList.cpp:183-199).  `clone` is the object that `NewInstance` and the
assignment in lines 194-195 produce for an operator; that the clone acts like its original is the
business of the class of the operator.  The flags of clones are whatever that assignment makes them
(`cloneFlags`).  Reading `r->Get(i)` cannot fail for `i < r->_size`. -/
def OList.copyFrom (clone : Nat → Nat) (cloneFlags : Nat → Bool) (l r : OList) : OList :=
  { l with
    size := r.size
    slots := (r.slots.take r.size).map clone ++ l.slots.drop r.size
    flags := cloneFlags }

/-- `Valid(Psi)` for a wave function that is not null (src/qdlib/OList.cpp:201-212). -/
def OList.valid (opValid : Nat → Bool) (l : OList) : Bool :=
  (l.slots.take l.size).all opValid

end QDng.Ops
