import Verif.Common.Outcome

/-!
# Model of the set-up of the split operator propagator

Source: `/repo/src/qdlib/OGSPO.cpp`: which parts a split operator propagator takes from its list, the Hamiltonian it makes
of them, the storage for the exponentials, repeated set-up, and what it answers after a refused set-up.  What a step
computes is modelled in `Verif/Propa/SplitModel.lean`.

Simplifications: a wave function is known by its number of elements; what `Init(Psi)` of a part says about it depends only
on this number; handing the clock on to the parts does not fail (for parts with a laser see `Verif/PLife`); memory does
not run out; flags such as conjugation are left out.
-/

namespace QDng.Gspo

open QDng.Common

/-- A name as its bytes (`std::string`, `/repo/src/qdlib/OList.h:24`). -/
abbrev Name := List Nat

/-- An operator in the list (`/repo/src/qdlib/Operator.h:60`): which one it is, whether it has a diagonal representation
(`dynamic_cast<ODSpace*>`, `/repo/src/qdlib/OGSPO.cpp:78`), and for which sizes its `Init(Psi)` returns. -/
structure Part where
  id : Nat
  diag : Bool
  takes : Nat → Bool

/-- A clock (`/repo/src/tools/QDClock.h:13-18`): which one it is and whether its time step differs from zero. -/
structure Clk where
  id : Nat
  hasStep : Bool

/-- The propagator: list of operators with their names (`/repo/src/qdlib/OList.h:22-26`), clock, Hamiltonian (null before
the first set-up, members with names), `_ops`, `_spoLen`, number of elements in every `_exp[i]`
(`/repo/src/qdlib/OGSPO.h:37-39`); and of the Hamiltonian the size it was set up with and its clock. -/
structure St where
  parts : List (Option Name × Part)
  clock : Option Clk
  H : Option (List (Name × Part))
  ops : Nat → Option Part
  spoLen : Nat
  exp : Nat → Nat
  hInit : Option Nat
  hClock : Option Clk

/-- `OGSPO()` (`/repo/src/qdlib/OGSPO.cpp:12-18`, `/repo/src/qdlib/OPropagator.h:36-38`). -/
def St.new : St :=
  { parts := [], clock := none, H := none, ops := fun _ => none, spoLen := 0, exp := fun _ => 0, hInit := none,
    hClock := none }

/-- `OList::Add(name, O)` and `OList::Add(O)` for an operator that exists (`/repo/src/qdlib/OList.cpp:113-144`). -/
def add (s : St) (n : Option Name) (p : Part) : Out St :=
  if (n.isSome && s.parts.any fun e => e.1 == n) = true then .threw s
  else if 128 ≤ s.parts.length then .threw s
  else .ok { s with parts := s.parts ++ [(n, p)] }

/-- `OPropagator::Clock(cl)` for a clock that exists (`/repo/src/qdlib/OPropagator.h:43-54`). -/
def setClock (s : St) (c : Clk) : Out St := .ok { s with clock := some c }

/-- `char base[2] = "A"; base[0] += i;` (`/repo/src/qdlib/OGSPO.cpp:73-74`): the byte wraps around. -/
def base (i : Nat) : Name := [(65 + i) % 256]

/-- `OList::Get(name)` (`/repo/src/qdlib/OList.cpp:59-70`); `none`: it throws. -/
def get (l : List (Option Name × Part)) (n : Name) : Option Part :=
  (l.find? fun e => e.1 == some n).map (·.2)

/-- `OList::Add(name, O)` of the Hamiltonian (`/repo/src/qdlib/OList.cpp:113-144`); `none`: it throws. -/
def addH (h : List (Name × Part)) (n : Name) (p : Part) : Option (List (Name × Part)) :=
  if (h.any fun e => e.1 == n) = true then none
  else if 128 ≤ h.length then none
  else some (h ++ [(n, p)])

/-- The loop that grabs the operators (`/repo/src/qdlib/OGSPO.cpp:72-85`), `k` rounds left, `i` the current index. -/
def grab : Nat → Nat → St → Out St
  | 0, _, s => .ok s
  | k + 1, i, s =>
    match get s.parts (base i) with
    | none => .threw s
    | some p =>
      if p.diag = false then .threw s
      else
        match s.H with
        | none => .ub
        | some h =>
          match addH h (base i) p with
          | none => .threw { s with ops := fun j => if j = i then some p else s.ops j, spoLen := s.spoLen + 1 }
          | some h' =>
            grab k (i + 1)
              { s with
                ops := fun j => if j = i then some p else s.ops j
                spoLen := s.spoLen + 1
                H := some h' }

/-- The loop that sizes the storage (`/repo/src/qdlib/OGSPO.cpp:95-100`): a null wave function is used unchecked. -/
def sizes (psi : Option Nat) : Nat → Nat → St → Out St
  | 0, _, s => .ok s
  | k + 1, i, s =>
    match s.ops i with
    | none => .threw s
    | some _ =>
      match psi with
      | none => .ub
      | some n => sizes psi k (i + 1) { s with exp := fun j => if j = i then n else s.exp j }

/-- `OList::Init(Psi)` (`/repo/src/qdlib/OList.cpp:170-175`): whether it returns. -/
def initAll (n : Nat) : List Part → Bool
  | [] => true
  | p :: l => if p.takes n then initAll n l else false

/-- `OPropagator::Init(Psi)`, `H->Init(Psi)`, `H->Clock(clock)` (`/repo/src/qdlib/OGSPO.cpp:102-104`,
`/repo/src/qdlib/OPropagator.h:165-177`). -/
def finish (psi : Option Nat) (s : St) : Out St :=
  match s.clock with
  | none => .threw s
  | some c =>
    if c.hasStep = false then .threw s
    else
      match psi with
      | none => .threw s
      | some n =>
        if initAll n (s.parts.map (·.2)) = false then .threw s
        else
          match s.H with
          | none => .ub
          | some h =>
            if initAll n (h.map (·.2)) = false then .threw s
            else .ok { s with hInit := some n, hClock := some c }

/-- `OGSPO::Init(Psi)` (`/repo/src/qdlib/OGSPO.cpp:61-105`); `none` is a null pointer. -/
def init (s : St) (psi : Option Nat) : Out St :=
  if 0 < s.exp 0 then .ok s
  else
    (grab s.parts.length 0 { s with H := some (s.H.getD []) }).bind fun s1 =>
      if s1.clock.isNone = true then .threw { s1 with spoLen := s1.parts.length }
      else if s1.parts.length < 1 then .threw { s1 with spoLen := s1.parts.length }
      else
        (sizes psi s1.parts.length 0 { s1 with spoLen := s1.parts.length }).bind (finish psi)

/-- The loop of `OGSPO::Valid(Psi)` (`/repo/src/qdlib/OGSPO.cpp:167-177`); `acc` is what the parts answer.  A null pointer
or an index outside the array is used unchecked. -/
def validLoop (acc : Part → Bool) (s : St) : Nat → Nat → Ans Bool
  | 0, _ => .val false
  | k + 1, i =>
    match s.ops i with
    | none => .ub
    | some p => if acc p = false then .val false else validLoop acc s k (i + 1)

/-- `OGSPO::Valid(Psi)` (`/repo/src/qdlib/OGSPO.cpp:167-177`). -/
def valid (acc : Part → Bool) (s : St) : Ans Bool := validLoop acc s s.spoLen 0

/-- The loop of `OGSPO::UpdateTime()` (`/repo/src/qdlib/OGSPO.cpp:49-54`): the parts that are told. -/
def updLoop (s : St) : Nat → Nat → Ans (List Nat)
  | 0, _ => .val []
  | k + 1, i =>
    match s.ops i with
    | none => .ub
    | some p =>
      match updLoop s k (i + 1) with
      | .val l => .val (p.id :: l)
      | .threw => .threw
      | .ub => .ub

/-- `OGSPO::UpdateTime()` (`/repo/src/qdlib/OGSPO.cpp:49-54`). -/
def updateTime (s : St) : Ans (List Nat) := updLoop s s.spoLen 0

/-- Calls a program makes (`/repo/src/qdlib/OGSPO.cpp:61-105`, `/repo/src/qdlib/OPropagator.h:43-54`,
`/repo/src/qdlib/OList.cpp:113-144`). -/
inductive Ev where
  | add (n : Option Name) (p : Part)
  | clock (c : Clk)
  | init (psi : Option Nat)

/-- One call of a program that catches exceptions; `none` after undefined behaviour
(`/repo/src/qdlib/OGSPO.cpp:61-105`). -/
def after : Out St → Option St
  | .ok s => some s
  | .threw s => some s
  | .ub => none

/-- A sequence of calls (`/repo/src/qdlib/OGSPO.cpp:61-105`, `/repo/src/qdlib/OPropagator.h:43-54`,
`/repo/src/qdlib/OList.cpp:113-144`). -/
def run : List Ev → St → Option St
  | [], s => some s
  | e :: l, s =>
    match after (match e with
      | .add n p => add s n p
      | .clock c => setClock s c
      | .init psi => init s psi) with
    | none => none
    | some s' => run l s'

end QDng.Gspo
