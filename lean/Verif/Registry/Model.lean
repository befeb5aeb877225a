import Verif.Common.OMap
import Verif.Common.Outcome
import Verif.Collector.Model
import Verif.FileSeq.Model

/-
Model of the global registries of operators and wave functions: src/GlobalOpList.cpp and src/GlobalWFList.cpp.

Objects are identified by their address, 0 is `NULL`.  What `Init` and `Valid` of an operator do is unknown (`World`);
the model records the calls.  Simplification: an operator does not use the registry while it is initialised, the
serial number of anonymous keys does not overflow, and `PrintList` is not modelled.
-/

namespace QDng.Registry

open QDng.Common

/-- Calls made to operators: `Init`, with or without an exception, and `Valid` (src/GlobalOpList.cpp:135, 139). -/
inductive Event
  | init (op psi : Nat) (ok : Bool)
  | valid (op psi : Nat)
  deriving DecidableEq, Repr

/-- The behaviour of the operators: the name, whether `Init` succeeds and what `Valid` answers, which may depend on all
calls made before (src/GlobalOpList.cpp:55, 135, 139). -/
structure World where
  name : Nat → Str
  initOk : List Event → Nat → Nat → Bool
  valid : List Event → Nat → Nat → Bool

/-- `strlen(key.c_str())` counts up to the first NUL (src/GlobalOpList.cpp:53, src/GlobalWFList.cpp:52). -/
def cstr (s : Str) : Str := s.takeWhile fun c => c ≠ '\x00'

/-- The generated key (src/GlobalOpList.cpp:55-56, src/GlobalWFList.cpp:54-55). -/
def anonKey (name : Str) (n : Nat) : Str := ['_', '_'] ++ name ++ ['#'] ++ FileSeq.showNat n

/-- `_OpEntry` (src/GlobalOpList.h:26-32). -/
structure OpEntry where
  op : Nat
  initialized : Bool
  persist : Bool
  label : Str
  deriving DecidableEq, Repr

/-- `GlobalOpList` (src/GlobalOpList.h:34-37) with the registry of references to operators and the calls made. -/
structure Ops where
  store : OMap Str OpEntry
  anon : Nat
  coll : Collector.State
  log : List Event

/-- The registry at the beginning (src/GlobalOpList.h:39). -/
def Ops.start (coll : Collector.State) : Ops := { store := [], anon := 0, coll := coll, log := [] }

/-- What a call gives back: nothing, the key, or an exception (src/GlobalOpList.cpp:43, 72, 128, 159, 212). -/
inductive Reply
  | done
  | key (k : Str)
  | threw
  deriving DecidableEq, Repr

/-- `_OpStore[key]`, created if missing (src/GlobalOpList.cpp:60, src/GlobalOpList.h:31). -/
def Ops.entry (s : Ops) (k : Str) : OpEntry := (s.store.find k).getD ⟨0, false, false, []⟩

/-- `_OpStore[key].Op = Op; _OpStore[key].persist = persist;` (src/GlobalOpList.cpp:60-61). -/
def Ops.put (s : Ops) (k : Str) (op : Nat) (persist : Bool) : Ops :=
  { s with store := s.store.insert k { s.entry k with op := op, persist := persist } }

/-- `Add` (src/GlobalOpList.cpp:43-62). -/
def Ops.add (W : World) (s : Ops) (key : Str) (op : Nat) (persist : Bool) : Ops × Reply :=
  if (s.store.find key).isSome then (s, .threw)
  else if op = 0 then (s, .threw)
  else if (cstr key).length < 1 then
    ({ s.put (anonKey (W.name op) s.anon) op persist with anon := s.anon + 1 }, .key (anonKey (W.name op) s.anon))
  else (s.put key op persist, .key key)

/-- `SetLabel` (src/GlobalOpList.cpp:72-79). -/
def Ops.setLabel (s : Ops) (key label : Str) : Ops × Reply :=
  match s.store.find key with
  | none => (s, .threw)
  | some e => ({ s with store := s.store.insert key { e with label := label } }, .done)

/-- The loop of `GetLabels` (src/GlobalOpList.cpp:94-102); writing behind the array is undefined. -/
def labelLoop (label : Str) (max : Int) : OMap Str OpEntry → List Nat → Ans (List Nat)
  | [], found => .val found
  | (_, e) :: r, found =>
    if e.label = label then
      if (found.length : Int) < max then
        if ((found ++ [e.op]).length : Int) = max then .val (found ++ [e.op])
        else labelLoop label max r (found ++ [e.op])
      else .ub
    else if (found.length : Int) = max then .val found
    else labelLoop label max r found

/-- `GetLabels` (src/GlobalOpList.cpp:89-103): the operators stored in an array of the given size. -/
def Ops.getLabels (s : Ops) (label : Str) (max : Int) : Ans (List Nat) := labelLoop label max s.store []

/-- The loop of `CheckLabel` (src/GlobalOpList.cpp:112-121). -/
def checkLoop (op : Nat) (label : Str) : OMap Str OpEntry → Bool
  | [] => false
  | (_, e) :: r => if e.op = op then decide (e.label = label) else checkLoop op label r

/-- `CheckLabel` (src/GlobalOpList.cpp:108-122). -/
def Ops.checkLabel (s : Ops) (op : Nat) (label : Str) : Bool := checkLoop op label s.store

/-- State of the loop of `Init(Op, Psi)`: the entries, the calls, whether the operator was found and whether an
exception ended the loop (src/GlobalOpList.cpp:130-142). -/
structure InitLoop where
  store : OMap Str OpEntry
  log : List Event
  found : Bool
  threw : Bool

/-- The loop of `Init(Op, Psi)` (src/GlobalOpList.cpp:133-142). -/
def initLoop (W : World) (op psi : Nat) : OMap Str OpEntry → List Event → InitLoop
  | [], log => ⟨[], log, false, false⟩
  | (k, e) :: r, log =>
    if e.op = op ∧ e.initialized = false then
      if W.initOk log op psi then
        let x := initLoop W op psi r (log ++ [.init op psi true])
        ⟨(k, { e with initialized := true }) :: x.store, x.log, true, x.threw⟩
      else ⟨(k, e) :: r, log ++ [.init op psi false], true, true⟩
    else if e.op = op then
      let x := initLoop W op psi r (log ++ [.valid op psi])
      ⟨(k, e) :: x.store, x.log, true, x.threw⟩
    else
      let x := initLoop W op psi r log
      ⟨(k, e) :: x.store, x.log, x.found, x.threw⟩

/-- `_OpStore[key].Op->Init(Psi); _OpStore[key].initialized = true;` (src/GlobalOpList.cpp:148-149, 166-167). -/
def Ops.initEntry (W : World) (s : Ops) (key : Str) (psi : Nat) : Ops × Reply :=
  let e := s.entry key
  if W.initOk s.log e.op psi then
    ({ s with store := s.store.insert key { e with initialized := true }, log := s.log ++ [.init e.op psi true] }, .done)
  else ({ s with log := s.log ++ [.init e.op psi false] }, .threw)

/-- The registry behind the loop of `Init(Op, Psi)` (src/GlobalOpList.cpp:133-142). -/
def Ops.after (s : Ops) (x : InitLoop) : Ops := { s with store := x.store, log := x.log }

/-- `Init(Op, Psi)` (src/GlobalOpList.cpp:128-151). -/
def Ops.init (W : World) (s : Ops) (op psi : Nat) : Ops × Reply :=
  let x := initLoop W op psi s.store s.log
  if x.threw then (s.after x, .threw)
  else if x.found then (s.after x, .done)
  else
    match s.add W [] op false with
    | (s', .key k) => s'.initEntry W k psi
    | (s', r) => (s', r)

/-- `Init(key, Psi)` (src/GlobalOpList.cpp:159-171). -/
def Ops.initKey (W : World) (s : Ops) (key : Str) (psi : Nat) : Ops × Reply :=
  match s.store.find key with
  | none => (s, .threw)
  | some e =>
    if e.initialized then ({ s with log := s.log ++ [.valid e.op psi] }, .done)
    else s.initEntry W key psi

/-- `operator[]` (src/GlobalOpList.cpp:178-185). -/
def Ops.get (s : Ops) (key : Str) : Ans Nat :=
  match s.store.find key with
  | none => .threw
  | some e => .val e.op

/-- The first entry that is not persistent, seen from the beginning (src/GlobalOpList.cpp:216-218, 222,
src/GlobalWFList.cpp:112-114, 118). -/
def firstTemp {V : Type} (persist : V → Bool) : OMap Str V → Option (Str × V)
  | [] => none
  | (k, e) :: r => if persist e then firstTemp persist r else some (k, e)

/-- The loop of `Clear` (src/GlobalOpList.cpp:217-223, src/GlobalWFList.cpp:113-119); each round removes an entry and
begins again. -/
def clearLoop {V : Type} (persist : V → Bool) (ptr : V → Nat) :
    Nat → OMap Str V → Collector.State → OMap Str V × Collector.State
  | 0, m, c => (m, c)
  | n + 1, m, c =>
    match firstTemp persist m with
    | none => (m, c)
    | some (k, e) => clearLoop persist ptr n (m.erase k) (c.delete (ptr e))

/-- `Clear` (src/GlobalOpList.cpp:212-224). -/
def Ops.clear (s : Ops) : Ops :=
  let x := clearLoop OpEntry.persist OpEntry.op (s.store.length + 1) s.store s.coll
  { s with store := x.1, coll := x.2 }

/-- Calls that change the registry (src/GlobalOpList.h:46-60). -/
inductive Call
  | add (key : Str) (op : Nat) (persist : Bool)
  | setLabel (key label : Str)
  | init (op psi : Nat)
  | initKey (key : Str) (psi : Nat)
  | clear
  deriving DecidableEq, Repr

/-- One call (src/GlobalOpList.h:46-60). -/
def Ops.step (W : World) (s : Ops) : Call → Ops × Reply
  | .add k op p => s.add W k op p
  | .setLabel k l => s.setLabel k l
  | .init op psi => s.init W op psi
  | .initKey k psi => s.initKey W k psi
  | .clear => (s.clear, .done)

/-- A sequence of calls; exceptions are caught by the callers (src/CmdHandler.cpp, for instance 298-310). -/
def Ops.run (W : World) (s : Ops) (l : List Call) : Ops := l.foldl (fun s c => (s.step W c).1) s

/-! ### Wave functions -/

/-- `_WFEntry` (src/GlobalWFList.h:28-32). -/
structure WFEntry where
  wf : Nat
  persist : Bool
  deriving DecidableEq, Repr

/-- `GlobalWFList` (src/GlobalWFList.h:34-36) with the registry of references to wave functions. -/
structure WFs where
  store : OMap Str WFEntry
  anon : Nat
  coll : Collector.State

/-- The registry at the beginning (src/GlobalWFList.h:38). -/
def WFs.start (coll : Collector.State) : WFs := { store := [], anon := 0, coll := coll }

/-- Register and store a wave function (src/GlobalWFList.cpp:59-61). -/
def WFs.put (s : WFs) (k : Str) (wf : Nat) (persist : Bool) : WFs :=
  { s with store := s.store.insert k ⟨wf, persist⟩, coll := s.coll.register wf }

/-- `Add` (src/GlobalWFList.cpp:41-62). -/
def WFs.add (name : Nat → Str) (s : WFs) (key : Str) (wf : Nat) (persist : Bool) : WFs × Reply :=
  if (s.store.find key).isSome then (s, .threw)
  else if wf = 0 then (s, .threw)
  else if (cstr key).length < 1 then
    ({ s.put (anonKey (name wf) s.anon) wf persist with anon := s.anon + 1 }, .done)
  else (s.put key wf persist, .done)

/-- `Get` (src/GlobalWFList.cpp:67-74). -/
def WFs.get (s : WFs) (key : Str) : Ans Nat :=
  match s.store.find key with
  | none => .threw
  | some e => .val e.wf

/-- `Set` (src/GlobalWFList.cpp:94-103). -/
def WFs.set (name : Nat → Str) (s : WFs) (key : Str) (wf : Nat) : WFs × Reply :=
  match s.store.find key with
  | none => s.add name key wf true
  | some e =>
    ({ s with coll := (s.coll.delete e.wf).register wf, store := s.store.insert key { e with wf := wf } }, .done)

/-- `Clear` (src/GlobalWFList.cpp:108-120). -/
def WFs.clear (s : WFs) : WFs :=
  let x := clearLoop WFEntry.persist WFEntry.wf (s.store.length + 1) s.store s.coll
  { s with store := x.1, coll := x.2 }

/-- Calls to the registry, and references to wave functions taken and given back elsewhere
(src/GlobalWFList.h:45-57, src/qdlib/WaveFunction.h:16, 51-56). -/
inductive WCall
  | add (key : Str) (wf : Nat) (persist : Bool)
  | set (key : Str) (wf : Nat)
  | clear
  | retain (wf : Nat)
  | release (wf : Nat)
  deriving DecidableEq, Repr

/-- One call (src/GlobalWFList.h:45-57, src/qdlib/WaveFunction.h:16, 51-56). -/
def WFs.step (name : Nat → Str) (s : WFs) : WCall → WFs × Reply
  | .add k p persist => s.add name k p persist
  | .set k p => s.set name k p
  | .clear => (s.clear, .done)
  | .retain p => ({ s with coll := s.coll.register p }, .done)
  | .release p => ({ s with coll := s.coll.delete p }, .done)

/-- A sequence of calls. -/
def WFs.run (name : Nat → Str) (s : WFs) (l : List WCall) : WFs := l.foldl (fun s c => (s.step name c).1) s

end QDng.Registry
