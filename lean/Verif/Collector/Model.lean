import Verif.Common.OMap

/-!
# Model of the reference counting registry

Source: `/repo/src/tools/Collector.h`.  Objects are identified by their address, `0` is `NULL`.
-/

namespace QDng.Collector

/-- `reflist` (`/repo/src/tools/Collector.h:27-34`) without the `aligned` flag, which only selects
between `free` and `delete`. -/
structure Entry where
  p : Nat
  refcount : Int
  deriving DecidableEq, Repr

/-- `Collector<T>` (`/repo/src/tools/Collector.h:36-38`) and, as observable effect, the list of objects
destroyed so far (newest first).  Simplification: the counter is an integer without overflow, and calls
made by destructors are treated as later calls (the entry is removed before the object is destroyed,
lines 158-162). -/
structure State where
  refs : List Entry
  destroyed : List Nat
  deriving DecidableEq, Repr

/-- Constructor (`/repo/src/tools/Collector.h:41`). -/
def State.init : State := { refs := [], destroyed := [] }

/-- `find` (`/repo/src/tools/Collector.h:77-83`): index of the first entry with the pointer, `none` is
`-1`. -/
def find (p : Nat) (l : List Entry) : Option Nat := l.findIdx? (fun e => e.p = p)

/-- `Register` (`/repo/src/tools/Collector.h:92-103`). -/
def State.register (s : State) (p : Nat) : State :=
  if p = 0 then s
  else match find p s.refs with
    | some i => { s with refs := s.refs.modify i (fun e => { e with refcount := e.refcount + 1 }) }
    | none => { s with refs := s.refs ++ [{ p := p, refcount := 1 }] }

/-- `IsAllocated` (`/repo/src/tools/Collector.h:109-113`). -/
def State.isAllocated (s : State) (p : Nat) : Bool := (find p s.refs).isSome

/-- `Elements` (`/repo/src/tools/Collector.h:119-123`). -/
def State.elements (s : State) : Nat := s.refs.length

/-- `Delete(T*)` (`/repo/src/tools/Collector.h:149-165`) outside of `Delete()`. -/
def State.delete (s : State) (p : Nat) : State :=
  if p = 0 then s
  else match find p s.refs with
    | none => s
    | some i =>
      let refs := s.refs.modify i (fun e => { e with refcount := e.refcount - 1 })
      match refs[i]? with
      | none => s
      | some e =>
        if e.refcount = 0 then { refs := refs.eraseIdx i, destroyed := p :: s.destroyed }
        else { s with refs := refs }

/-- `Delete()` (`/repo/src/tools/Collector.h:172-196`): every entry with a positive counter is destroyed
in list order, then the list is cleared. -/
def State.deleteAll (s : State) : State :=
  { refs := []
    destroyed := (s.refs.filter (fun e => e.refcount > 0)).foldl (fun d e => e.p :: d) s.destroyed }

end QDng.Collector
