import Verif.Collector.Model

/-!
# Model of the life of operator objects in memory

Source: `/repo/src/qdlib/Operator.h:13, 121-134`, `/repo/src/qdlib/OHermitianMatrix.cpp:28-34`,
`/repo/src/tools/Collector.h`.

`operator new` registers the address the memory was allocated at.  `DELETE_OP` converts its argument to a pointer to the
base class `Operator` and looks this pointer up.  The two agree if the `Operator` part is at the beginning of the object.
It is for classes that have `Operator` as their first base (lists, sums, propagators, `OMultistate`).  The classes made from
`ODSpaceT` and `OLaser` have it as a virtual base (`/repo/src/qdlib/ODSpace.h:21`, `/repo/src/qdlib/OLaser.h:21`), which
the usual layout of objects (Itanium C++ ABI) puts behind the other parts.  The layout is not fixed by the language, so the
distance of the `Operator` part from the beginning is a parameter of every object here; the theorems are for all values.

Simplification: operators that are deleted by the destructor of another one are later calls.
-/

namespace QDng.OpMem

/-- The registry and the living objects: address of the memory, distance of the `Operator` part
(`/repo/src/qdlib/Operator.h:121-134`). -/
structure Mem where
  coll : Collector.State
  live : Nat → Option Nat

/-- Nothing was made yet (`/repo/src/tools/Collector.h:41`). -/
def Mem.empty : Mem := { coll := Collector.State.init, live := fun _ => none }

/-- The living objects with one changed (`/repo/src/qdlib/Operator.h:121-134`). -/
def put (f : Nat → Option Nat) (r : Nat) (x : Option Nat) : Nat → Option Nat := fun a => if a = r then x else f a

/-- `new` of an operator (`/repo/src/qdlib/Operator.h:121-126`), the memory is at `r`, the `Operator` part at `r + o`. -/
def new (m : Mem) (r o : Nat) : Mem := { coll := m.coll.register r, live := put m.live r (some o) }

/-- `OHermitianMatrix::NewInstance` (`/repo/src/qdlib/OHermitianMatrix.cpp:28-34`): the object is registered again, as a
pointer to its `Operator` part. -/
def newMatrix (m : Mem) (r o : Nat) : Mem := { new m r o with coll := (new m r o).coll.register (r + o) }

/-- `DELETE_OP` of the object at `r` (`/repo/src/qdlib/Operator.h:13, 131-134`, `/repo/src/tools/Collector.h:149-165`): if
the registry destroys it, the memory is given back. -/
def del (m : Mem) (r o : Nat) : Mem :=
  if (m.coll.delete (r + o)).destroyed = m.coll.destroyed then { m with coll := m.coll.delete (r + o) }
  else { coll := m.coll.delete (r + o), live := put m.live r none }

/-- `DELETE_OP` several times (`/repo/src/qdlib/Operator.h:13`). -/
def delTimes (m : Mem) (r o : Nat) : Nat → Mem
  | 0 => m
  | k + 1 => delTimes (del m r o) r o k

end QDng.OpMem
