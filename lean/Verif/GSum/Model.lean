import Verif.Common.Loop
import Verif.Common.Outcome
import Mathlib.Data.Real.Basic

/-!
# Model of the life of a sum of grid operators

Source: `/repo/src/qdlib/OGridSum.cpp`: which operators a sum takes, what it answers about its members, its energy
bounds, which wave functions it is set up with, copies and destruction.  The values a sum applies are modelled in
`Verif/Ops/GridSumModel.lean`.

Simplifications: the members are operators that are no sums themselves; every operator is registered once, by `new`
(`/repo/src/qdlib/Operator.h:121-126`; the only other place that registers operators,
`/repo/src/qdlib/OHermitianMatrix.cpp:28-34`, makes no grid operators).  An address can be used again after its object was
destroyed.  `deletePot` and `deleteSum` are `DELETE_OP` for a layout of objects in which the `Operator` part is at the
beginning of the object, so that the registry finds what is deleted.  `Operator` is a virtual base of grid operators, and
the usual layout (Itanium C++ ABI) puts it elsewhere; then the registry finds nothing, which is `deleteOp` below and C315
(`Verif/OpMem`).
Energies are real numbers instead of `double`, the imaginary parts (all zero) are
left out.
-/

namespace QDng.GSum

open QDng.Common

/-- One axis of a grid (`/repo/src/qdlib/GridSystem.h`: `DimSize`, `Xmin`, `Xmax`). -/
structure Axis where
  size : Nat
  xmin : ℝ
  xmax : ℝ

/-- An operator on a grid that is no sum (`/repo/src/qdlib/OGridsystem.h:19`): its vector and its grid. -/
structure Pot where
  vals : List ℝ
  axes : List Axis

/-- A wave function on a grid: the number of elements of its vector and its grid
(`/repo/src/qdlib/WFGridSystem.h`). -/
structure Wf where
  points : Nat
  axes : List Axis

/-- `OGridSum` (`/repo/src/qdlib/OGridSum.h:24-32`): `_size`, the addresses in `_O` (zero is `NULL`) and the number of
elements of its own vector. -/
structure Sum where
  n : Nat
  O : List Nat
  points : Nat
  deriving DecidableEq

/-- Constructor (`/repo/src/qdlib/OGridSum.cpp:11-16`), `MAX_OPS` is 16 (`/repo/src/qdlib/OGridSum.h:10`). -/
def Sum.new : Sum := { n := 0, O := List.replicate 16 0, points := 0 }

/-- The living operators by address. -/
structure World where
  pots : Nat → Option Pot
  sums : Nat → Option Sum

/-- Replace the object at an address (assignments to the fields of an object,
`/repo/src/qdlib/OGridSum.cpp:147-150, 193-195`). -/
def put {A : Type} (f : Nat → Option A) (a : Nat) (x : Option A) : Nat → Option A := fun b => if b = a then x else f b

/-- `Add` (`/repo/src/qdlib/OGridSum.cpp:176-196`); time dependence and clock are left out. -/
def add (w : World) (s p : Nat) : Out World :=
  match w.sums s with
  | none => .ub
  | some q =>
    if q.n ≥ 16 then .threw w
    else if p = 0 then .threw w
    else match w.pots p with
      | none => .ub
      | some o =>
        let pts := if q.points = 0 then o.vals.length else q.points
        if o.vals.length ≠ pts then .threw { w with sums := put w.sums s (some { q with points := pts }) }
        else .ok { w with sums := put w.sums s (some { n := q.n + 1, O := q.O.set q.n p, points := pts }) }

/-- `Get` (`/repo/src/qdlib/OGridSum.cpp:158-163`): only the upper bound is tested. -/
def get (w : World) (s : Nat) (i : Int) : Ans Nat :=
  match w.sums s with
  | none => .ub
  | some q =>
    if i ≥ q.n then .threw
    else if i < 0 then .ub
    else match q.O[i.toNat]? with
      | some a => .val a
      | none => .ub

/-- `Size` (`/repo/src/qdlib/OGridSum.cpp:168-171`). -/
def size (w : World) (s : Nat) : Ans Nat :=
  match w.sums s with
  | none => .ub
  | some q => .val q.n

/-- Loop of `VecMin` (`/repo/src/math/math_functions.cpp:14-16`). -/
noncomputable def minLoop : ℝ → List ℝ → ℝ
  | d, [] => d
  | d, x :: l => minLoop (open Classical in if x < d then x else d) l

/-- Loop of `VecMax` (`/repo/src/math/math_functions.cpp:27-29`). -/
noncomputable def maxLoop : ℝ → List ℝ → ℝ
  | d, [] => d
  | d, x :: l => maxLoop (open Classical in if x > d then x else d) l

/-- `Emin` of a potential (`/repo/src/qdlib/OGridPotential.cpp:129-132`, `/repo/src/math/math_functions.cpp:10-18`);
the first element of an empty vector does not exist. -/
noncomputable def Pot.emin (o : Pot) : Option ℝ :=
  match o.vals with
  | [] => none
  | x :: l => some (minLoop x l)

/-- `Emax` of a potential (`/repo/src/qdlib/OGridPotential.cpp:124-127`, `/repo/src/math/math_functions.cpp:23-31`). -/
noncomputable def Pot.emax (o : Pot) : Option ℝ :=
  match o.vals with
  | [] => none
  | x :: l => some (maxLoop x l)

/-- `_O[i]->Emin()` or `_O[i]->Emax()` (`/repo/src/qdlib/OGridSum.cpp:95, 107`): the member has to be alive. -/
noncomputable def memberE (w : World) (f : Pot → Option ℝ) (O : List Nat) (i : Nat) : Option ℝ :=
  match O[i]? with
  | none => none
  | some a =>
    if a = 0 then none
    else match w.pots a with
      | none => none
      | some o => f o

/-- The loops of `Emax` and `Emin` (`/repo/src/qdlib/OGridSum.cpp:93-95, 105-107`). -/
noncomputable def sumE (w : World) (f : Pot → Option ℝ) (O : List Nat) (n : Nat) : Option ℝ :=
  loop n (fun i d => (memberE w f O i).map (fun e => d + e)) 0

/-- `Emax` (`/repo/src/qdlib/OGridSum.cpp:88-98`). -/
noncomputable def emax (w : World) (s : Nat) : Ans ℝ :=
  match w.sums s with
  | none => .ub
  | some q =>
    if q.n = 0 then .threw
    else match sumE w Pot.emax q.O q.n with
      | some d => .val d
      | none => .ub

/-- `Emin` (`/repo/src/qdlib/OGridSum.cpp:100-110`). -/
noncomputable def emin (w : World) (s : Nat) : Ans ℝ :=
  match w.sums s with
  | none => .ub
  | some q =>
    if q.n = 0 then .threw
    else match sumE w Pot.emin q.O q.n with
      | some d => .val d
      | none => .ub

/-- `Init(WaveFunction*)` of a sum (`/repo/src/qdlib/OGridSum.cpp:51-58`): only the numbers of elements are compared. -/
def init (w : World) (s : Nat) (psi : Wf) : Out World :=
  match w.sums s with
  | none => .ub
  | some q =>
    if q.n = 0 then .threw w
    else if q.points ≠ psi.points then .threw w
    else .ok w

/-- `GridSystem::operator ==` (`/repo/src/qdlib/GridSystem.cpp:248-261`), `GRID_EPS` is `1e-10` (line 9). -/
noncomputable def sameAxes : List Axis → List Axis → Bool
  | [], [] => true
  | a :: l, b :: m =>
    (open Classical in if a.size ≠ b.size ∨ |a.xmin - b.xmin| > 1 / 10 ^ 10 ∨ |a.xmax - b.xmax| > 1 / 10 ^ 10
      then false else sameAxes l m)
  | _, _ => false

/-- `Init(WaveFunction*)` of a potential (`/repo/src/qdlib/OGridPotential.cpp:111-120`). -/
noncomputable def initPot (w : World) (p : Nat) (psi : Wf) : Out World :=
  match w.pots p with
  | none => .ub
  | some o => if sameAxes o.axes psi.axes = false then .threw w else .ok w

/-- `Copy` (`/repo/src/qdlib/OGridSum.cpp:133-153`, `/repo/src/qdlib/OGridsystem.cpp:28-42`) of the sum at `s` to the sum
at `d`: the addresses of the members are copied. -/
def copy (w : World) (d s : Nat) : Out World :=
  match w.sums d, w.sums s with
  | some _, some q => .ok { w with sums := put w.sums d (some { n := q.n, O := q.O, points := q.points }) }
  | _, _ => .ub

/-- `DELETE_OP` of an operator that is no sum (`/repo/src/tools/Collector.h:149-165`, `/repo/src/qdlib/Operator.h:13`). -/
def deletePot (w : World) (a : Nat) : World := if a = 0 then w else { w with pots := put w.pots a none }

/-- The loop of the destructor (`/repo/src/qdlib/OGridSum.cpp:21-22`). -/
def deleteAll : World → List Nat → World
  | w, [] => w
  | w, a :: l => deleteAll (if a ≠ 0 then deletePot w a else w) l

/-- `DELETE_OP` of a sum (`/repo/src/tools/Collector.h:149-165`, `/repo/src/qdlib/OGridSum.cpp:19-23`): the entry is
removed, then the members are deleted. -/
def deleteSum (w : World) (s : Nat) : World :=
  match w.sums s with
  | none => w
  | some q => deleteAll { w with sums := put w.sums s none } q.O

/-- `DELETE_OP` of a sum when its `Operator` part is at the distance `o` from its beginning
(`/repo/src/qdlib/Operator.h:13, 121-126`, `/repo/src/tools/Collector.h:149-165`): with another distance than zero the
registry does not know the pointer and does nothing (`C315_violated`). -/
def deleteOp (o : Nat) (w : World) (s : Nat) : World := if o = 0 then deleteSum w s else w

/-- `new` of an operator that is no sum (`/repo/src/qdlib/Operator.h:121-126`) at an address without a living object. -/
def newPot (w : World) (a : Nat) (o : Pot) : World := { w with pots := put w.pots a (some o) }

/-- `new OGridSum` (`/repo/src/qdlib/OGridSum.cpp:11-16`, `/repo/src/ChainLoader.cpp:61`). -/
def newSum (w : World) (a : Nat) : World := { w with sums := put w.sums a (some Sum.new) }

end QDng.GSum
