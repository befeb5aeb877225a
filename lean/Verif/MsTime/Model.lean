import Verif.Multi.Model

/-!
# Model of clock and time update of multistate operators

Source: `/repo/src/qdlib/OMultistate.cpp:68-77, 144-161`; the operator itself is modelled in `Verif.Multi`.

The result is the list of the blocks whose `UpdateTime` or `Clock` is called, in this order.
-/

namespace QDng.MsTime

open QDng.Common QDng.Multi

/-- The blocks of row `i` up to column `j < k` (`/repo/src/qdlib/OMultistate.cpp:148-151`, also 72-75 and 155-158). -/
def row {Op : Type} (t : Table Op) (i : Nat) : Nat → List Op
  | 0 => []
  | k + 1 =>
    match t i k with
    | none => row t i k
    | some o => row t i k ++ [o]

/-- The outer loop up to `i < n`, where row `i` goes to column `j < width i`
(`/repo/src/qdlib/OMultistate.cpp:71-76, 147-152, 154-159`). -/
def rows {Op : Type} (t : Table Op) (width : Nat → Nat) : Nat → List Op
  | 0 => []
  | n + 1 => rows t width n ++ row t n (width n)

/-- `UpdateTime()` (`/repo/src/qdlib/OMultistate.cpp:144-161`): the lower triangle in hermitian mode, otherwise rows up to
column `_nstates` inclusive, which leaves the array for 64 states. -/
def updateTime {Op : Type} (s : MultiOp Op) : Ans (List Op) :=
  if s.nstates > maxStates then .ub
  else if s.hermitian then .val (rows s.table (fun i => i + 1) s.nstates)
  else if s.nstates ≥ maxStates then .ub
  else .val (rows s.table (fun _ => s.nstates + 1) s.nstates)

/-- `Clock(cl)` (`/repo/src/qdlib/OMultistate.cpp:68-77`). -/
def clock {Op : Type} (s : MultiOp Op) : Ans (List Op) :=
  if s.nstates > maxStates then .ub
  else .val (rows s.table (fun _ => s.nstates) s.nstates)

end QDng.MsTime
