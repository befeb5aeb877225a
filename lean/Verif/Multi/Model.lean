import Verif.Common.Outcome
import Mathlib.Algebra.Group.Defs

/-
Model of multistate operators and multistate wave functions.

Source: src/qdlib/OMultistate.cpp, src/qdlib/WFMultistate.cpp.  A block of the operator matrix is an
element of an arbitrary type `Op`; what it does to the wave function of a state is given by
`act : Op → V → V` (that `ApplyAdd` adds the result of `Apply` is part of the contract of operators,
see Verif.Ops).
-/

namespace QDng.Multi

open QDng.Common

/-- `QD_MAX_STATES` (src/qdlib/WFMultistate.h:10). -/
def maxStates : Nat := 64

/-- The matrix of operators `_matrix` (src/qdlib/OMultistate.h:36); `none` is a null pointer. -/
abbrev Table (Op : Type) := Nat → Nat → Option Op

/-- `_matrix[i][j] = v`. (for instance src/qdlib/OMultistate.cpp:47) -/
def Table.set {Op : Type} (m : Table Op) (i j : Nat) (v : Option Op) : Table Op :=
  fun a b => if a = i ∧ b = j then v else m a b

/-- `OMultistate` (src/qdlib/OMultistate.h:31-38): `ready` tells if `_buf1` is set, i.e. if `Init(Psi)` ran.
Simplification: `_nstates` is never negative (a negative number of states given in the parameters behaves
like zero). -/
structure MultiOp (Op : Type) where
  hermitian : Bool
  nstates : Nat
  unity : Bool
  table : Table Op
  ready : Bool

/-- Constructor (src/qdlib/OMultistate.cpp:14-22). -/
def MultiOp.new (Op : Type) : MultiOp Op :=
  { hermitian := true, nstates := 0, unity := false, table := fun _ _ => none, ready := false }

/-- `Init(params)` (src/qdlib/OMultistate.cpp:79-97) with the values of the parameters `nonhermitian`
(`false` if missing), `unity` (`true` if missing) and `states` (`none` if missing). -/
def MultiOp.initParams {Op : Type} (s : MultiOp Op) (nonhermitian unity : Bool)
    (states : Option Nat) : Out (MultiOp Op) :=
  let s := { s with hermitian := !nonhermitian }
  match states with
  | none => .ok { s with unity := unity }
  | some n =>
    let s := { s with nstates := n }
    if n > maxStates then .threw s else .ok { s with unity := unity }

/-- `States(n)` (src/qdlib/OMultistate.h:79). -/
def MultiOp.setStates {Op : Type} (s : MultiOp Op) (n : Nat) : MultiOp Op := { s with nstates := n }

/-- `Add(O, row, col)` (src/qdlib/OMultistate.cpp:34-54).  A negative index passes the test and addresses
memory in front of the row or the matrix.  Time dependence and the hermiticity flag of the base class are
left out. -/
def MultiOp.add {Op : Type} (s : MultiOp Op) (o : Op) (row col : Int) : Out (MultiOp Op) :=
  if row ≥ maxStates ∨ col ≥ maxStates then .threw s
  else if row < 0 ∨ col < 0 then .ub
  else
    let r := row.toNat
    let c := col.toNat
    let n1 := if r + 1 > s.nstates then r + 1 else s.nstates
    let n2 := if c + 1 > n1 then c + 1 else n1
    let s := { s with nstates := n2 }
    if (s.table r c).isSome then .threw s
    else
      let t := s.table.set r c (some o)
      .ok { s with
        table := t
        hermitian := if ((t r c).isSome ∧ (t c r).isSome) ∧ r ≠ c then false else s.hermitian }

/-- One round of the loop that completes the matrix (src/qdlib/OMultistate.cpp:125-130) without the
initialisation of the blocks. -/
def mirrorStep {Op : Type} (i j : Nat) (m : Table Op) : Table Op :=
  let m1 := if i ≠ j ∧ (m j i).isSome then m.set i j (m j i) else m
  if (m1 i j).isSome ∧ i ≠ j then m1.set j i (m1 i j) else m1

/-- The inner loop `for (int j=0; j <= i; j++)` up to `j < k` (src/qdlib/OMultistate.cpp:124-131). -/
def mirrorRow {Op : Type} (i : Nat) : Nat → Table Op → Table Op
  | 0, m => m
  | k + 1, m => mirrorStep i k (mirrorRow i k m)

/-- The outer loop up to `i < n` (src/qdlib/OMultistate.cpp:123-132). -/
def mirror {Op : Type} : Nat → Table Op → Table Op
  | 0, m => m
  | n + 1, m => mirrorRow n (n + 1) (mirror n m)

/-- `Init(Psi)` (src/qdlib/OMultistate.cpp:99-142) for a multistate wave function with `wfStates` states
(`none`: not a multistate wave function).  Initialisation of the blocks is assumed to succeed.  Without
hermitian completion the inner loop runs to `_nstates` inclusive (line 135): it leaves the array if
`_nstates` is 64, and initialises a block in that column with a state that does not exist.  -/
def MultiOp.init {Op : Type} (s : MultiOp Op) (wfStates : Option Nat) : Out (MultiOp Op) :=
  if s.nstates < 1 then .threw s
  else match wfStates with
    | none => .threw s
    | some n =>
      if n ≠ s.nstates then .threw s
      else if s.ready then .ok s
      else if s.nstates > maxStates then .ub
      else if s.hermitian then .ok { s with ready := true, table := mirror s.nstates s.table }
      else if s.nstates ≥ maxStates then .ub
      else if (List.range s.nstates).any (fun i => (s.table i s.nstates).isSome) then .ub
      else .ok { s with ready := true }

/-- `for (int i = rank; i < n; i += msize)` (src/qdlib/OMultistate.cpp:220): the values of `i`.  `fuel` bounds
the number of rounds. -/
def strided (msize n : Nat) : Nat → Nat → List Nat
  | 0, _ => []
  | fuel + 1, i => if i < n then i :: strided msize n fuel (i + msize) else []

/-- The inner loop of `Apply` for state `i` up to `j < k` (src/qdlib/OMultistate.cpp:222-228): the value of
state `i` of the destination. -/
def rowSum {Op V : Type} [AddMonoid V] (act : Op → V → V) (s : MultiOp Op) (src : Nat → V) (i : Nat) :
    Nat → V
  | 0 => 0
  | k + 1 =>
    let d := rowSum act s src i k
    match s.table i k with
    | some o => d + act o (src k)
    | none => if i = k ∧ s.unity then d + src k else d

/-- `Apply(dest, source)` (src/qdlib/OMultistate.cpp:206-231) on the process with number `rank` of `msize`: the
states of the destination on that process.  The source has `wfStates` states; destination and source are
different objects with the same number of states.  Before `Init(Psi)` the scratch wave function is a null
pointer; states that do not exist are null pointers or lie outside of the array. -/
def MultiOp.apply {Op V : Type} [AddMonoid V] (act : Op → V → V) (s : MultiOp Op) (rank msize : Nat)
    (wfStates : Nat) (src : Nat → V) : Option (Nat → V) :=
  if ¬ s.ready then none
  else if wfStates < s.nstates then none
  else some ((strided msize s.nstates s.nstates rank).foldl
    (fun dest i => fun k => if k = i then rowSum act s src i s.nstates else dest k) (fun _ => 0))

/-- `WFMultistate` (src/qdlib/WFMultistate.h:22-27): number of states and the array of states. -/
structure MultiWF (V : Type) where
  nstates : Nat
  states : List (Option V)

/-- Constructor (src/qdlib/WFMultistate.cpp:12-17). -/
def MultiWF.new (V : Type) : MultiWF V :=
  { nstates := 0, states := List.replicate maxStates none }

/-- `Add(Psi, index)` (src/qdlib/WFMultistate.cpp:43-59); `strides` is the number of strides of the added wave
function.  A negative index writes in front of the array. -/
def MultiWF.add {V : Type} (s : MultiWF V) (v : V) (strides : Nat) (index : Int) : Out (MultiWF V) :=
  if index + 1 ≥ maxStates then .threw s
  else if index < 0 then .ub
  else
    let k := index.toNat
    let s := { nstates := if k + 1 > s.nstates then k + 1 else s.nstates,
               states := s.states.set k (some v) }
    if strides > 1 then .threw s else .ok s

/-- One pass over the states `0 ... k-1` that fills empty states behind a given one with zeros
(src/qdlib/WFMultistate.cpp:95-102, 105-112): the states and `wflast`. -/
def fillPass {V : Type} [Zero V] : Nat → List (Option V) × Option V → List (Option V) × Option V
  | 0, p => p
  | k + 1, p =>
    let (l, last) := fillPass k p
    match l[k]? with
    | some (some v) => (l, some v)
    | _ => match last with
      | some _ => (l.set k (some 0), last)
      | none => (l, last)

/-- The loop that appends states up to the requested number (src/qdlib/WFMultistate.cpp:119-122), `k` rounds. -/
def extend {V : Type} [Zero V] (from_ : Nat) : Nat → List (Option V) → List (Option V)
  | 0, l => l
  | k + 1, l => (extend from_ k l).set (from_ + k) (some 0)

/-- `Init(reqsize)` (src/qdlib/WFMultistate.cpp:89-139).  More than 64 requested states are written behind the
array.  Linking the states into one vector is modelled in Verif.Linalg. -/
def MultiWF.init {V : Type} [Zero V] (s : MultiWF V) (reqsize : Int) : Out (MultiWF V) :=
  let p1 := fillPass s.nstates (s.states, none)
  let p2 := fillPass s.nstates p1
  match p2.2 with
  | none => .threw { s with states := p2.1 }
  | some _ =>
    if (s.nstates : Int) < reqsize then
      if reqsize > maxStates then .ub
      else .ok { nstates := reqsize.toNat,
                 states := extend s.nstates (reqsize.toNat - s.nstates) p2.1 }
    else .ok { s with states := p2.1 }

end QDng.Multi
