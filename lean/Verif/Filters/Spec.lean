import Verif.Filters.Model
import Mathlib.Algebra.BigOperators.Group.List.Basic

/-
What the handbook says about filter lists (doc/Handbook.tex:433-460).
-/

namespace QDng.Filters.Spec

open QDng QDng.Common

variable {V : Type}

/-- A filter as configured: mode of operation, representation of the value, accumulation, bra and ket state, column header,
operator. -/
structure Item (V : Type) where
  act : Action
  kind : Kind
  int : Bool
  ms : Option (Int × Int)
  head : Str
  op : Option (Op V)

/-- The modes that need an operator. -/
def needsOp : Action → Bool
  | .expec | .expeconly | .apply => true
  | .normalize | .rho => false

/-- The modes that show a value. -/
def shows : Action → Bool
  | .expec | .expeconly | .rho => true
  | .normalize | .apply => false

/-- The modes of operation by name. -/
def modes : List (Str × Action) :=
  [("expec".toList, .expec), ("apply".toList, .apply), ("expeconly".toList, .expeconly), ("normalize".toList, .normalize),
    ("rho".toList, .rho)]

/-- The representations by name. -/
def kinds : List (Str × Kind) :=
  [("real".toList, .real), ("imag".toList, .imag), ("complex".toList, .complex), ("abs".toList, .abs)]

/-- The element `e` of the input configures the filter `i`: defaults are `real`, no accumulation, the name of the operator as
header; `ms` takes exactly two values. -/
structure Config (e : Entry V) (i : Item V) : Prop where
  mode : (e.name, i.act) ∈ modes
  kind : (e.value.getD "real".toList, i.kind) ∈ kinds
  int : i.int = e.int.getD false
  ms : match i.ms with
    | none => e.ms = none ∨ e.ms = some []
    | some (a, b) => e.ms = some [a, b]
  op : needsOp i.act = true → ∃ o, e.op = some o ∧ i.op = some o ∧ i.head = e.header.getD o.name
  head : i.act = .rho → i.head = e.header.getD "rho".toList

/-- The effect of a filter on the wave function at time `t`; `none`: an exception.  `rho` needs two states of a multi state wave
function. -/
def step (e : Env V) (i : Item V) (t : ℝ) (psi : V) : Option V :=
  match i.act with
  | .expec | .apply => i.op.bind fun o => o.app t psi
  | .expeconly => some psi
  | .normalize => some (e.norm psi)
  | .rho =>
    match e.states psi, i.ms with
    | some n, some (a, b) => if 0 ≤ a ∧ a < n ∧ 0 ≤ b ∧ b < n then some psi else none
    | _, _ => none

/-- What the first wave function has to provide for the filter `i`: the operator can be initialised with it and, if states are
named, it has them. -/
def Ready (e : Env V) (psi : V) (i : Item V) : Prop :=
  (needsOp i.act = true → ∃ o, i.op = some o ∧ o.ini psi = true) ∧
  ∀ a b, i.ms = some (a, b) → 0 ≤ a ∨ 0 ≤ b → ∃ n : Nat, e.states psi = some n ∧ a < n ∧ b < n

/-- The filters of a list from top to bottom. -/
def chain (e : Env V) (t : ℝ) : List (Item V) → V → Option V
  | [], psi => some psi
  | i :: is, psi => (step e i t psi).bind (chain e t is)

/-- The value shown by a filter for a wave function. -/
noncomputable def value (e : Env V) (renorm : Bool) (i : Item V) (t : ℝ) (psi : V) : ℂ :=
  match i.act, i.op, i.ms with
  | .rho, _, some (a, b) => e.rho psi a.toNat b.toNat
  | .expec, some o, _ | .expeconly, some o, _ => if renorm then e.div (o.mat t psi) (e.ip psi psi) else o.mat t psi
  | _, _, _ => 0

/-- The value of filter number `k` in a call: for the wave function as changed by the filters above it. -/
noncomputable def valueIn (e : Env V) (renorm : Bool) (is : List (Item V)) (k : Nat) (c : Call V) : ℂ :=
  match is[k]?, chain e c.t (is.take k) c.psi with
  | some i, some psi => value e renorm i c.t psi
  | _, _ => 0

/-- The number of filter `k` in the last one of the calls `cs ++ [c]`: the value in that call or, with accumulation, the sum over
all calls of value times time step. -/
noncomputable def column (e : Env V) (renorm : Bool) (is : List (Item V)) (k : Nat) (i : Item V) (cs : List (Call V)) (c : Call V) : ℂ :=
  if i.int then ((cs ++ [c]).map fun c => valueIn e renorm is k c * c.dt).sum else valueIn e renorm is k c

/-- A complex number in one of the representations. -/
noncomputable def showAs (k : Kind) (z : ℂ) : Tok :=
  match k with
  | .real => .num z.re
  | .imag => .num z.im
  | .complex => .cnum z
  | .abs => .num ‖z‖

/-- The columns of the line for call `c` after the calls `cs`, from filter `k` on. -/
noncomputable def columns (e : Env V) (renorm : Bool) (is : List (Item V)) (cs : List (Call V)) (c : Call V) :
    Nat → List (Item V) → List Tok
  | _, [] => []
  | k, i :: rest =>
    (if shows i.act then [showAs i.kind (column e renorm is k i cs c)] else []) ++ columns e renorm is cs c (k + 1) rest

/-- The lines for the calls `todo` after the calls `done`. -/
noncomputable def lines (e : Env V) (renorm : Bool) (is : List (Item V)) : List (Call V) → List (Call V) → List Tok
  | _, [] => []
  | done, c :: todo => [.num c.t] ++ columns e renorm is done c 0 is ++ [.newline] ++ lines e renorm is (done ++ [c]) todo

/-- The header line. -/
def header (is : List (Item V)) : List Tok :=
  [.word "time".toList] ++ (is.filter fun i => shows i.act).map (fun i => .word i.head) ++ [.newline]

end QDng.Filters.Spec
