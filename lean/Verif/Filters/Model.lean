import Mathlib.Analysis.Complex.Norm
import Verif.Common.OMap
import Verif.Common.Outcome

/-
Model of filter lists (src/FiltersList.h, src/FiltersList.cpp).

Wave functions are of any type.  What an operator does is a parameter: expectation value, application and initialisation; each
may depend on the time of the clock, the last two may fail with an exception.  The output file is a list of what was
written to it; it can always be opened.  Complex division is a parameter (it is used for the renormalisation only).
-/

namespace QDng.Filters

open QDng QDng.Common

/-- An operator: `MatrixElement(Psi,Psi)`, `Apply(Psi)`, `Init(Psi)` (false: exception) and `Name()`. -/
structure Op (V : Type) where
  mat : ℝ → V → ℂ
  app : ℝ → V → Option V
  ini : V → Bool
  name : Str

/-- The wave functions: `Normalize`, scalar product, number of states (`none`: not a `WFMultistate`), scalar product of two
states, and complex division. -/
structure Env (V : Type) where
  norm : V → V
  ip : V → V → ℂ
  states : V → Option Nat
  rho : V → Nat → Nat → ℂ
  div : ℂ → ℂ → ℂ

/-- `_FilterAction` (src/FiltersList.h:30-33). -/
inductive Action where
  | expec | apply | expeconly | normalize | rho
  deriving DecidableEq

/-- `_FilterValue` (src/FiltersList.h:35-38). -/
inductive Kind where
  | real | imag | complex | abs
  deriving DecidableEq

/-- `struct filter` (src/FiltersList.h:40-51). -/
structure Flt (V : Type) where
  op : Option (Op V)
  ms0 : Int
  ms1 : Int
  action : Action
  value : Kind
  sum : ℂ
  integrate : Bool
  label : Str

/-- A filter as constructed (src/FiltersList.h:50). -/
noncomputable def Flt.new (V : Type) : Flt V :=
  { op := none, ms0 := -1, ms1 := -1, action := .expeconly, value := .real, sum := 0, integrate := false, label := [] }

/-- What is written to the output file. -/
inductive Tok where
  | word (s : Str)
  | num (x : ℝ)
  | cnum (z : ℂ)
  | newline

/-- `FiltersList`; `file` is `none` while the file is not open. -/
structure FList (V : Type) where
  renorm : Bool
  size : Nat
  inited : Bool
  slots : Nat → Flt V
  writefile : Bool
  file : Option (List Tok)

/-- A new list (src/FiltersList.cpp:11-15). -/
noncomputable def FList.new (V : Type) : FList V :=
  { renorm := false, size := 0, inited := false, slots := fun _ => Flt.new V, writefile := false, file := none }

variable {V : Type}

/-- Writing to the file; nothing happens while it is not open. -/
def FList.emit (l : FList V) (t : List Tok) : FList V := { l with file := l.file.map (· ++ t) }

/-- Changing the slot with number `_size`. -/
def FList.modify (l : FList V) (f : Flt V → Flt V) : FList V :=
  { l with slots := fun i => if i = l.size then f (l.slots i) else l.slots i }

/-- `MAX_FILTERS` (src/FiltersList.h:15). -/
def maxFilters : Nat := 128

/-- The names of the kinds of values (src/FiltersList.cpp:77-86). -/
def kindOf (s : Str) : Option Kind :=
  if s = "real".toList then some .real
  else if s = "imag".toList then some .imag
  else if s = "complex".toList then some .complex
  else if s = "abs".toList then some .abs
  else none

/-- The names of the actions (src/FiltersList.cpp:93-118). -/
def actionOf (s : Str) : Option Action :=
  if s = "normalize".toList then some .normalize
  else if s = "expec".toList then some .expec
  else if s = "apply".toList then some .apply
  else if s = "expeconly".toList then some .expeconly
  else if s = "rho".toList then some .rho
  else none

/-- Actions that write a value (src/FiltersList.cpp:96-112). -/
def Action.writes : Action → Bool
  | .expec | .expeconly | .rho => true
  | .apply | .normalize => false

/-- `Add` (src/FiltersList.cpp:57-127).  Neither the operator nor the header is used. -/
noncomputable def add (l : FList V) (_O : Option (Op V)) (_header faction val : Str) (states : List Int) (integrate : Bool) :
    Out (FList V) :=
  let action := if faction.length = 0 then "expeconly".toList else faction
  let value := if val.length = 0 then "expeconly".toList else val
  if l.size ≥ maxFilters then .threw l
  else
    match kindOf value with
    | none => .threw l
    | some k =>
      let l := l.modify fun f => { f with value := k, integrate := integrate, sum := 0 }
      match actionOf action with
      | none => .threw l
      | some a =>
        let l := l.modify fun f => { f with action := a }
        let l := if a.writes then { l with writefile := true } else l
        match states with
        | [i, j] =>
          let l := l.modify fun f => { f with ms0 := i, ms1 := j }
          .ok { l with size := l.size + 1 }
        | [] => .ok { l with size := l.size + 1 }
        | _ => .threw l

/-- One element of a filter section; `op` is the operator loaded from it (`none`: loading fails). -/
structure Entry (V : Type) where
  name : Str
  value : Option Str
  int : Option Bool
  ms : Option (List Int)
  header : Option Str
  op : Option (Op V)

/-- Storing the option `header` of an element (src/FiltersList.cpp:213-214). -/
def setHeader (l : FList V) (h : Option Str) : FList V :=
  match h with
  | some h => l.modify fun f => { f with label := h }
  | none => l

/-- Loading one element (src/FiltersList.cpp:192-226). -/
noncomputable def loadEntry (l : FList V) (e : Entry V) : Out (FList V) :=
  if l.size ≥ maxFilters then .threw l
  else
    let l := setHeader l e.header
    if e.name ≠ "normalize".toList ∧ e.name ≠ "rho".toList then
      match e.op with
      | none => .threw l
      | some o =>
        let l := l.modify fun f => { f with op := some o }
        let l := if e.header.isNone then l.modify fun f => { f with label := o.name } else l
        add l none [] e.name (e.value.getD "real".toList) (e.ms.getD []) (e.int.getD false)
    else if e.name = "rho".toList then
      let l := if e.header.isNone then l.modify fun f => { f with label := "rho".toList } else l
      add l none [] e.name (e.value.getD "real".toList) (e.ms.getD []) (e.int.getD false)
    else add l none [] e.name (e.value.getD "real".toList) (e.ms.getD []) (e.int.getD false)

/-- The loop over the elements (src/FiltersList.cpp:190-229). -/
noncomputable def loadAll (l : FList V) : List (Entry V) → Out (FList V)
  | [] => .ok l
  | e :: es => (loadEntry l e).bind (fun l => loadAll l es)

/-- `_destroy` (src/FiltersList.cpp:26-38): the slots keep their contents. -/
def destroy (l : FList V) : FList V := { l with size := 0, inited := false, writefile := false, file := none }

/-- `PrepareOutput` (src/FiltersList.cpp:134-145). -/
def prepareOutput (l : FList V) : FList V := if l.writefile then { l with file := some [] } else l

/-- `Init` (src/FiltersList.cpp:161-232) with a section that has the option `renorm` and the elements `es`. -/
noncomputable def init (l : FList V) (renorm : Option Bool) (es : List (Entry V)) : Out (FList V) :=
  let l := if l.size > 0 then destroy l else l
  let l := { l with renorm := renorm.getD l.renorm }
  match es with
  | [] => .threw l
  | es =>
    match loadAll l es with
    | .ok l => .ok (prepareOutput l)
    | .threw l => .threw l
    | .ub => .ub

/-- `_write_value` (src/FiltersList.cpp:237-253). -/
noncomputable def shown (k : Kind) (z : ℂ) : Tok :=
  match k with
  | .imag => .num z.im
  | .complex => .cnum z
  | .abs => .num ‖z‖
  | .real => .num z.re

/-- The initialisation of one filter in the first call (src/FiltersList.cpp:266-281). -/
def prepare (e : Env V) (psi : V) (l : FList V) (i : Nat) : Out (FList V) :=
  let f := l.slots i
  let go (l : FList V) : Out (FList V) :=
    let l := if l.writefile ∧ f.action.writes then l.emit [.word f.label] else l
    if f.ms0 > -1 ∨ f.ms1 > -1 then
      match e.states psi with
      | none => .threw l
      | some n => if (n : Int) ≤ f.ms0 ∨ (n : Int) ≤ f.ms1 then .threw l else .ok l
    else .ok l
  if f.action ≠ .normalize ∧ f.action ≠ .rho then
    match f.op with
    | none => .ub
    | some o => if o.ini psi then go l else .threw l
  else go l

/-- The initialisation loop (src/FiltersList.cpp:265-282); arguments: filters left, `i`. -/
def prepareAll (e : Env V) (psi : V) : Nat → Nat → FList V → Out (FList V)
  | 0, _, l => .ok l
  | n + 1, i, l => (prepare e psi l i).bind (prepareAll e psi n (i + 1))

/-- Accumulating and writing a value (src/FiltersList.cpp:303-308, 327-332). -/
noncomputable def record (dt : ℝ) (l : FList V) (i : Nat) (z : ℂ) : FList V :=
  let s := if (l.slots i).integrate then (l.slots i).sum + z * dt else z
  let l := { l with slots := fun j => if j = i then { l.slots j with sum := s } else l.slots j }
  l.emit [shown (l.slots i).value s]

/-- One filter (src/FiltersList.cpp:293-335). -/
noncomputable def applyOne (e : Env V) (t dt : ℝ) (l : FList V) (i : Nat) (psi : V) : Out (FList V × V) :=
  let f := l.slots i
  match f.action with
  | .expec | .expeconly =>
    match f.op with
    | none => .ub
    | some o =>
      let z := o.mat t psi
      let z := if l.renorm then e.div z (e.ip psi psi) else z
      let l := record dt l i z
      if f.action = .expec then
        match o.app t psi with
        | none => .threw (l, psi)
        | some p => .ok (l, p)
      else .ok (l, psi)
  | .apply =>
    match f.op with
    | none => .ub
    | some o =>
      match o.app t psi with
      | none => .threw (l, psi)
      | some p => .ok (l, p)
  | .normalize => .ok (l, e.norm psi)
  | .rho =>
    match e.states psi with
    | none => .ub
    | some n =>
      if 0 ≤ f.ms0 ∧ f.ms0 < n ∧ 0 ≤ f.ms1 ∧ f.ms1 < n then
        .ok (record dt l i (e.rho psi f.ms0.toNat f.ms1.toNat), psi)
      else .ub

/-- The loop over the filters (src/FiltersList.cpp:292-336); arguments: filters left, `i`. -/
noncomputable def applyAll (e : Env V) (t dt : ℝ) : Nat → Nat → FList V × V → Out (FList V × V)
  | 0, _, s => .ok s
  | n + 1, i, s => (applyOne e t dt s.1 i s.2).bind (applyAll e t dt n (i + 1))

/-- The first call: header and initialisation (src/FiltersList.cpp:263-285). -/
noncomputable def firstCall (e : Env V) (psi : V) (l : FList V) : Out (FList V) :=
  if l.inited then .ok l
  else
    match prepareAll e psi l.size 0 (l.emit [.word "time".toList]) with
    | .ok l => .ok (if l.writefile then l.emit [.newline] else l)
    | .threw l => .threw l
    | .ub => .ub

/-- `Apply` (src/FiltersList.cpp:258-340) at time `t` with time step `dt`. -/
noncomputable def apply (e : Env V) (t dt : ℝ) (l : FList V) (psi : V) : Out (FList V × V) :=
  if l.size = 0 then .ok (l, psi)
  else
    match firstCall e psi l with
    | .threw l => .threw (l, psi)
    | .ub => .ub
    | .ok l =>
      let l := if l.writefile then l.emit [.num t] else l
      match applyAll e t dt l.size 0 (l, psi) with
      | .ok (l, psi) =>
        let l := if l.writefile then l.emit [.newline] else l
        .ok ({ l with inited := true }, psi)
      | .threw s => .threw s
      | .ub => .ub

/-- A call: time, time step, wave function. -/
structure Call (V : Type) where
  t : ℝ
  dt : ℝ
  psi : V

/-- Several calls of `Apply`, as in the loops of the programs (src/ProgPropa.cpp:317-327, src/ProgFilter.cpp:163-169); the
wave functions left by them. -/
noncomputable def applies (e : Env V) (l : FList V) : List (Call V) → Out (FList V × List V)
  | [] => .ok (l, [])
  | c :: cs =>
    match apply e c.t c.dt l c.psi with
    | .threw s => .threw (s.1, [])
    | .ub => .ub
    | .ok (l, psi) =>
      match applies e l cs with
      | .ok (l, ps) => .ok (l, psi :: ps)
      | .threw (l, ps) => .threw (l, psi :: ps)
      | .ub => .ub

end QDng.Filters
