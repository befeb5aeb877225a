import Verif.Prog.Model

/-
Model of the set-up of the calculation of eigenfunctions and of its table of energies, src/ProgEigen.cpp.

The attributes have already been converted to numbers and truth values (see C03 to C08 for the conversions); numbers are exact.  Creating the
directory and the messages are left out.  The calculation itself is the subject of C98 to C100.
-/

namespace QDng.EigRun
open QDng.Common

/-- The methods (src/ProgEigen.h:66-69). -/
inductive Method where
  | imag | ac | lanczos
  deriving DecidableEq

/-- The attributes that `_InitParams` reads (src/ProgEigen.cpp:154-262). -/
structure Attr where
  method : Option Str
  dt : Option ℝ
  nef : Option Int
  start : Option Int
  diag : Option Bool
  conv : Option ℝ
  tol : Option ℝ
  width : Option Int
  read : Option Str
  win : Option Bool
  steps : Option Int
  fname : Option Str
  ename : Option Str
  dir : Option Str

/-- The settings (src/ProgEigen.h:77-93). -/
structure Conf where
  method : Method
  dt : ℝ
  nef : Int
  start : Int
  diag : Bool
  conv : ℝ
  tol : ℝ
  width : Int
  read : Str
  win : Bool
  steps : Int
  fname : Str
  ename : Str
  dir : Str

/-- The constructor (src/ProgEigen.cpp:31-37, src/ProgEigen.h:15-21); `dt` is not set there. -/
noncomputable def initial (preset : Str) : Conf :=
  { method := .imag, dt := 0, nef := 20, start := 0, diag := true, conv := 1e-8, tol := 1, width := -1, read := [], win := true, steps := 512,
    fname := "ef".toList, ename := "energy.dat".toList, dir := preset }

/-- The choice of the method (src/ProgEigen.cpp:154-161). -/
def chooseMethod : Option Str → Option Method
  | none => some .imag
  | some s =>
    if s = "imag".toList then some .imag
    else if s = "ac".toList then some .ac
    else if s = "lanczos".toList then some .lanczos
    else none

/-- The default of the convergence (src/ProgEigen.cpp:191-194, src/ProgEigen.h:16-17). -/
noncomputable def defaultConv (diag : Bool) : ℝ := if diag then 1e-5 else 1e-8

/-- The parameters of the relaxation (src/ProgEigen.cpp:170-202). -/
noncomputable def imagParams (a : Attr) (c : Conf) : Option Conf :=
  open Classical in
  let nef := a.nef.getD c.nef
  if a.nef.isSome ∧ nef < 1 then none
  else
    let start := a.start.getD c.start
    if a.start.isSome ∧ start < 0 then none
    else if a.start.isSome ∧ start > nef then none
    else
      let diag := a.diag.getD true
      let conv := a.conv.getD (defaultConv diag)
      if a.conv.isSome ∧ conv > 1 then none
      else some { c with nef := nef, start := start, diag := diag, conv := conv }

/-- The parameters of the extraction from the autocorrelation (src/ProgEigen.cpp:203-225). -/
noncomputable def acParams (a : Attr) (c : Conf) : Option Conf :=
  open Classical in
  let diag := a.diag.getD false
  let tol := a.tol.getD c.tol
  if a.tol.isSome ∧ tol < 0 then none
  else
    let width := a.width.getD c.width
    if a.width.isSome ∧ width < 0 then none
    else some { c with diag := diag, tol := tol, width := width, read := a.read.getD c.read, win := a.win.getD true }

/-- The parameters of the method (src/ProgEigen.cpp:170, 203, 226-228). -/
noncomputable def methodParams (m : Method) (a : Attr) (c : Conf) : Option Conf :=
  match m with
  | .imag => imagParams a c
  | .ac => acParams a c
  | .lanczos => some { c with diag := a.diag.getD true }

/-- The number of steps (src/ProgEigen.cpp:231-237). -/
def stepParams (a : Attr) (c : Conf) : Option Conf :=
  if c.method ≠ .lanczos then
    if a.steps.isSome ∧ a.steps.getD c.steps < 1 then none else some { c with steps := a.steps.getD c.steps }
  else some c

/-- The names of the files (src/ProgEigen.cpp:244-255). -/
def nameParams (a : Attr) (c : Conf) : Option Conf :=
  if a.fname = some [] then none
  else if a.ename = some [] then none
  else some { c with fname := a.fname.getD c.fname, ename := a.ename.getD c.ename }

/-- `_InitParams` (src/ProgEigen.cpp:144-263); `preset` is the directory of the command line. -/
noncomputable def initParams (preset : Str) (a : Attr) : Ans Conf :=
  match chooseMethod a.method with
  | none => .threw
  | some m =>
    match a.dt with
    | none => .threw
    | some dt =>
      let c := { initial preset with method := m, dt := dt }
      match methodParams m a c with
      | none => .threw
      | some c =>
        match stepParams a c with
        | none => .threw
        | some c =>
          match nameParams a c with
          | none => .threw
          | some c =>
            match Prog.chooseDir preset a.dir with
            | .threw => .threw
            | .ub => .ub
            | .val d => .val { c with dir := d }

/-! ### The table of energies -/

/-- A line of the table (src/ProgEigen.cpp:67-83): number, energy, energy in wave numbers, difference to the first and to the line above. -/
structure Row where
  number : Nat
  energy : ℝ
  wave : ℝ
  first : ℝ
  above : Option ℝ

/-- One line (src/ProgEigen.cpp:67-73, 75-81); `unit` is `AU2WAVENUMBERS`. -/
noncomputable def row (unit : ℝ) (E : Nat → ℝ) (i : Nat) : Row :=
  { number := i, energy := E i, wave := E i * unit, first := (E i - E 0) * unit,
    above := if i > 0 then some ((E i - E (i - 1)) * unit) else none }

/-- The loop over the energies (src/ProgEigen.cpp:64-84): the number of lines left and the number of the line. -/
noncomputable def rows (unit : ℝ) (diag : Bool) (raw diagonal : Nat → ℝ) : Nat → Nat → List Row
  | 0, _ => []
  | n + 1, i => (if diag then row unit diagonal i else row unit raw i) :: rows unit diag raw diagonal n (i + 1)

/-- How writing the table ends. -/
inductive Written where
  | table (name : Str) (l : List Row)
  /-- the message that the table cannot be written (src/ProgEigen.cpp:86-88) -/
  | reported
  /-- the program is ended: `throw` without an exception calls `std::terminate` -/
  | terminated

/-- `WriteEnergyFile()` (src/ProgEigen.cpp:53-89); `canOpen` says whether a file can be opened for writing, `fails` whether writing ends with an
exception. -/
noncomputable def writeEnergyFile (canOpen fails : Str → Bool) (unit : ℝ) (c : Conf) (raw diagonal : Nat → ℝ) : Written :=
  if !canOpen (c.dir ++ c.ename) then .terminated
  else if fails (c.dir ++ c.ename) then .reported
  else .table (c.dir ++ c.ename) (rows unit c.diag raw diagonal c.nef.toNat 0)

end QDng.EigRun
