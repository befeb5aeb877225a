import Verif.PNum.Model
import Verif.Cfun.Model

/-
Model of the input parameters and of the output file of the correlation function program (src/ProgCfun.cpp).

The attributes of the program are a parameter container (Verif/Params, numbers as in Verif/PNum); the conversions of
numbers of type `double` are a parameter (`Lib`).  The calculation itself is the model of Verif/Cfun.  A baseline read from
files (`read`) is in Verif/Prog, the file format in Verif/Serial; the dump of the baseline (`write`) is not modelled.
-/

namespace QDng.CfIn

open QDng QDng.Common QDng.Params QDng.PNum

variable {R V K : Type}

/-- Conversions of numbers of type `double`: `sscanf` with `%lf` (src/tools/ParamContainer.cpp:226), the output of a
stream (src/tools/ParamContainer.cpp:588) and the product with an `int` (src/ProgCfun.cpp:139). -/
structure Lib (R : Type) where
  scan : Str → Option R
  text : R → Str
  times : R → Int → R

/-- The members set by `InitParams_` (src/ProgCfun.h:51-56, 69-70; src/ProgCfun.cpp:24-25, 34-101). -/
structure Settings (R : Type) where
  dir : Str
  fname : Str
  read : Str
  write : Str
  dt : R
  steps : Int
  stepsint : Int
  wcycle : Int

/-- The attribute `dir` (src/ProgCfun.cpp:41-45); looking at the last character of an empty text is undefined. -/
def initDir (attr : Container) (dir0 : Str) : Ans Str :=
  if attr.isPresent ['d', 'i', 'r'] ∧ dir0 = [] then
    let d := (attr.getString ['d', 'i', 'r']).2
    match d.getLast? with
    | none => .ub
    | some c => .val (if c ≠ '/' then d ++ ['/'] else d)
  else .val dir0

/-- A text attribute that keeps the value it has if it is not given (src/ProgCfun.cpp:49-60). -/
def textOr (attr : Container) (name old : Str) : Str :=
  if attr.isPresent name then (attr.getString name).2 else old

/-- `GetValue(name, double&)` with a variable that was never set (src/ProgCfun.cpp:67; src/tools/ParamContainer.cpp:223-234);
`none` if it still is not. -/
def getDouble [Zero R] (lib : Lib R) (attr : Container) (name : Str) : Option R :=
  match attr.getString name with
  | (true, s) => lib.scan s
  | (false, _) => some 0

/-- An integer attribute that is read only if it is given (src/ProgCfun.cpp:75-76, 85-86). -/
def intOr (attr : Container) (name : Str) (old : Int) : Ans Int :=
  if attr.isPresent name then
    match getNum .int attr name (some old) with
    | .val (_, some v) => .val v
    | .val (_, none) => .ub
    | .threw => .threw
    | .ub => .ub
  else .val old

/-- The part of `InitParams_` after the directories and the clock (src/ProgCfun.cpp:75-87). -/
def initRest (attr : Container) (dir : Str) (dt : R) (steps : Int) : Ans (Settings R) :=
  match intOr attr ['s', 't', 'e', 'p', 's', 'i', 'n', 't'] 0 with
  | .threw => .threw
  | .ub => .ub
  | .val si =>
    if attr.isPresent ['s', 't', 'e', 'p', 's', 'i', 'n', 't'] ∧ si ≤ 0 then .threw
    else
      match intOr attr ['w', 'c', 'y', 'c', 'l', 'e'] 1 with
      | .threw => .threw
      | .ub => .ub
      | .val w =>
        .val { dir := dir, fname := textOr attr ['f', 'n', 'a', 'm', 'e'] ['C', 'f', 'u', 'n'],
               read := textOr attr ['r', 'e', 'a', 'd'] [], write := textOr attr ['w', 'r', 'i', 't', 'e'] [],
               dt := dt, steps := steps, stepsint := si, wcycle := w }

/-- `InitParams_` (src/ProgCfun.cpp:34-101); `dir0` is the directory set by the command handler.  Comparing a variable that
was never set is undefined. -/
def initParams [Zero R] [DecidableEq R] (lib : Lib R) (attr : Container) (dir0 : Str) : Ans (Settings R) :=
  match initDir attr dir0 with
  | .threw => .threw
  | .ub => .ub
  | .val dir =>
    match getDouble lib attr ['d', 't'], getNum .int attr ['s', 't', 'e', 'p', 's'] none with
    | none, _ => .ub
    | _, .ub => .ub
    | _, .threw => .threw
    | some dt, .val (_, steps) =>
      if dt = 0 then .threw
      else
        match steps with
        | none => .ub
        | some steps =>
          if steps = 0 then .threw else initRest attr dir dt steps

/-- The file written: its name without the suffix, the meta data and the values (src/ProgCfun.cpp:231-237, 380-386). -/
structure OutFile (K : Type) where
  name : Str
  info : Container
  values : List K

/-- `CreateMetaData` (src/ProgCfun.cpp:135-141) on an empty container. -/
def createMeta (lib : Lib R) (s : Settings R) (dims : Int) : Container :=
  let c := Container.empty.setValue ['C', 'L', 'A', 'S', 'S'] ['C', 'f', 'u', 'n'] .undef
  let c := setNum .int c ['N', 't'] (s.steps.tdiv s.wcycle)
  let c := c.setValue ['d', 't'] (lib.text (lib.times s.dt s.wcycle)) .double
  setNum .int c ['d', 'i', 'm'] dims

/-- The end of `RunC1` and `RunC2` (src/ProgCfun.cpp:229-237, 378-386). -/
def output (lib : Lib R) (s : Settings R) : Cfun.Result K → OutFile K
  | .one l => { name := s.dir ++ ['C', 'f', 'u', 'n', '_', '1'], info := createMeta lib s 1, values := l }
  | .two nt f =>
    { name := s.dir ++ ['C', 'f', 'u', 'n', '_', '2'], info := createMeta lib s 2,
      values := (List.range (nt * nt)).map (fun (i : Nat) => f i) }

/-- What the sections of the input give (src/ProgCfun.cpp:402-425, 462-472). -/
structure Sections (V K : Type) where
  psi0 : V
  U : Nat → V → V
  ip : V → V → K
  zero : K
  ket : List (Cfun.Elem V)
  bra : List (Cfun.Elem V)

/-- `Run` without a baseline from files (src/ProgCfun.cpp:389-539).  The quotient of the smallest `int` and minus one does
not fit into an `int` and is undefined. -/
def program [Zero R] [DecidableEq R] (lib : Lib R) (attr : Container) (dir0 : Str) (sec : Sections V K) : Ans (OutFile K) :=
  match initParams lib attr dir0 with
  | .threw => .threw
  | .ub => .ub
  | .val s =>
    if s.steps = -2147483648 ∧ s.wcycle = -1 then .ub
    else
      match Cfun.run { psi0 := sec.psi0, U := sec.U, ip := sec.ip, zero := sec.zero, ket := sec.ket, bra := sec.bra,
                       steps := s.steps, wcycle := s.wcycle, stepsint := s.stepsint } none with
      | .threw => .threw
      | .ub => .ub
      | .val r => .val (output lib s r)

end QDng.CfIn
