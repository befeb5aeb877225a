import Mathlib.Data.Real.Basic
import Verif.Common.Outcome
import Verif.FileSeq.Model

/-
Model of the programs that write and read series of wave functions: the propagation (src/ProgPropa.cpp), the filter
program (src/ProgFilter.cpp) and the part of the correlation function program that reads a propagation
(src/ProgCfun.cpp:426-451).

Wave functions are of any type.  What the propagator, the filters and the report do to a wave function is a
parameter; each may fail (an exception) and each may depend on the step number of the clock.  Numbers of steps are
integers without bound.  Directories and files can always be created and written.  A parameter file is a list of
names and values; writing it as text and parsing it again is modelled in Verif/Params.
-/

namespace QDng.Prog

open QDng QDng.Common QDng.FileSeq

/-- Value in a parameter file. -/
inductive Val where
  | int (i : Int)
  | real (x : ℝ)
  | str (s : Str)

/-- Parameter file (src/tools/ParamContainer.h). -/
abbrev Meta := List (Str × Val)

/-- Entry of a parameter file. -/
def Meta.find (m : Meta) (key : Str) : Option Val := (m.find? fun p => p.1 = key).map Prod.snd

/-- `GetValue(name, int&)` (src/tools/ParamContainer.cpp:149-159): 0 for a missing entry.  `none`: the entry is not
an integer and the variable is left as it was. -/
def Meta.getInt (m : Meta) (key : Str) : Option Int :=
  match m.find key with
  | none => some 0
  | some (.int i) => some i
  | some _ => none

/-- `GetValue(name, double&)` (src/tools/ParamContainer.cpp:223-234). -/
def Meta.getReal (m : Meta) (key : Str) : Option ℝ :=
  match m.find key with
  | none => some 0
  | some (.real x) => some x
  | some _ => none

/-- `GetValue(name, string&)` (src/tools/ParamContainer.cpp:129-139). -/
def Meta.getStr (m : Meta) (key : Str) : Option Str :=
  match m.find key with
  | none => some []
  | some (.str s) => some s
  | some _ => none

/-- The disk: wave function files and parameter files by name. -/
structure Disk (Ψ : Type) where
  files : FS Ψ
  pars : Str → Option Meta

/-! ### Propagation -/

/-- The attributes of the input section that matter here (src/ProgPropa.cpp:48-87); `dt` and `steps` are 0 when
missing. -/
structure Attr where
  dt : ℝ
  steps : Int
  wcycle : Option Int
  dir : Option Str
  fname : Option Str
  start : Option Int

/-- The settings of the propagation after `_InitParams`. -/
structure Conf where
  dt : ℝ
  steps : Int
  wcycle : Int
  dir : Str
  fname : Str
  start : Int

/-- Appending `/` to the directory (src/ProgPropa.cpp:69-73, src/ProgFilter.cpp:46-51).  The last character is looked at
before the test for an empty name; there is none then. -/
def addSlash (d : Str) : Ans Str :=
  match d.getLast? with
  | none => .ub
  | some c => if c ≠ '/' then .val (d ++ ['/']) else .val d

/-- Choice of the directory (src/ProgPropa.cpp:69-73); `preset` was given by `SetDirectory`. -/
def chooseDir (preset : Str) (dir : Option Str) : Ans Str :=
  match dir with
  | none => .val preset
  | some d => if preset = [] then addSlash d else .val preset

/-- The settings taken from the attributes (src/ProgPropa.cpp:18, 56-57, 61-62, 77-83). -/
def conf (a : Attr) (dir : Str) : Conf :=
  { dt := a.dt, steps := a.steps, wcycle := a.wcycle.getD 10, dir := dir, fname := a.fname.getD ['W', 'F'], start := a.start.getD 0 }

/-- `_InitParams` (src/ProgPropa.cpp:35-137). -/
noncomputable def initParams (preset : Str) (a : Attr) : Ans Conf :=
  open Classical in
  if a.dt = 0 then .threw
  else if a.steps = 0 then .threw
  else if a.wcycle.isSome ∧ a.steps < 1 then .threw
  else
    match chooseDir preset a.dir with
    | .threw => .threw
    | .ub => .ub
    | .val dir =>
      if a.start.getD 0 < 0 then .threw
      else .val (conf a dir)

/-- What happens to the wave function in one step (src/ProgPropa.cpp:318-322): filters before the step, the test of the
norm in the report, the propagator, filters after the step.  The first argument is the step number of the clock. -/
structure Env (Ψ : Type) where
  pre : Int → Ψ → Option Ψ
  good : Ψ → Bool
  prop : Int → Ψ → Option Ψ
  post : Int → Ψ → Option Ψ

/-- State of the propagation loop.  `reports` lists the calls of the report with step number and wave function. -/
structure World (Ψ : Type) where
  psi : Ψ
  step : Int
  seq : Seq
  disk : Disk Ψ
  reports : List (Int × Ψ)

/-- Name of the parameter file of a propagation (src/ProgPropa.cpp:156). -/
def metaName (dir : Str) : Str := dir ++ "Propagation.meta".toList

/-- `_WriteMeta` (src/ProgPropa.cpp:144-158). -/
def writeMeta {Ψ : Type} (c : Conf) (nt : Int) (d : Disk Ψ) : Disk Ψ :=
  let p : Meta := [("CLASS".toList, .str "Propagation".toList), ("Nt".toList, .int nt), ("dt".toList, .real c.dt),
    ("WFBaseName".toList, .str c.fname), ("Wcycle".toList, .int c.wcycle)]
  { d with pars := fun n => if n = metaName c.dir then some p else d.pars n }

/-- `wfile << Psi` (src/ProgPropa.cpp:295, 324). -/
def snapshot {Ψ : Type} (w : World Ψ) : World Ψ :=
  let r := FileSeq.write w.psi (w.seq, w.disk.files)
  { w with seq := r.1, disk := { w.disk with files := r.2 } }

/-- Writing of every `_wcycle`-th wave function (src/ProgPropa.cpp:323-326). -/
def maybeWrite {Ψ : Type} (c : Conf) (i : Int) (w : World Ψ) : Out (World Ψ) :=
  if c.wcycle = 0 then .ub
  else if i.tmod c.wcycle = 0 then
    let w := snapshot w
    .ok { w with disk := writeMeta c i w.disk }
  else .ok w

/-- One pass of the propagation loop (src/ProgPropa.cpp:317-327). -/
def iter {Ψ : Type} (e : Env Ψ) (c : Conf) (i : Int) (w : World Ψ) : Out (World Ψ) :=
  match e.pre w.step w.psi with
  | none => .threw w
  | some p =>
    let w := { w with psi := p }
    if e.good p then
      let w := { w with reports := w.reports ++ [(w.step, p)] }
      match e.prop w.step p with
      | none => .threw w
      | some q =>
        let w := { w with psi := q, step := w.step + 1 }
        match e.post w.step q with
        | none => .threw w
        | some q => maybeWrite c i { w with psi := q }
    else .threw w

/-- The propagation loop (src/ProgPropa.cpp:317-327); the first argument is the number of passes left. -/
def loop {Ψ : Type} (e : Env Ψ) (c : Conf) : Nat → Int → World Ψ → Out (World Ψ)
  | 0, _, w => .ok w
  | n + 1, i, w => (iter e c i w).bind (loop e c n (i + 1))

/-- The state before the loop (src/ProgPropa.cpp:286-314); `psi` is the initial wave function after the initialisation
filters. -/
def initial {Ψ : Type} (c : Conf) (psi : Ψ) (d : Disk Ψ) : World Ψ :=
  let w : World Ψ := { psi := psi, step := c.start, disk := d, reports := []
                       seq := { name := c.dir ++ c.fname, suffix := ".wf".toList, sequence := true, counter := 0
                                increment := 1 } }
  if c.start ≠ 0 then { w with seq := w.seq.setCounter c.start } else snapshot w

/-- First value of the loop counter (src/ProgPropa.cpp:308-312). -/
def firstStep (c : Conf) : Int := if c.start = 0 then 1 else c.start

/-- Number of passes of `for (i=start; i <= Steps; i++)` (src/ProgPropa.cpp:317). -/
def passes (c : Conf) : Nat := (c.steps - firstStep c + 1).toNat

/-- `_Finalize` (src/ProgPropa.cpp:163-172), only the parameter file. -/
def finalize {Ψ : Type} (c : Conf) (w : World Ψ) : World Ψ := { w with disk := writeMeta c c.steps w.disk }

/-- The loop and the end of the program (src/ProgPropa.cpp:316-335). -/
def body {Ψ : Type} (e : Env Ψ) (c : Conf) (psi : Ψ) (d : Disk Ψ) : Out (World Ψ) :=
  match loop e c (passes c) (firstStep c) (initial c psi d) with
  | .ok w => .ok (finalize c w)
  | .threw w => .threw (finalize c w)
  | .ub => .ub

/-- Outcome of a program: what is left on the disk. -/
inductive Res (A : Type) where
  | done (a : A)
  | failed (a : A)
  | rejected
  | ub

/-- `Run` (src/ProgPropa.cpp:178-336). -/
noncomputable def propagate {Ψ : Type} (e : Env Ψ) (preset : Str) (a : Attr) (psi : Ψ) (d : Disk Ψ) : Res (World Ψ) :=
  match initParams preset a with
  | .threw => .rejected
  | .ub => .ub
  | .val c =>
    match body e c psi d with
    | .ok w => .done w
    | .threw w => .failed w
    | .ub => .ub

/-! ### Filter program -/

/-- State of the filter program.  `seen` lists the wave functions given to the filters with the time of the clock. -/
structure FWorld (Ψ : Type) where
  step : Int
  seq : Seq
  seen : List (ℝ × Ψ)

/-- `_filter.Apply(WF); report.Analyze(WF); ++(*clock)` (src/ProgFilter.cpp:158-160, 166-168). -/
def filterOne {Ψ : Type} (ok : Ψ → Bool) (dt : ℝ) (psi : Ψ) (w : FWorld Ψ) : Out (FWorld Ψ) :=
  let w := { w with seen := w.seen ++ [(w.step * dt, psi)] }
  if ok psi then .ok { w with step := w.step + 1 } else .threw w

/-- Reading one file and filtering (src/ProgFilter.cpp:165-168). -/
def filterNext {Ψ : Type} (ok : Ψ → Bool) (dt : ℝ) (fs : FS Ψ) (w : FWorld Ψ) : Out (FWorld Ψ) :=
  match FileSeq.read w.seq fs with
  | none => .threw w
  | some (psi, seq) => filterOne ok dt psi { w with seq := seq }

/-- Loop over the files (src/ProgFilter.cpp:163-169). -/
def filterLoop {Ψ : Type} (ok : Ψ → Bool) (dt : ℝ) (fs : FS Ψ) : Nat → FWorld Ψ → Out (FWorld Ψ)
  | 0, w => .ok w
  | n + 1, w => (filterNext ok dt fs w).bind (filterLoop ok dt fs n)

/-- The parameters read from the propagation (src/ProgFilter.cpp:62-92): time step, number of steps and base name,
rescaled by the write cycle.  The rounded quotient of two `int` numbers in double precision truncates to the exact
integer quotient. -/
noncomputable def readPropagation {Ψ : Type} (path : Str) (d : Disk Ψ) : Ans (ℝ × Int × Str) :=
  match d.pars (path ++ "/Propagation.meta".toList) with
  | none => .threw
  | some p =>
    match p.getStr "CLASS".toList with
    | none => .threw
    | some cls =>
      if cls ≠ "Propagation".toList then .threw
      else
        match p.getInt "Nt".toList, p.getReal "dt".toList, p.getInt "Wcycle".toList, p.getStr "WFBaseName".toList with
        | some nt, some dt, some wc, some base =>
          if wc = 0 then .ub else .val (dt * wc, nt.tdiv wc, base)
        | _, _, _, _ => .ub

/-- `Run` of the filter program (src/ProgFilter.cpp:117-175). -/
noncomputable def runFilter {Ψ : Type} (ok : Ψ → Bool) (path : Str) (d : Disk Ψ) : Res (FWorld Ψ) :=
  match readPropagation path d with
  | .threw => .rejected
  | .ub => .ub
  | .val (dt, n, base) =>
    let w : FWorld Ψ := { step := 0, seen := []
                          seq := { name := path ++ '/' :: base, suffix := ".wf".toList, sequence := true, counter := 0
                                   increment := 1 } }
    match (filterNext ok dt d.files w).bind (filterLoop ok dt d.files n.toNat) with
    | .ok w => .done w
    | .threw w => .failed w
    | .ub => .ub

/-! ### Reading a propagation in the correlation function program -/

/-- `WFBuffer::ReadFromFiles(name)` with the default arguments (src/qdlib/WFBuffer.cpp:313-339): reads `name_0.wf`,
`name_1.wf`, … until a file is missing; the first one must exist.  `fuel` bounds the number of files. -/
def readSeries {Ψ : Type} (fs : FS Ψ) : Nat → Seq → List Ψ
  | 0, _ => []
  | n + 1, s =>
    match FileSeq.read s fs with
    | none => []
    | some (x, s) => x :: readSeries fs n s

/-- The section `read` (src/ProgCfun.cpp:426-451): number of steps, write cycle and wave functions.  `fuel` bounds the
number of files on the disk.  The comparison of line 446 is one of unsigned numbers. -/
noncomputable def readBaseline {Ψ : Type} (fuel : Nat) (dir : Str) (d : Disk Ψ) : Ans (ℝ × Int × Int × List Ψ) :=
  match d.pars (dir ++ "/Propagation.meta".toList) with
  | none => .threw
  | some p =>
    match p.getInt "Nt".toList, p.getInt "wcycle".toList, p.getReal "dt".toList with
    | some nt, some wc, some dt =>
      let l := readSeries d.files fuel { name := dir, suffix := ".wf".toList, sequence := true, counter := 0, increment := 1 }
      if l = [] then .threw
      else if wc = 0 then .ub
      else .val (dt, if nt.tdiv wc < 0 ∨ (l.length : Int) < nt.tdiv wc then l.length else nt, wc, l)
    | _, _, _ => .ub

end QDng.Prog
