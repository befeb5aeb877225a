import Verif.OctFreq.Model
import Verif.Prog.Model

/-
Model of the set-up of the optimal control program and of what happens when it fails: `_InitParams`, the part of `Run`
before the iterations and the destructor, src/ProgOCT.cpp.

The attributes have already been converted to numbers, words and truth values (C03 to C08); numbers are exact.  Of the
shape file and the mask file only the time step and the number of values are looked at; a file that cannot be read is
`none` inside.  Creating the directory and the messages are left out, except for the line that shows the cut off
frequencies.
-/

namespace QDng.OctRun
open QDng.Common

noncomputable section

/-- The methods (src/ProgOCT.h:57-60). -/
inductive Method where
  | krotov | rabitz | rabitzfb | freq
  deriving DecidableEq

/-- A laser file: the time step and the number of values (src/qdlib/Laser.h:78-82). -/
structure LaserFile where
  dt : ℝ
  nt : Int

/-- The attributes `_InitParams` reads (src/ProgOCT.cpp:63-227).  `shape` and `freq`: no attribute, or the file. -/
structure Attr where
  dt : ℝ
  steps : Int
  dir : Option Str
  fname : Option Str
  writeyield : Bool
  yfile : Option Str
  method : Option Str
  shape : Option (Option LaserFile)
  freq : Option (Option LaserFile)
  freql : Option ℝ
  freqh : Option ℝ
  iterations : Option Int
  conv : Option ℝ
  writel : Option Bool
  coup : Option Str
  ttype : Option Str
  mv : Option Bool
  phase : Option Bool
  ntargets : Option Int
  alpha : Option ℝ

/-- The settings (src/ProgOCT.h:70-93). -/
structure Conf where
  dt : ℝ
  steps : Int
  dir : Str
  fname : Str
  /-- the file for the table, if there is one -/
  yieldFile : Option Str
  method : Method
  iterations : Int
  conv : ℝ
  writel : Bool
  operators : Bool
  mv : Bool
  phase : Bool
  ntargets : Int
  alpha : ℝ

/-- The choice of the method (src/ProgOCT.cpp:98-110, default from line 23). -/
def chooseMethod : Option Str → Option Method
  | none => some .krotov
  | some s =>
    if s = "krotov".toList then some .krotov
    else if s = "rabitz".toList then some .rabitz
    else if s = "rabitzfb".toList then some .rabitzfb
    else if s = "freq".toList then some .freq
    else none

open Classical in
/-- Reading the shape and setting the clock (src/ProgOCT.cpp:113-122, src/qdlib/Laser.cpp:106-112). -/
def shapeOk (dt : ℝ) (steps : Int) : Option (Option LaserFile) → Bool
  | none => false
  | some none => false
  | some (some f) => !decide (dt ≠ f.dt ∨ steps > f.nt)

/-- The number of components of the spectrum, `steps / 2 + 1` with the division of C (src/ProgOCT.cpp:135, 139). -/
def nfreq (steps : Int) : Int := steps.tdiv 2 + 1

/-- The position of a bound (src/ProgOCT.cpp:147, 158). -/
def cutoff (steps : Int) (dt f : ℝ) : ℝ := |f| * ((steps : ℝ) - 1) * dt / (2 * Real.pi)

open Classical in
/-- A bound is accepted (src/ProgOCT.cpp:145-149, 156-160). -/
def boundOk (steps : Int) (dt : ℝ) : Option ℝ → Bool
  | none => true
  | some f => !decide (cutoff steps dt f > (nfreq steps : ℝ))

open Classical in
/-- The parameters of the mask (src/ProgOCT.cpp:125-168).  A vector of negative size cannot be made (line 139). -/
def freqOk (a : Attr) : Bool :=
  match a.freq with
  | some none => false
  | some (some f) => !decide (f.dt ≠ a.dt ∨ f.nt ≠ nfreq a.steps)
  | none =>
    if a.freql.isSome ∨ a.freqh.isSome then
      if nfreq a.steps < 0 then false
      else boundOk a.steps a.dt a.freql && boundOk a.steps a.dt a.freqh
    else false

/-- The type of the targets (src/ProgOCT.cpp:197-204): true for operators. -/
def chooseTargets : Option Str → Option Bool
  | none => some false
  | some s => if s = "operator".toList then some true else if s = "overlap".toList then some false else none

/-- The type of the coupling (src/ProgOCT.cpp:189-194). -/
def coupOk : Option Str → Bool
  | none => true
  | some s => s = "dipole".toList

/-- The file for the table (src/ProgOCT.cpp:88-95). -/
def yieldFile (a : Attr) (dir : Str) : Option Str :=
  if a.writeyield ∨ a.yfile.isSome then
    if a.yfile.getD [] ≠ [] then some (dir ++ a.yfile.getD []) else some (dir ++ "Yield".toList)
  else none

open Classical in
/-- The checks between the yield file and the number of targets (src/ProgOCT.cpp:97-214). -/
def middleOk (a : Attr) : Bool :=
  match chooseMethod a.method with
  | none => false
  | some m =>
    shapeOk a.dt a.steps a.shape && (m ≠ .freq || freqOk a) && (a.iterations.isNone || !decide (a.iterations.getD 0 < 1)) &&
      (a.conv.isNone || !decide (a.conv.getD 0 < 0)) && coupOk a.coup && (chooseTargets a.ttype).isSome

/-- The line with the cut off frequencies (src/ProgOCT.cpp:60, 146, 157, 279-283): the variables have values only if
they were read from the attributes `freql` and `freqh`, which are not looked at if a mask file is given. -/
def printOk (a : Attr) : Bool :=
  chooseMethod a.method ≠ some .freq || (a.freq.isNone && a.freql.isSome && a.freqh.isSome)

/-- The settings taken from the attributes (src/ProgOCT.cpp:20-24, 71-227). -/
def conf (a : Attr) (dir : Str) : Conf :=
  { dt := a.dt, steps := a.steps, dir := dir, fname := a.fname.getD "laser".toList, yieldFile := yieldFile a dir
    method := (chooseMethod a.method).getD .krotov, iterations := a.iterations.getD 50, conv := a.conv.getD 1e-5
    writel := a.writel.getD false, operators := (chooseTargets a.ttype).getD false, mv := a.mv.getD false
    phase := a.phase.getD false, ntargets := a.ntargets.getD 1, alpha := a.alpha.getD 1 }

/-- The outcome of `_InitParams`, and the value of `_ntargets` behind it. -/
structure Init where
  ans : Ans Conf
  ntargets : Int

open Classical in
/-- `_InitParams` (src/ProgOCT.cpp:49-300); `preset` is the directory of the command line. -/
def initParams (preset : Str) (a : Attr) : Init :=
  if a.dt = 0 then ⟨.threw, 1⟩
  else if a.steps = 0 then ⟨.threw, 1⟩
  else match Prog.chooseDir preset a.dir with
    | .threw => ⟨.threw, 1⟩
    | .ub => ⟨.ub, 1⟩
    | .val d =>
      if middleOk a = false then ⟨.threw, 1⟩
      else if a.ntargets.getD 1 < 1 ∨ a.ntargets.getD 1 > 16 then ⟨.threw, a.ntargets.getD 1⟩
      else if |a.alpha.getD 1| = 0 then ⟨.threw, a.ntargets.getD 1⟩
      else if printOk a = false then ⟨.ub, a.ntargets.getD 1⟩
      else ⟨.val (conf a d), a.ntargets.getD 1⟩

/-! ### The program -/

/-- What goes well in `Run` behind `_InitParams`. -/
structure Events where
  /-- the propagator, the wave functions, the targets and the Hamiltonian are there (src/ProgOCT.cpp:813-913) -/
  loaded : Bool
  /-- `FindOperatorType` returns (src/ProgOCT.cpp:925) -/
  searched : Bool
  /-- the rest: a laser is found, the gobbler, the iterations, the files (src/ProgOCT.cpp:926-1084) -/
  rest : Bool

/-- The end of the program. -/
inductive End where
  /-- the work is done -/
  | finished
  /-- an exception has reached the caller, who prints a message (src/CmdHandler.cpp:207, src/qdng.cpp) -/
  | failed
  | ub
  deriving DecidableEq

/-- The destructor (src/ProgOCT.cpp:34-45): it reads the first `_ntargets` elements of arrays with 16 elements
(src/ProgOCT.h:105-106), and `_Coup`, which the constructor does not set (lines 20-32) but line 925.
`end_` is what happens behind it. -/
def destruct (ntargets : Int) (coupSet : Bool) (end_ : End) : End :=
  if ntargets > 16 then .ub else if coupSet then end_ else .ub

/-- `Run` and the destructor (src/CmdHandler.cpp:207-210, src/ProgOCT.cpp:803-1092). -/
def octRun (preset : Str) (a : Attr) (e : Events) : End :=
  let i := initParams preset a
  match i.ans with
  | .ub => .ub
  | .threw => destruct i.ntargets false .failed
  | .val _ =>
    if e.loaded = false then destruct i.ntargets false .failed
    else if e.searched = false then destruct i.ntargets false .failed
    else if e.rest = false then destruct i.ntargets true .failed
    else destruct i.ntargets true .finished

end

end QDng.OctRun
