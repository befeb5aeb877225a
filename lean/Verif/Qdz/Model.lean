import Verif.Cmdline.Props

/-
Model of the program that compresses and decompresses files with wave functions (src/qdz.cpp), of
the choice of the FFTW planner and the wisdom files (src/fft/FFTGlobal.cpp), and of the XML parser object
(src/tools/XmlParser.cpp).

The command line is the model of src/tools/Getopt.cpp in Verif/Cmdline.  Messages are left out.
-/

namespace QDng.Qdz

open QDng.Cmdline

/-- The options of the program (src/qdz.cpp:24-41). -/
def decls : List Decl :=
  [.flag 'd' "Decompress files rather than compression".toList,
   .flag 's' "Treat a whole series instead of single files".toList,
   .option 't' "compression tolerance".toList false "Cut off tolerance for compression".toList "1e-5".toList,
   .option 'l' "compression level".toList false
     "compression level (0=no compression, 9=best & slowest)".toList "4".toList,
   .option 'm' "compression method".toList false
     "compression method (z=zlib [default], j=bzip2)".toList "m".toList]

/-- What the program does in the end: show the help and leave, show the help because the command
line is wrong, stop with a message, work on the files, or undefined behaviour
(src/qdz.cpp:167-230). -/
inductive Action where
  | help
  | usage
  | refuse
  | decompress (file : Str) (series : Bool)
  | compress (file : Str) (series : Bool) (tol : Rat) (level : Int) (method : Str)
  | ub
  deriving DecidableEq

/-- The part of `main` behind the check of the command line (src/qdz.cpp:193-220).  `real` and `int`
are `sscanf` with `%lf` and `%d`; where they fail the variable is not set and is read in the next
line.  Numbers are exact. -/
def work (real : Str → Option Rat) (int : Str → Option Int) (o : Opts) (file : Str) : Action :=
  let series := o.has 's'
  if o.has 'd' then .decompress file series
  else
    let t := o.getStr 't'
    match real t.1 with
    | none => .ub
    | some tol =>
      if tol > 1 then .refuse
      else
        let l := t.2.getStr 'l'
        match int l.1 with
        | none => .ub
        | some level =>
          if level < 1 ∨ level > 9 then .refuse
          else
            let m := (l.2.getStr 'm').1
            if m ≠ "z".toList ∧ m ≠ "j".toList then .refuse
            else .compress file series (if tol < 0 then -tol else tol) level m

/-- Models `main` (src/qdz.cpp:167-230). -/
def main (real : Str → Option Rat) (int : Str → Option Int) (name : Str) (args : List Str) : Action :=
  let o := ((declare decls).readArgs name args).check.2
  if o.has 'h' then .help
  else
    match o.nonOption 0 with
    | none => .usage
    | some none => .ub
    | some (some file) => work real int o file

/-- The exit status of an action that does not touch files (src/qdz.cpp:181, 190, 226-229). -/
def exitStatus : Action → Int
  | .help => 0
  | .usage => 0
  | .refuse => 1
  | _ => 0

/-! ### The files of a series -/

/-- A directory with a series of files, by number; what is in a file that can be read; the file that
holds some data in the new form; which files can be written and what is left of a file that could not
(`FileWF` in src/qdz.cpp:50-98 and 112-158; names of the series are modelled in Verif/FileSeq). -/
structure Disk (F W : Type) where
  files : Nat → Option F
  decode : F → Option W
  encode : W → F
  writable : Nat → Bool
  broken : Option F

/-- Reading file `n` (src/qdz.cpp:70, 84, 130, 143). -/
def Disk.read {F W : Type} (d : Disk F W) (n : Nat) : Option W := (d.files n).bind d.decode

/-- Writing file `n` (src/qdz.cpp:77, 92, 134, 148). -/
def Disk.write {F W : Type} (d : Disk F W) (n : Nat) (w : W) : Disk F W × Bool :=
  if d.writable n then ({ d with files := fun i => if i = n then some (d.encode w) else d.files i }, true)
  else ({ d with files := fun i => if i = n then d.broken else d.files i }, false)

/-- The loop over the rest of the series (src/qdz.cpp:80-96, 137-154): every exception ends it.  The
endless loop has a bound. -/
def rest {F W : Type} : Nat → Disk F W → Nat → Disk F W
  | 0, d, _ => d
  | fuel + 1, d, n =>
    match d.read n with
    | none => d
    | some w =>
      let (d', ok) := d.write n w
      if ok then rest fuel d' (n + 1) else d'

/-- Models `DeCompress` and `Compress` for a series (src/qdz.cpp:65-97, 125-156): the disk and whether the
function ends normally. -/
def convertSeries {F W : Type} (fuel : Nat) (d : Disk F W) : Disk F W × Bool :=
  match d.read 0 with
  | none => (d, false)
  | some w =>
    let (d', ok) := d.write 0 w
    if ok then (rest fuel d' 1, true) else (d', false)

/-! ### FFTW wisdom -/

/-- How thorough the planner is (src/fft/FFTGlobal.cpp:45-72). -/
inductive Planner where
  | patient
  | measure
  | estimate
  deriving DecidableEq

/-- The parameters that matter here (src/fft/FFTGlobal.cpp:43, 54, 77, 115). -/
structure WisdomParams where
  optimize : Option Bool
  wisdom : Option Str
  save : Option Str

/-- Models the constructor (src/fft/FFTGlobal.cpp:27-82): planner, file the wisdom was taken from if it
can be opened, file that is announced for writing. -/
def fftInit (canOpen : Str → Bool) (p : WisdomParams) : Planner × Option Str × Str :=
  let optimize := p.optimize.getD true
  let wisdom := match p.wisdom with
    | some w => w
    | none => "wisdom".toList
  let (flag, source) :=
    if canOpen wisdom then (Planner.measure, some wisdom)
    else if optimize then (Planner.patient, none)
    else (Planner.estimate, none)
  let announced := match p.save with
    | some w => w
    | none => wisdom
  (flag, source, announced)

/-- Models `FlushWisdom` (src/fft/FFTGlobal.cpp:108-122): the file that is written. -/
def flushWisdom (p : WisdomParams) : Str :=
  match p.save with
  | some w => w
  | none => "wisdom".toList

/-! ### The parser object -/

/-- The parser: the root element of the document, and the node handed out
(src/tools/XmlParser.cpp:11, 33-74).  `D` are elements. -/
structure Parser (D : Type) where
  root : Option D
  node : Option (Option D)

/-- Models `Parse` (src/tools/XmlParser.cpp:33-61): `doc` is the answer of the XML library: no document,
or a document with or without a root element.  The flag tells whether it ends normally. -/
def Parser.parse {D : Type} (p : Parser D) (doc : Option (Option D)) : Parser D × Bool :=
  match doc with
  | none => (p, false)
  | some r =>
    match r with
    | none => ({ p with root := none }, false)
    | some d => ({ p with root := some d }, true)

/-- Models `Root` (src/tools/XmlParser.cpp:66-73): the element behind the node; `none` is a node without
element. -/
def Parser.getRoot {D : Type} (p : Parser D) : Parser D × Option D :=
  match p.node with
  | some n => (p, n)
  | none => ({ p with node := some p.root }, p.root)

end QDng.Qdz
