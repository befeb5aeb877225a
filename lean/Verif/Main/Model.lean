import Verif.Common.Outcome
import Verif.Cmdline.Model
import Verif.RunXml.Model

/-
Model of the main program, src/qdng.cpp, and of the recognition of the input format, src/simpleXml/Simple2Xml.cpp.

Loadable modules and OpenMP are compiled in.  Messages on the terminal and MPI are left out.  What a run does is a parameter: it ends
regularly, with an exception of the program, or in another way (undefined behaviour, an exception that is not one of the program).
-/

namespace QDng.Main
open QDng.Cmdline QDng.Common

/-! ### The format of the input -/

/-- `strstr(buf, pattern)` on the memory of the buffer (C library, used at src/simpleXml/Simple2Xml.cpp:59-72): whether the pattern was found; `none` if
the end of the memory is reached first. -/
def strstr (pattern : List Char) : List Char → Option Bool
  | [] => none
  | c :: l =>
    if pattern.isPrefixOf (c :: l) then some true
    else if c = '\x00' then some false
    else strstr pattern l

/-- The formats (src/simpleXml/Simple2Xml.h:19). -/
inductive FileType where
  | xml | simple | unknown
  deriving DecidableEq

/-- `CHUNK` (src/simpleXml/Simple2Xml.cpp:13). -/
def chunk : Nat := 1024

/-- The buffer behind `memset` and `fread` (src/simpleXml/Simple2Xml.cpp:41-44). -/
def buffer (content : List Char) : List Char :=
  content.take chunk ++ List.replicate (chunk - (content.take chunk).length) '\x00'

/-- `CheckType` (src/simpleXml/Simple2Xml.cpp:28-77): `none` is a file that cannot be opened. -/
def checkType (file : Option (List Char)) : Ans FileType :=
  match file with
  | none => .threw
  | some content =>
    if content.take chunk = [] then .threw
    else
      match strstr ['/', '>'] (buffer content) with
      | none => .ub
      | some x1 =>
        match strstr ['<', '/'] (buffer content) with
        | none => .ub
        | some x2 =>
          if x1 || x2 then .val .xml
          else
            match strstr ['{'] (buffer content) with
            | none => .ub
            | some simple =>
              match strstr ['}'] (buffer content) with
              | none => .ub
              | some _ => if simple then .val .simple else .val .unknown

/-- `CheckInput` (src/qdng.cpp:102-139): the text handed on; `parse` is the converter of the simple format, `junk` what is in the memory behind the
buffer. -/
def checkInput (parse : List Char → Ans Str) (junk : List Char) (file : Option (List Char)) : Ans Str :=
  match checkType file with
  | .threw => .threw
  | .ub => .ub
  | .val .simple => parse (file.getD [])
  | .val .xml =>
    match RunXml.readXml (file.getD []) junk with
    | some (s, true) => .val s
    | _ => .ub
  | .val .unknown => .threw

/-! ### The command line -/

/-- The options of the program (src/qdng.cpp:173-191). -/
def options : Opts :=
  (((((((Opts.new []).setOption 'm' "module path".toList false
    "User defined path to the wave function and operator modules".toList []).setOption 'd' "output directory path".toList false
      "All output files are saved in this directory".toList []).setFlag 'g'
        "Turn debug output on. Some extra informations will be printed".toList).setFlag 'c'
          "Start QDng in interactive command mode.".toList).setFlag 'v' "Show version information and exit.".toList).setOption 'p'
            "num threads".toList false "Specify the number of threads to use".toList "1".toList)

/-- The surroundings: environment variables (src/qdng.cpp:227, 241), global parameters (src/qdng.cpp:210, 293) and number conversion of the C library
(src/qdng.cpp:243, src/tools/Getopt.cpp:230-236). -/
structure Env where
  qdDir : Option Str
  ompThreads : Option Str
  modpath : Option Str
  debug : Option Bool
  strtol : Str → Int
  scanInt : Str → Option Int

/-- What a run is started with (src/qdng.cpp:290-325). -/
structure Setup where
  input : Str
  vars : OMap Str Str
  dir : Str
  threads : Int
  modpath : Option Str
  interactive : Bool
  debug : Bool
  deriving DecidableEq

/-- A `long` stored in an `int` (src/qdng.cpp:243). -/
def narrow (n : Int) : Int := (n + 2 ^ 31) % 2 ^ 32 - 2 ^ 31

/-- The words from number `i` on (src/qdng.cpp:250, 257); `none` is a read behind the end of the arguments. -/
def words (o : Opts) : Nat → Nat → Option (List Str)
  | 0, _ => some []
  | fuel + 1, i =>
    match o.nonOption i with
    | none => some []
    | some none => none
    | some (some w) => (words o fuel (i + 1)).map (w :: ·)

/-- How the first part of `main` ends (src/qdng.cpp:199, 205, 281, 284). -/
inductive Start where
  /-- the program ends with a status -/
  | ended (status : Nat)
  /-- a run begins -/
  | run (s : Setup)
  | ub
  deriving DecidableEq

/-- The module path (src/qdng.cpp:208-223). -/
def modPath (E : Env) (o : Opts) : Option Str × Opts :=
  if o.has 'm' then (some (o.getStr 'm').1, (o.getStr 'm').2) else (E.modpath, o)

/-- The output directory (src/qdng.cpp:225-234). -/
def outDir (E : Env) (o : Opts) : Str × Opts :=
  if o.has 'd' then o.getStr 'd' else (E.qdDir.getD [], o)

/-- The number of threads (src/qdng.cpp:189, 236-248). -/
def numThreads (E : Env) (o : Opts) : Int × Opts :=
  if o.has 'p' then o.getNum E.scanInt 'p' 1
  else
    (match E.ompThreads with
      | none => 1
      | some s => if narrow (E.strtol s) > 0 then narrow (E.strtol s) else 1, o)

/-- The first part of `main` (src/qdng.cpp:193-282) and the choice of the debug output (src/qdng.cpp:292-300): the help and the version end the program
with the status of success, and so do the problems that the first `catch` reports. -/
def start (E : Env) (name : Str) (args : List Str) : Start :=
  let o := (options.readArgs name args).check.2
  if o.has 'h' then .ended 0
  else if o.has 'v' then .ended 0
  else
    let m := modPath E o
    let d := outDir E m.2
    let p := numThreads E d.2
    match words p.2 p.2.argv.length 0 with
    | none => .ub
    | some [] => .ended 0
    | some (input :: defs) =>
      match RunXml.varDefs defs [] with
      | none => .ended 0
      | some vars =>
        .run { input := input, vars := vars, dir := d.1, threads := p.1, modpath := m.1, interactive := p.2.has 'c',
               debug := if p.2.has 'g' then true else E.debug.getD false }

/-- How a run ends (src/qdng.cpp:313-335). -/
inductive RunEnd where
  | ok
  /-- an exception of the program -/
  | threw
  /-- undefined behaviour, or an exception of another kind -/
  | other
  deriving DecidableEq

/-- How the program ends (src/qdng.cpp:348). -/
inductive Ending where
  | status (n : Nat)
  | abnormal
  deriving DecidableEq

/-- `main` (src/qdng.cpp:156-349). -/
def program (E : Env) (run : Setup → RunEnd) (name : Str) (args : List Str) : Ending :=
  match start E name args with
  | .ended n => .status n
  | .ub => .abnormal
  | .run s =>
    match run s with
    | .ok => .status 0
    | .threw => .status 1
    | .other => .abnormal

end QDng.Main
