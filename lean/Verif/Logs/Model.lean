import Verif.Common.Outcome

/-
Model of the logger: src/tools/Logger.cpp, src/tools/Logger.h, without MPI and outside of parallel regions.

Simplifications: the text handed over to a stream is in the file or on the console at once (buffers of the C++ library are not
modelled); opening a file succeeds or fails as a parameter says; the number of indents does not reach the limit of int.
-/

namespace QDng.Logs

open QDng.Common

/-- Text. -/
abbrev Text := List Char

/-- Where `_global_out` points to: the console, the file stream of the logger, or another stream
(src/tools/Logger.h:43, src/tools/Logger.cpp:27,117,130,139,148). -/
inductive Dest where
  | console
  | file
  | other (k : Nat)
deriving DecidableEq

/-- The members of `Logger` (src/tools/Logger.h:26-43) and the text which has arrived: `ofile` is the file the stream `_ofile` is
open for, `bad` its fail bit. -/
structure Logger where
  cout : Text
  dbg : Text
  last : Nat
  supress : Bool
  debug : Bool
  line : Int
  indent : Nat
  dest : Dest
  ofile : Option Nat
  bad : Bool
  console : Text
  others : Nat → Text
  files : Nat → Text

/-- Models the constructor (src/tools/Logger.cpp:25-32) in a world with the given texts. -/
def Logger.new (console : Text) (others files : Nat → Text) : Logger :=
  ⟨[], [], 0, false, false, 80, 0, .console, none, false, console, others, files⟩

/-- Models the output to `*_global_out` (src/tools/Logger.cpp:209,220). -/
def Logger.put (s : Logger) (t : Text) : Logger :=
  match s.dest with
  | .console => { s with console := s.console ++ t }
  | .other k => { s with others := fun j => if j = k then s.others k ++ t else s.others j }
  | .file =>
    match s.ofile, s.bad with
    | some f, false => { s with files := fun j => if j = f then s.files f ++ t else s.files j }
    | _, _ => s

/-- Models `string::find` of a newline from a position on (src/tools/Logger.cpp:49,55). -/
def findFrom (s : Text) (k : Nat) : Option Nat := ((s.drop k).findIdx? (· = '\n')).map (· + k)

/-- Models the loop of `_IndentString` (src/tools/Logger.cpp:50-57). -/
def padLoop (pad : Text) : Nat → Text → Option Nat → Text
  | 0, s, _ => s
  | _, s, none => s
  | fuel + 1, s, some p =>
    if p + 1 < s.length then
      let s' := s.take (p + 1) ++ (pad ++ s.drop (p + 1))
      padLoop pad fuel s' (if p + 1 ≥ s'.length then none else findFrom s' (p + 1))
    else s

/-- Models `_IndentString` (src/tools/Logger.cpp:37-58); `LOGGER_INDENT_WIDTH` is 2. The loop takes one round for each newline. -/
def indentStr (indent : Nat) (s : Text) : Text :=
  let pad := List.replicate (indent * 2) ' '
  let s := pad ++ s
  padLoop pad (s.count '\n') s (findFrom s 0)

/-- Models `flush` (src/tools/Logger.cpp:182-228). -/
def Logger.flush (s : Logger) : Logger :=
  if s.supress then { s with cout := [], dbg := [] }
  else
    let s := if s.last = 1 then { s.put (indentStr s.indent s.cout) with cout := [] } else s
    let s := if s.last = 2 then
        { (if s.debug then s.put (indentStr s.indent s.dbg) else s) with dbg := [] }
      else s
    { s with last := 0 }

/-- Models the call `cout()` (src/tools/Logger.cpp:154-162). -/
def Logger.callCout (s : Logger) : Logger := if s.last ≠ 1 then { s.flush with last := 1 } else s

/-- Models the call `coutdbg()` (src/tools/Logger.cpp:169-176). -/
def Logger.callDbg (s : Logger) : Logger := if s.last ≠ 2 then { s.flush with last := 2 } else s

/-- Models writing to the stream returned by `cout()` (src/tools/Logger.h:26). -/
def Logger.writeCout (s : Logger) (t : Text) : Logger := { s with cout := s.cout ++ t }

/-- Models writing to the stream returned by `coutdbg()` (src/tools/Logger.h:27). -/
def Logger.writeDbg (s : Logger) (t : Text) : Logger := { s with dbg := s.dbg ++ t }

/-- Models `Supress(bool)` (src/tools/Logger.h:98). -/
def Logger.setSupress (s : Logger) (b : Bool) : Logger := { s.flush with supress := b }

/-- Models `Debug(bool)` (src/tools/Logger.h:108). -/
def Logger.setDebug (s : Logger) (b : Bool) : Logger := { s with debug := b }

/-- Models `SetLineLength` (src/tools/Logger.h:118). -/
def Logger.setLine (s : Logger) (n : Int) : Logger := { s with line := n }

/-- Models `SetIndent` (src/tools/Logger.h:123). -/
def Logger.setIndent (s : Logger) (n : Int) : Logger := if 0 ≤ n then { s.flush with indent := n.toNat } else s

/-- Models `IndentInc` (src/tools/Logger.h:128). -/
def Logger.indentInc (s : Logger) : Logger := { s.flush with indent := s.flush.indent + 1 }

/-- Models `IndentDec` (src/tools/Logger.h:133). -/
def Logger.indentDec (s : Logger) : Logger := if s.indent > 0 then { s.flush with indent := s.flush.indent - 1 } else s

/-- Models `SetRedirect` (src/tools/Logger.cpp:137-140). -/
def Logger.setRedirect (s : Logger) (k : Nat) : Logger := { s with dest := .other k }

/-- Models `FileOutput` (src/tools/Logger.cpp:105-118): a file that can be opened is emptied, its stream has no failure; opening
fails also while a file is open (that of `std::ofstream`), and marks the stream as failed. -/
def Logger.fileOutput (s : Logger) (f : Nat) (canOpen : Bool) : Out Logger :=
  if s.ofile = none ∧ canOpen = true then
    .ok { s with ofile := some f, bad := false, files := (fun j => if j = f then [] else s.files j), dest := .file }
  else .threw { s with bad := true }

/-- Models `FileClose` (src/tools/Logger.cpp:123-131): closing without an open file marks the stream as failed. -/
def Logger.fileClose (s : Logger) : Logger :=
  let s := s.flush
  { s with ofile := none, bad := s.bad || s.ofile.isNone, dest := .console }

/-- Models `ConsoleOutput` (src/tools/Logger.cpp:145-149). -/
def Logger.consoleOutput (s : Logger) : Logger :=
  { (if s.ofile.isSome then s.fileClose else s) with dest := .console }

/-- The conversion to `unsigned long`, in which the fill of a header is counted (src/tools/Logger.cpp:246,255,259). -/
def wrap (z : Int) : Nat := (z % 2 ^ 64).toNat

/-- The kinds of headers (src/tools/Logger.h:61). -/
inductive Kind where
  | chapter
  | sect
  | subsect

/-- The text of a header (src/tools/Logger.cpp:240-267). -/
def headerText (line : Int) (title : Text) : Kind → Text
  | .chapter => ['\n', '\n'] ++ List.replicate line.toNat '*' ++ ['\n'] ++
      List.replicate (wrap (line - title.length) / 2) ' ' ++ title ++ ['\n'] ++ List.replicate line.toNat '*' ++ ['\n', '\n']
  | .sect => ['\n', '*'] ++ List.replicate (wrap ((wrap (line - title.length) / 2 : Nat) - 2)) '*' ++ [' '] ++ title ++ [' '] ++
      List.replicate (wrap ((wrap (line - title.length) / 2 : Nat) - 2)) '*' ++ ['\n', '\n']
  | .subsect => ['*', ' '] ++ title ++ ['\n', '\n']

/-- Models `Header` (src/tools/Logger.cpp:233-268). -/
def Logger.header (s : Logger) (title : Text) (k : Kind) : Logger := s.flush.put (headerText s.flush.line title k)

/-- Models `Close` (src/tools/Logger.cpp:67-73): the logger after it, which is then deleted, with the text which has arrived. -/
def Logger.close (s : Logger) : Logger := { s.flush with ofile := none }

/-- The calls of a user; `say` and `detail` are `log.cout() << t` and `log.coutdbg() << t`. -/
inductive Ev where
  | say (t : Text)
  | detail (t : Text)
  | flush
  | supress (b : Bool)
  | setIndent (n : Int)
  | inc
  | dec

/-- One call (src/tools/Logger.h:83-133). -/
def Logger.step (s : Logger) : Ev → Logger
  | .say t => s.callCout.writeCout t
  | .detail t => s.callDbg.writeDbg t
  | .flush => s.flush
  | .supress b => s.setSupress b
  | .setIndent n => s.setIndent n
  | .inc => s.indentInc
  | .dec => s.indentDec

/-- A sequence of calls (src/tools/Logger.h:83-133). -/
def Logger.run (s : Logger) (evs : List Ev) : Logger := evs.foldl Logger.step s

end QDng.Logs
