import Verif.RunXml.Model

/-
What running an input file should do, without cursors.  The calls are to be made one after the other until one of them fails or something
unknown is met.
-/

namespace QDng.RunXml.Spec

open QDng.RunXml QDng.Common QDng.Params

/-- Is the node an element (not text or a comment)? -/
def isElem : Xml → Bool
  | .elem _ _ _ => true
  | .other => false

/-- The elements among some nodes. -/
def elements (l : List Xml) : List Xml := l.filter isElem

/-- Name of an element. -/
def tag : Xml → Str
  | .elem n _ _ => n
  | .other => []

/-- The elements inside an element. -/
def inside : Xml → List Xml
  | .elem _ _ c => elements c
  | .other => []

/-- One thing to do: a call, or to reject the input. -/
inductive Item where
  | call (c : Call)
  | reject

/-- An operator definition is `udef` (a propagator) or `opdef`. -/
def opItem (x : Xml) : Item :=
  if tag x = "udef".toList then .call (.loadU x) else if tag x = "opdef".toList then .call (.loadO x) else .reject

/-- A wave function definition is `wfdef`. -/
def wfItem (x : Xml) : Item := if tag x = "wfdef".toList then .call (.loadW x) else .reject

/-- The programs. -/
def progNames : List (Str × Prog) :=
  [("propa".toList, .propa), ("filter".toList, .filter), ("eigen".toList, .eigen), ("oct".toList, .oct), ("cfunc".toList, .cfunc)]

/-- A program is run in a directory. -/
def progItem (dir : Str) (x : Xml) : Item :=
  match progNames.lookup (tag x) with
  | some p => .call (.run p x dir)
  | none => .reject

/-- Wave function definitions may come first, the rest are programs. -/
def planWf (dir : Str) : List Xml → List Item
  | [] => []
  | x :: r => if tag x = "wfdefs".toList then (inside x).map wfItem ++ r.map (progItem dir) else (x :: r).map (progItem dir)

/-- Operator definitions may come before that. -/
def plan (dir : Str) : List Xml → List Item
  | [] => [.reject]
  | x :: r => if tag x = "opdefs".toList then (inside x).map opItem ++ planWf dir r else planWf dir (x :: r)

/-- Do the items one by one: the calls made behind `done` and whether all went well. -/
def exec (E : Env) : List Item → List Call → List Call × Bool
  | [], done => (done, true)
  | .reject :: _, done => (done, false)
  | .call c :: r, done => if E done c then exec E r (done ++ [c]) else (done ++ [c], false)

/-- A run that made these calls and went well or not. -/
def result (gp : Container) : List Call × Bool → Out State
  | (cs, true) => .ok { gp := gp, calls := cs }
  | (cs, false) => .threw { gp := gp, calls := cs }

/-- The value of a parameter, if there is one. -/
def param (gp : Container) (k : Str) : Option Str := if gp.isPresent k then some (gp.getString k).2 else none

/-- The directory that holds: the one of the command line, otherwise the one of the input, otherwise the one set before. -/
def chosen (cmdline : Str) (file before : Option Str) : Option Str :=
  if cmdline ≠ [] then some cmdline
  else match file with
    | some d => some d
    | none => before

/-- A directory is used with a slash at its end. -/
def slashed (d : Str) : Str := if d.getLast? = some '/' then d else d ++ ['/']

/-- The directory the programs get: without one they use the current directory. -/
def workDir (d : Option Str) : Str := d.elim [] slashed

/-- The top level elements: those inside the container element, or the root itself. -/
def top (name : Str) (attrs : List (Str × Str)) (children : List Xml) : List Xml :=
  if name = "qdng".toList ∨ name = "multi".toList then elements children else [.elem name attrs children]

/-- The attributes that become global parameters. -/
def globals (name : Str) (attrs : List (Str × Str)) : List (Str × Str) :=
  if name = "qdng".toList ∨ name = "multi".toList then attrs else []

/-- Is the call one that loads a definition? -/
def isLoad : Call → Bool
  | .run _ _ _ => false
  | _ => true

/-- A variable definition is split at its first equal sign: the name holds none. -/
def splits (d name value : Str) : Prop := '=' ∉ name ∧ d = name ++ '=' :: value

end QDng.RunXml.Spec
