import Verif.Params.Model
import Verif.Common.Outcome

/-
Model of an input file being run: src/CmdHandler.cpp:73-233 (`RunXML`) with the cursor of src/tools/XmlNode.cpp, and of the
input file being read: src/qdng.cpp:101-138 (`CheckInput`), 257-271 (variable definitions).

The XML parser itself (libxml2) is not modelled: a document is the tree it delivers.  What the programs and the loading functions
do is not modelled here: `Env` says for each call, given the calls made before, whether it returns normally or throws an exception.  The
printed messages are left out.
-/

namespace QDng.RunXml

open QDng.Common QDng.Params

/-- A node of the document (src/tools/XmlNode.cpp:51, 76): an element with name, attributes and children, or another node (text,
comment). -/
inductive Xml where
  | elem (name : Str) (attrs : List (Str × Str)) (children : List Xml)
  | other

/-- The loop to the next element node (src/tools/XmlNode.cpp:50-53, 75-78): a cursor is the list of the siblings from
`_cur_node` on, `[]` is `NULL`. -/
def skip : List Xml → List Xml
  | [] => []
  | .other :: r => skip r
  | .elem n a c :: r => .elem n a c :: r

/-- `Name` (src/tools/XmlNode.cpp:122-127): the name of the current node; `none` if there is none (`NULL` is dereferenced). -/
def nameOf : List Xml → Option Str
  | .elem n _ _ :: _ => some n
  | _ => none

/-- `NextChild` (src/tools/XmlNode.cpp:45-58): `none` is the returned `NULL`. -/
def nextChild : List Xml → Option (List Xml)
  | .elem _ _ [] :: _ => none
  | .elem _ _ (c :: cs) :: _ => some (skip (c :: cs))
  | _ => none

/-- `NextNode` (src/tools/XmlNode.cpp:72-80). -/
def nextNode (c : List Xml) : List Xml := skip c.tail

/-- `Attributes` (src/tools/XmlNode.cpp:133-157); the attribute values are those of the first text node. -/
def attributes : List Xml → Container
  | .elem _ attrs _ :: _ => attrs.foldl (fun c p => c.setValue p.1 p.2 .undef) Container.empty
  | _ => Container.empty

/-- The programs (src/CmdHandler.cpp:179-207). -/
inductive Prog where
  | propa | filter | eigen | oct | cfunc
  deriving DecidableEq

/-- The calls `RunXML` makes (src/CmdHandler.cpp:131, 133, 160, 182-207) for the element `x`. -/
inductive Call where
  /-- `LoadPropagator` -/
  | loadU (x : Xml)
  /-- `LoadOperatorChain` -/
  | loadO (x : Xml)
  /-- `LoadWaveFunctionChain` -/
  | loadW (x : Xml)
  /-- constructor, `SetDirectory` and `Run` of a program -/
  | run (p : Prog) (x : Xml) (dir : Str)

/-- Which calls return normally (`true`) after which calls (src/CmdHandler.cpp:131, 133, 160, 182-207). -/
abbrev Env := List Call → Call → Bool

/-- What lasts: the global parameters (src/tools/GlobalParams.cpp:11-28) and the calls made. -/
structure State where
  gp : Container
  calls : List Call

/-- A call: an exception leaves `RunXML` (src/CmdHandler.cpp:131, 133, 160, 182-207). -/
def call (E : Env) (c : Call) (st : State) : Out State :=
  if E st.calls c then .ok { st with calls := st.calls ++ [c] } else .threw { st with calls := st.calls ++ [c] }

/-- The loop over the operator definitions (src/CmdHandler.cpp:125-141). -/
def opdefsLoop (E : Env) : List Xml → State → Out State
  | [], st => .ok st
  | .other :: r, st => opdefsLoop E r st
  | .elem n a c :: r, st =>
    if n = "udef".toList then (call E (.loadU (.elem n a c)) st).bind (opdefsLoop E r)
    else if n = "opdef".toList then (call E (.loadO (.elem n a c)) st).bind (opdefsLoop E r)
    else .threw st

/-- The loop over the wave function definitions (src/CmdHandler.cpp:155-168). -/
def wfdefsLoop (E : Env) : List Xml → State → Out State
  | [], st => .ok st
  | .other :: r, st => wfdefsLoop E r st
  | .elem n a c :: r, st =>
    if n = "wfdef".toList then (call E (.loadW (.elem n a c)) st).bind (wfdefsLoop E r)
    else .threw st

/-- The name of a program (src/CmdHandler.cpp:182-207). -/
def progOf (n : Str) : Option Prog :=
  if n = "propa".toList then some .propa
  else if n = "filter".toList then some .filter
  else if n = "eigen".toList then some .eigen
  else if n = "oct".toList then some .oct
  else if n = "cfunc".toList then some .cfunc
  else none

/-- The loop over the programs (src/CmdHandler.cpp:178-231). -/
def progLoop (E : Env) (dir : Str) : List Xml → State → Out State
  | [], st => .ok st
  | .other :: r, st => progLoop E dir r st
  | .elem n a c :: r, st =>
    match progOf n with
    | some p => (call E (.run p (.elem n a c) dir) st).bind (progLoop E dir r)
    | none => .threw st

/-- The part on operator definitions (src/CmdHandler.cpp:120-149): the cursor and the state behind it; without a current node
its name is read through `NULL`. -/
def opdefsPart (E : Env) (cur : List Xml) (st : State) : Out (List Xml × State) :=
  match nameOf cur with
  | none => .ub
  | some n =>
    if n = "opdefs".toList then
      match nextChild cur with
      | none => .ok (nextNode cur, st)
      | some ds =>
        match opdefsLoop E ds st with
        | .ok st' => .ok (nextNode cur, st')
        | .threw st' => .threw (cur, st')
        | .ub => .ub
    else .ok (cur, st)

/-- The part on wave function definitions (src/CmdHandler.cpp:151-176). -/
def wfdefsPart (E : Env) (cur : List Xml) (st : State) : Out (List Xml × State) :=
  match nameOf cur with
  | none => .ok (cur, st)
  | some n =>
    if n = "wfdefs".toList then
      match nextChild cur with
      | none => .ok (nextNode cur, st)
      | some ds =>
        match wfdefsLoop E ds st with
        | .ok st' => .ok (nextNode cur, st')
        | .threw st' => .threw (cur, st')
        | .ub => .ub
    else .ok (cur, st)

/-- The directory with a slash at its end (src/CmdHandler.cpp:106): for the empty text the position `length() - 1` is outside of it. -/
def withSlash (d : Str) : Option Str :=
  if d.length = 0 then none
  else if d.getLast? = some '/' then some d
  else some (d ++ ['/'])

/-- The directory (src/CmdHandler.cpp:99-109): what the programs get and the global parameters behind it; `none`: the empty text is
indexed. -/
def directory (defDir : Str) (gp : Container) : Option (Str × Container) :=
  let gp := if defDir = [] then gp else gp.setValue "dir".toList defDir .undef
  if gp.isPresent "dir".toList then
    match withSlash (gp.getString "dir".toList).2 with
    | none => none
    | some d => some (d, gp.setValue "dir".toList d .undef)
  else some (defDir, gp)

/-- Behind the choice of the program nodes (src/CmdHandler.cpp:99-231). -/
def runNodes (E : Env) (defDir : Str) (cur : List Xml) (st : State) : Out State :=
  match directory defDir st.gp with
  | none => .ub
  | some (dir, gp) =>
    match opdefsPart E cur { st with gp := gp } with
    | .ub => .ub
    | .threw (_, st) => .threw st
    | .ok (cur, st) =>
      match wfdefsPart E cur st with
      | .ub => .ub
      | .threw (_, st) => .threw st
      | .ok (cur, st) => progLoop E dir cur st

/-- Whether a node is a container of programs (src/CmdHandler.cpp:91). -/
def isMulti (n : Str) : Bool := n = "multi".toList || n = "qdng".toList

/-- `RunXML` behind parsing (src/CmdHandler.cpp:86-233): `root` is the root element. -/
def runXml (E : Env) (defDir : Str) (name : Str) (attrs : List (Str × Str)) (children : List Xml) (st : State) : Out State :=
  let root := [Xml.elem name attrs children]
  if isMulti name then
    let st := { st with gp := st.gp.merge (attributes root) }
    match nextChild root with
    | none => .threw st
    | some cur => runNodes E defDir cur st
  else runNodes E defDir root st

/-! ### Reading the input -/

/-- The string in a buffer (src/qdng.cpp:132): the file's bytes, then `junk`, what was in the memory behind them; `none` if there is no
zero byte up to the end of the memory. -/
def cString (mem : List Char) : Option Str :=
  if '\x00' ∈ mem then some (mem.takeWhile (· ≠ '\x00')) else none

/-- The size of the buffer when the end of the file was seen (src/qdng.cpp:120-131): a full chunk is followed by another read. -/
def bufferSize (n : Nat) : Nat := 4096 * (n / 4096 + 1)

/-- `CheckInput` for an XML file (src/qdng.cpp:115-134): `junk` is what the memory behind the bytes of the file holds (in the buffer and behind
it); the second component says whether only the buffer was read. -/
def readXml (content junk : List Char) : Option (Str × Bool) :=
  match cString (content ++ junk) with
  | none => none
  | some s => some (s, decide (s.length < bufferSize content.length))

/-- One variable definition of the command line (src/qdng.cpp:260-268). -/
def varDef (d : Str) : Option (Str × Str) :=
  match d.findIdx? (· = '=') with
  | none => none
  | some pos => some (d.take pos, d.drop (pos + 1))

/-- The loop over the variable definitions (src/qdng.cpp:256-271): `none` is the exception. -/
def varDefs : List Str → OMap Str Str → Option (OMap Str Str)
  | [], m => some m
  | d :: ds, m =>
    match varDef d with
    | none => none
    | some (n, v) => varDefs ds (OMap.insert n v m)

end QDng.RunXml
