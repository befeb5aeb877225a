import Mathlib.Algebra.Order.Floor.Defs
import Mathlib.Data.Rat.Floor
import Verif.Common.OMap
import Verif.Common.Outcome

/-
Model of the simple input language: src/simpleXml/grammar.yy, src/simpleXml/SyntacticTreeModel.h and the format
detection of src/simpleXml/Simple2Xml.cpp.

The lexer and the table driven parser generated by flex and bison are not modelled: a program is a sequence of
the lines of the grammar (grammar.yy:124-212).  Numbers are rational instead of floating point numbers.
`sscanf`, `snprintf` and the number output of streams are parameters (`Lib`); formats given in the input are
assumed to fit their last letter.  The tree of blocks is held as the stack of open blocks.
-/

namespace QDng.SimpleXml

open QDng.Common

/-- Functions of the C library (src/simpleXml/SyntacticTreeModel.h:25, 38, 111-125, 242, 246). -/
structure Lib where
  toInt : Str → Option Int
  toReal : Str → Option ℚ
  fmtInt : Str → Int → Str
  fmtReal : Str → ℚ → Str
  fmtStr : Str → Str → Str
  fmtG : ℚ → Str
  fmtOut : ℚ → Str

/-- One character in `EscapeString` (src/simpleXml/grammar.yy:60-84). -/
def escapeChar (c : Char) : Str :=
  if c = '<' then ['&', 'l', 't', ';']
  else if c = '>' then ['&', 'g', 't', ';']
  else if c = '&' then ['&', 'a', 'm', 'p', ';']
  else [c]

/-- `EscapeString` (src/simpleXml/grammar.yy:56-88). -/
def escape : Str → Str
  | [] => []
  | c :: s => escapeChar c ++ escape s

/-- The memory `EscapeString` allocates (src/simpleXml/grammar.yy:58). -/
def escapeRoom (s : Str) : Nat := s.length * 6 + 1

/-- The elements of an expression (src/simpleXml/grammar.yy:213-219). -/
inductive Piece where
  | token (s : Str)
  | quoted (s : Str)
  | var (name : Str) (fmt : Option Str)

/-- The lines of the grammar (src/simpleXml/grammar.yy:124-203). -/
inductive Line where
  | comment
  | assign (v : Str) (first : Piece) (rest : List Piece)
  | loop (v : Str) (b e : Str) (s : Option Str)
  | block (name : Str)
  | attr (name : Str) (first : Piece) (rest : List Piece)
  | close

/-- An element of a `varstring` (src/simpleXml/SyntacticTreeModel.h:53-63). -/
inductive Elem where
  | str (s : Str)
  | var (name : Str) (fmt : Str)

/-- What an element of an expression adds to the `varstring` (src/simpleXml/grammar.yy:90-100, 214-217). -/
def Piece.elem : Piece → Elem
  | .token s => .str s
  | .quoted s => .str (escape s)
  | .var n none => .var n ['%', 's']
  | .var n (some f) => .var n f

/-- The text the lexer attaches to an element of an expression, which is its value in the grammar
(src/simpleXml/grammar.yy:213-219, src/simpleXml/simpleXml.ll:12-30); the value of a concatenation is that of its
first element. -/
def Piece.raw : Piece → Str
  | .token s => s
  | .quoted s => s
  | .var n _ => n

/-- A finished block (src/simpleXml/SyntacticTreeModel.h:138-298). -/
inductive Node where
  | elem (name : Str) (attrs : List (Str × List Elem)) (children : List Node)
  | loop (v : Str) (b e s : ℚ) (children : List Node)

/-- The variables (src/simpleXml/SyntacticTreeModel.h:20); an unknown variable is empty. -/
abbrev Vars := Str → Str

/-- `varlist[v] = s` (src/simpleXml/grammar.yy:133, src/simpleXml/SyntacticTreeModel.h:247). -/
def setVar (vars : Vars) (v s : Str) : Vars := fun w => if w = v then s else vars w

/-- Variables and output during execution (src/simpleXml/SyntacticTreeModel.h:20, src/simpleXml/grammar.yy:17). -/
structure Run where
  vars : Vars
  out : Str

/-- Output (for instance src/simpleXml/SyntacticTreeModel.h:281). -/
def Run.put (r : Run) (s : Str) : Run := { r with out := r.out ++ s }

/-- The text of one element in `varstring::print` (src/simpleXml/SyntacticTreeModel.h:110-128), `none` is an
exception; the buffer of 1024 characters cuts the text. -/
def Elem.text (L : Lib) (vars : Vars) : Elem → Option Str
  | .str s => some ((L.fmtStr ['%', 's'] s).take 1023)
  | .var n f =>
    if f.getLast? = some 'd' then (L.toInt (vars n)).map fun i => (L.fmtInt f i).take 1023
    else if f.getLast? = some 'f' then (L.toReal (vars n)).map fun x => (L.fmtReal f x).take 1023
    else some ((L.fmtStr f (vars n)).take 1023)

/-- `varstring::print` (src/simpleXml/SyntacticTreeModel.h:106-132). -/
def printElems (L : Lib) : List Elem → Run → Out Run
  | [], r => .ok r
  | e :: l, r =>
    match e.text L r.vars with
    | some s => printElems L l (r.put s)
    | none => .threw r

/-- `Indent()` (src/simpleXml/SyntacticTreeModel.h:170-174). -/
def indentText : Nat → Str
  | 0 => []
  | n + 1 => [' ', ' ', ' '] ++ indentText n

/-- The loop over the attributes (src/simpleXml/SyntacticTreeModel.h:282-288). -/
def printAttrs (L : Lib) : List (Str × List Elem) → Run → Out Run
  | [], r => .ok r
  | (a, v) :: l, r =>
    (printElems L [.str a] (r.put [' '])).bind fun r =>
      (printElems L v (r.put ['=', '"'])).bind fun r => printAttrs L l (r.put ['"'])

/-- The number of rounds in `forloop::execute` (src/simpleXml/SyntacticTreeModel.h:244); without a step, or with
too many rounds for an `int`, the conversion is undefined. -/
def rounds (b e s : ℚ) : Option Nat :=
  if s = 0 then none
  else if ⌊|(b - e) / s|⌋ < 2 ^ 31 then some (⌊|(b - e) / s|⌋.toNat + 1)
  else none

/-- The rounds of `forloop::execute` (src/simpleXml/SyntacticTreeModel.h:244-250). -/
def repeatLoop (L : Lib) (v : Str) (s : ℚ) (body : Run → Out Run) : Nat → ℚ → Run → Out Run
  | 0, _, r => .ok r
  | n + 1, d, r =>
    (body { r with vars := setVar r.vars v (L.fmtG d) }).bind fun r => repeatLoop L v s body n (d + s) r

/-- The comment written for a loop (src/simpleXml/SyntacticTreeModel.h:242). -/
def loopComment (L : Lib) (v : Str) (b e s : ℚ) : Str :=
  "<!-- for ".toList ++ v ++ " = ".toList ++ L.fmtOut b ++ [' '] ++ L.fmtOut e ++ [' '] ++ L.fmtOut s ++
    " -->\n".toList

mutual
/-- `execute()` of elements and loops (src/simpleXml/SyntacticTreeModel.h:239-251, 278-297). -/
def exec (L : Lib) (depth : Nat) : Node → Run → Out Run
  | .elem name attrs children, r =>
    (printAttrs L attrs (r.put (indentText depth ++ ['<'] ++ name))).bind fun r =>
      match children with
      | [] => .ok (r.put ['/', '>', '\n'])
      | c :: cs =>
        (execAll L (depth + 1) (c :: cs) (r.put ['>', '\n'])).bind fun r =>
          .ok (r.put (indentText depth ++ ['<', '/'] ++ name ++ ['>', '\n']))
  | .loop v b e s children, r =>
    match rounds b e s with
    | none => .ub
    | some n =>
      repeatLoop L v s (fun r => execAll L (depth + 1) children r) n b
        (r.put (indentText depth ++ loopComment L v b e s))
/-- `block::execute()` (src/simpleXml/SyntacticTreeModel.h:179-183). -/
def execAll (L : Lib) (depth : Nat) : List Node → Run → Out Run
  | [], r => .ok r
  | c :: cs, r => (exec L depth c r).bind fun r => execAll L depth cs r
end

/-- An open block (src/simpleXml/SyntacticTreeModel.h:196-270). -/
inductive Frame where
  | elem (name : Str) (attrs : List (Str × List Elem)) (children : List Node)
  | loop (v : Str) (b e s : ℚ) (children : List Node)

/-- `AddChild` (src/simpleXml/SyntacticTreeModel.h:151-157). -/
def Frame.addChild (n : Node) : Frame → Frame
  | .elem name attrs cs => .elem name attrs (cs ++ [n])
  | .loop v b e s cs => .loop v b e s (cs ++ [n])

/-- An open block becomes a finished one (src/simpleXml/grammar.yy:196). -/
def Frame.node : Frame → Node
  | .elem name attrs cs => .elem name attrs cs
  | .loop v b e s cs => .loop v b e s cs

/-- The pointer `root` (src/simpleXml/grammar.yy:51): null, valid, or pointing to a deleted object. -/
inductive Root where
  | null
  | valid
  | deleted
  deriving DecidableEq

/-- The state of the parser (src/simpleXml/grammar.yy:47-53). -/
structure State where
  indent : Int
  root : Root
  frames : List Frame
  run : Run

/-- The initial state (src/simpleXml/grammar.yy:47-53) with predefined variables (src/qdng.cpp:257-269). -/
def State.init (vars : Vars) : State := { indent := 0, root := .null, frames := [], run := { vars := vars, out := [] } }

/-- `CheckRoot(); level->AddChild(node); level = node` (src/simpleXml/grammar.yy:102-108, 146-148, 161-163,
171-173). -/
def State.open' (st : State) (f : Frame) : Out State :=
  match st.root with
  | .null => .ok { st with indent := st.indent + 1, root := .valid, frames := f :: st.frames }
  | .valid => .ok { st with indent := st.indent + 1, frames := f :: st.frames }
  | .deleted => .ub

/-- A closed block is executed if it was the outermost one (src/simpleXml/grammar.yy:195-202). -/
def State.finish (L : Lib) (st : State) (n : Node) : Out State :=
  if st.indent = 0 then
    match exec L 0 n st.run with
    | .ok r => .ok { st with run := r, root := .deleted }
    | .threw r => .threw { st with run := r }
    | .ub => .ub
  else .ok st

/-- A closing brace (src/simpleXml/grammar.yy:193-203): without an open block `level` is null or points to a
deleted object. -/
def State.close (L : Lib) (st : State) : Out State :=
  match st.frames with
  | [] => .ub
  | [f] => ({ st with indent := st.indent - 1, frames := [] } : State).finish L f.node
  | f :: g :: fs => ({ st with indent := st.indent - 1, frames := g.addChild f.node :: fs } : State).finish L f.node

/-- The conversion of the numbers of a loop (src/simpleXml/grammar.yy:142-145, 156-160). -/
def loopFrame (L : Lib) (v b e : Str) (s : Option Str) : Option Frame :=
  match L.toReal b, L.toReal e with
  | some x, some y =>
    match s with
    | none => some (.loop v x y 1 [])
    | some t => (L.toReal t).map fun z => .loop v x y z []
  | _, _ => none

/-- One line (src/simpleXml/grammar.yy:128-212). -/
def State.step (L : Lib) (st : State) : Line → Out State
  | .comment => .ok st
  | .assign v first _rest => .ok { st with run := { st.run with vars := setVar st.run.vars v first.raw } }
  | .loop v b e s =>
    match st.root with
    | .deleted => .ub
    | _ =>
      match loopFrame L v b e s with
      | some f => st.open' f
      | none => .threw st
  | .block name => st.open' (.elem name [] [])
  | .attr name first rest =>
    match st.root, st.frames with
    | .deleted, _ => .ub
    | _, .elem n attrs cs :: fs =>
      .ok { st with frames := .elem n (attrs ++ [(name, (first :: rest).map Piece.elem)]) cs :: fs }
    | _, _ => .threw st
  | .close => st.close L

/-- `yyparse()` (src/simpleXml/grammar.yy:124-126). -/
def parse (L : Lib) : List Line → State → Out State
  | [], st => .ok st
  | l :: ls, st => (st.step L l).bind fun st => parse L ls st

/-! ### Format detection -/

/-- `FileType` (src/simpleXml/Simple2Xml.h:20). -/
inductive FileType where
  | xml
  | simple
  | unknown
  deriving DecidableEq

/-- Whether a text begins with a pattern, for `strstr` (src/simpleXml/Simple2Xml.cpp:59-71). -/
def startsWith : Str → Str → Bool
  | [], _ => true
  | _ :: _, [] => false
  | p :: ps, c :: cs => p == c && startsWith ps cs

/-- `strstr(buf, pattern) != NULL` (src/simpleXml/Simple2Xml.cpp:59-71). -/
def strstr (pat : Str) : Str → Bool
  | [] => startsWith pat []
  | c :: cs => startsWith pat (c :: cs) || strstr pat cs

/-- The string in the buffer: `none` if there is no terminating zero (src/simpleXml/Simple2Xml.cpp:41-44). -/
def cstring (chunk : Str) : Option Str :=
  if chunk.length < 1024 then some (chunk.takeWhile (· ≠ '\x00'))
  else if '\x00' ∈ chunk then some (chunk.takeWhile (· ≠ '\x00'))
  else none

/-- Search in the buffer: found in the chunk, not found in a terminated string, or running past the buffer
(src/simpleXml/Simple2Xml.cpp:59-71). -/
def search (pat chunk : Str) : Out Bool :=
  match cstring chunk with
  | some s => .ok (strstr pat s)
  | none => if strstr pat chunk then .ok true else .ub

/-- `CheckType` behind opening the file (src/simpleXml/Simple2Xml.cpp:41-77). -/
def checkType (content : Str) : Out FileType :=
  let chunk := content.take 1024
  if chunk.length = 0 then .threw .unknown
  else
    match search ['/', '>'] chunk, search ['<', '/'] chunk with
    | .ok a, .ok b =>
      if a || b then .ok .xml
      else
        match search ['{'] chunk, search ['}'] chunk with
        | .ok c, .ok _ => if c then .ok .simple else .ok .unknown
        | _, _ => .ub
    | _, _ => .ub

end QDng.SimpleXml
