import Verif.Registry.Model

/-
Model of the loading of operators from the input: `LoadOperatorChain` (src/ChainLoader.cpp:34-167), with the elements
of the input (src/tools/XmlNode.cpp:43-101), the registration (src/GlobalOpList.cpp:43-79, 178-185) and the `Add`
functions of sums on grids, matrices and lists (src/qdlib/OGridSum.cpp:176-196, src/qdlib/OMultistate.cpp:34-54,
src/qdlib/OList.cpp:113-144).

Operators are numbered in the order in which they become complete.  The modules of single operators are unknown
(`World`): whether they exist, what kind of operator they give, whether `Init` accepts the attributes.  Simplifications:
the attributes that `LoadOperatorChain` does not look at are one number (`rest`), texts have no NUL character, log
output, the flags for hermiticity and time dependence (C69) and the memory of operators that are lost with an exception
are not modelled.
-/

namespace QDng.OpChain

open QDng

/-- What the modules give (src/ChainLoader.cpp:122-124, 66). -/
inductive Kind
  | list
  | grid
  | plain
  deriving DecidableEq, Repr

/-- The attributes of an element (src/ChainLoader.cpp:45-54, 161; src/tools/XmlNode.cpp:136-159).  Missing texts are
empty (src/tools/ParamContainer.cpp:130-140). -/
structure Attrs where
  name : Str := []
  ref : Option Str := none
  key : Str := []
  label : Option Str := none
  unity : Option Str := none
  rest : Nat := 0
  deriving DecidableEq, Repr

/-- An element of the input: its name, the attributes, whether there is text or a comment in it, and the elements in it
(src/tools/XmlNode.cpp:43-57). -/
inductive Node
  | mk (tag : Str) (attrs : Attrs) (text : Bool) (kids : List Node)

/-- `Name` (src/tools/XmlNode.cpp:125-130). -/
def Node.tag : Node → Str
  | .mk t _ _ _ => t

/-- The behaviour of the modules: `Load` (src/ChainLoader.cpp:122), `Init` (src/ChainLoader.cpp:95, 130, 153), the grid
size of an operator (src/qdlib/OGridSum.cpp:185-187), whether it generates a laser field (src/qdlib/OLaser.cpp:32-36),
and the attribute `states` (src/qdlib/OMultistate.cpp:88-92). -/
structure World where
  load : Str → Option Kind
  initOk : Str → Nat → Bool
  gsize : Str → Nat → Nat
  gen : Str → Nat → Bool
  states : Nat → Int

/-- Operators without their parts: single operators, lists, sums on a grid with the size, and matrices with the number
of states and the default diagonal (src/qdlib/OList.h:20-24, src/qdlib/OGridSum.h:24-32,
src/qdlib/OMultistate.cpp:14-15). -/
inductive Shape
  | leaf (name : Str) (rest : Nat)
  | list (name : Str) (rest : Nat)
  | gridsum (size : Nat)
  | matrix (dvr : Bool) (unity : Bool) (states : Int)
  deriving DecidableEq, Repr

/-- Where an operator is in another one: the next of a sum on a grid, under a name in a list, in a row and column of a
matrix (src/qdlib/OGridSum.cpp:193, src/qdlib/OList.cpp:143, src/qdlib/OMultistate.cpp:47). -/
inductive Place
  | next
  | named (n : Str)
  | elem (row col : Nat)
  deriving DecidableEq, Repr

/-- An operator with its parts (src/qdlib/OList.h:20-24, src/qdlib/OGridSum.h:24-32, src/qdlib/OMultistate.h:30-45). -/
structure Obj where
  shape : Shape
  parts : List (Place × Nat)
  deriving DecidableEq, Repr

/-- The operators and the global list: the operator and the label of a key, and the next serial number
(src/GlobalOpList.h:26-37). -/
structure State where
  heap : List Obj
  store : Str → Option (Nat × Str)
  anon : Nat

/-- What loading gives: a value, an exception, a text that is thrown, or undefined behaviour
(src/ChainLoader.cpp:65, 67). -/
inductive Res (A : Type)
  | ok (s : State) (a : A)
  | threw (s : State)
  | text (s : State)
  | ub

/-- One thing after another (src/ChainLoader.cpp:62-70). -/
def Res.bind {A B : Type} : Res A → (State → A → Res B) → Res B
  | .ok s a, f => f s a
  | .threw s, _ => .threw s
  | .text s, _ => .text s
  | .ub, _ => .ub

/-- Text as a list of characters (src/ChainLoader.cpp:56, 76). -/
def gridSum : Str := "GridSum".toList
/-- (src/ChainLoader.cpp:76) -/
def multistate : Str := "Multistate".toList
/-- (src/ChainLoader.cpp:76) -/
def dMultistate : Str := "DMultistate".toList

/-- `MAX_OPS` of sums on grids (src/qdlib/OGridSum.h:10). -/
def maxGrid : Nat := 16
/-- `MAX_OPS` of lists (src/qdlib/OList.h:11). -/
def maxList : Nat := 128
/-- `QD_MAX_STATES` (src/qdlib/WFMultistate.h:10). -/
def maxStates : Nat := 64

/-! ### The names of matrix elements -/

/-- The digits of a number (src/ChainLoader.cpp:104). -/
def isDigit (c : Char) : Bool := '0' ≤ c && c ≤ '9'

/-- Value of digits (src/ChainLoader.cpp:104). -/
def digitsVal (s : Str) : Nat := s.foldl (fun a c => 10 * a + (c.toNat - 48)) 0

/-- The largest `int` (src/ChainLoader.cpp:99). -/
def intMax : Nat := 2147483647

/-- Reading digits: 0 if there are none, the largest number if there are too many (src/ChainLoader.cpp:104). -/
def readNat (s : Str) : Nat := min (digitsVal (s.takeWhile isDigit)) intMax

/-- `ss >> row` (src/ChainLoader.cpp:104-105): nothing is stored if the text is empty.  Simplification: white space
cannot be in the name of an element, the smallest `int` is left out. -/
def readInt : Str → Option Int
  | [] => none
  | '-' :: r => some (-(readNat r : Int))
  | '+' :: r => some (readNat r)
  | s => some (readNat s)

/-- `name.find('.')` (src/ChainLoader.cpp:102). -/
def findDot (s : Str) : Option Nat := s.findIdx? (· = '.')

/-- `name.substr(1, name.find('.')-1)`: without a point, or with a point in front, up to the end
(src/ChainLoader.cpp:102). -/
def rowText (tag : Str) : Str :=
  match findDot tag with
  | none => tag.drop 1
  | some 0 => tag.drop 1
  | some (p + 1) => (tag.drop 1).take p

/-- `name.substr(name.find('.')+1)`: without a point the whole name (src/ChainLoader.cpp:103). -/
def colText (tag : Str) : Str :=
  match findDot tag with
  | none => tag
  | some p => tag.drop (p + 1)

/-- Row and column (src/ChainLoader.cpp:97-105). -/
def readTag (tag : Str) : Option (Int × Int) :=
  match readInt (rowText tag), readInt (colText tag) with
  | some r, some c => some (r, c)
  | _, _ => none

/-! ### Adding a part -/

/-- What `Add` gives for an operator (src/qdlib/OGridSum.cpp:176, src/qdlib/OMultistate.cpp:34,
src/qdlib/OList.cpp:136). -/
inductive Added
  | ok (o : Obj)
  | threw
  | text
  | ub

/-- `dynamic_cast<OGridSystem*>` (src/ChainLoader.cpp:66, src/qdlib/OGridSum.h:24). -/
def isGrid (W : World) : Shape → Bool
  | .leaf n _ => W.load n == some .grid
  | .gridsum _ => true
  | _ => false

/-- `size` of an operator on a grid (src/qdlib/OGridSum.cpp:185-187). -/
def sizeOf (W : World) : Shape → Nat
  | .leaf n r => W.gsize n r
  | .gridsum m => m
  | _ => 0

/-- `O->Clock(clock)` with the clock of a new operator, which is NULL, and a generated field
(src/qdlib/OGridSum.cpp:191, src/qdlib/OLaser.cpp:27-40, src/qdlib/Operator.h:104). -/
def clockCrash (W : World) : Shape → Bool
  | .leaf n r => W.gen n r
  | _ => false

/-- The part of a sum on a grid (src/ChainLoader.cpp:66-68, src/qdlib/OGridSum.cpp:176-196). -/
def addGrid (W : World) (size : Nat) (parts : List (Place × Nat)) (a : Nat) (child : Shape) : Added :=
  if isGrid W child then
    if parts.length ≥ maxGrid then .threw
    else
      let size := if size = 0 then sizeOf W child else size
      if sizeOf W child ≠ size then .threw
      else if clockCrash W child then .ub
      else .ok ⟨.gridsum size, parts ++ [(.next, a)]⟩
  else .text

/-- The element of a matrix (src/qdlib/OMultistate.cpp:34-54).  A negative index is in front of the array. -/
def addElem (dvr unity : Bool) (states : Int) (parts : List (Place × Nat)) (a : Nat) (row col : Int) : Added :=
  if row ≥ maxStates ∨ col ≥ maxStates then .threw
  else if row < 0 ∨ col < 0 then .ub
  else
    let states := if row + 1 > states then row + 1 else states
    let states := if col + 1 > states then col + 1 else states
    if parts.any (fun p => p.1 == .elem row.toNat col.toNat) then .threw
    else .ok ⟨.matrix dvr unity states, parts ++ [(.elem row.toNat col.toNat, a)]⟩

/-- The named part of a list (src/qdlib/OList.cpp:113-144). -/
def addNamed (sh : Shape) (parts : List (Place × Nat)) (tag : Str) (a : Nat) : Added :=
  if parts.any (fun p => p.1 == .named tag) then .threw
  else if parts.length ≥ maxList then .threw
  else .ok ⟨sh, parts ++ [(.named tag, a)]⟩

/-- `Add` behind the loading of a part (src/ChainLoader.cpp:66-68, 114, 143). -/
def addPart (W : World) (o : Obj) (tag : Str) (a : Nat) (child : Shape) : Added :=
  match o.shape with
  | .gridsum m => addGrid W m o.parts a child
  | .matrix d u n =>
    match readTag tag with
    | none => .ub
    | some (r, c) => addElem d u n o.parts a r c
  | sh => addNamed sh o.parts tag a

/-- What `Add` gives, with the operators loaded so far (src/ChainLoader.cpp:68, 114, 143). -/
def Added.res (s : State) : Added → Res Obj
  | .ok o => .ok s o
  | .threw => .threw s
  | .text => .text s
  | .ub => .ub

/-- Row and column are read and written to the log before the element is loaded (src/ChainLoader.cpp:101-107). -/
def tagReady (o : Obj) (tag : Str) : Bool :=
  match o.shape with
  | .matrix _ _ _ => (readTag tag).isSome
  | _ => true

/-! ### Registration -/

/-- `Op->Name()` (src/GlobalOpList.cpp:55): the names of the single operators are not known here, the name of the module
stands for them. -/
def opName : Shape → Str
  | .leaf n _ => n
  | .list n _ => n
  | .gridsum _ => "OGridSum".toList
  | .matrix false _ _ => "OMultistate".toList
  | .matrix true _ _ => "ODMultistate".toList

/-- The key of an operator: generated if there is none (src/GlobalOpList.cpp:53-58). -/
def keyFor (s : State) (key : Str) (sh : Shape) : Str :=
  if key = [] then Registry.anonKey (opName sh) s.anon else key

/-- A new entry: an entry with the same key keeps its label (src/GlobalOpList.cpp:60-61, 78). -/
def entryFor (s : State) (k : Str) (label : Option Str) : Nat × Str :=
  (s.heap.length, label.getD (((s.store k).map Prod.snd).getD []))

/-- `OpList.Add` and `SetLabel` (src/ChainLoader.cpp:159-166, src/GlobalOpList.cpp:43-79). -/
def register (s : State) (key : Str) (label : Option Str) (o : Obj) : Res Nat :=
  if (s.store key).isSome then .threw s
  else
    let k := keyFor s key o.shape
    .ok { heap := s.heap ++ [o],
          store := fun x => if x = k then some (entryFor s k label) else s.store x,
          anon := if key = [] then s.anon + 1 else s.anon } s.heap.length

/-- The shape of the operator with a number (src/ChainLoader.cpp:66). -/
def shapeAt (s : State) (a : Nat) : Shape :=
  match s.heap[a]? with
  | some o => o.shape
  | none => .leaf [] 0

/-! ### Loading -/

/-- `GetValue` of a truth value (src/tools/ParamContainer.cpp:245-259). -/
def boolOf (v : Option Str) (dflt : Bool) : Bool :=
  match v with
  | none => dflt
  | some t => if t = "true".toList then true else if t = "false".toList then false else dflt

/-- The default diagonal that is written to the log (src/ChainLoader.cpp:79-81, src/tools/ParamContainer.h:63). -/
def unityLog (at_ : Attrs) : Bool := boolOf at_.unity false

/-- The new operator before its parts are loaded: sums on grids have no `Init` (src/ChainLoader.cpp:61), matrices read
`unity` and `states` (src/ChainLoader.cpp:92-95, src/qdlib/OMultistate.cpp:79-97), the others are modules
(src/ChainLoader.cpp:122-130, 153). -/
def create (W : World) (at_ : Attrs) : Option Obj :=
  if at_.name = gridSum then some ⟨.gridsum 0, []⟩
  else if at_.name = multistate ∨ at_.name = dMultistate then
    if W.states at_.rest > maxStates then none
    else some ⟨.matrix (decide (at_.name = dMultistate)) (boolOf at_.unity true) (W.states at_.rest), []⟩
  else match W.load at_.name with
    | none => none
    | some k =>
      if W.initOk at_.name at_.rest then
        match k with
        | .list => some ⟨.list at_.name at_.rest, []⟩
        | _ => some ⟨.leaf at_.name at_.rest, []⟩
      else none

/-- Sums on grids and matrices use the first element without a look whether there is one
(src/ChainLoader.cpp:57-58, 88-89). -/
def needsKids (at_ : Attrs) : Bool :=
  decide (at_.name = gridSum ∨ at_.name = multistate ∨ at_.name = dMultistate)

/-- The elements in single operators are not used (src/ChainLoader.cpp:150-155). -/
def hasParts : Shape → Bool
  | .leaf _ _ => false
  | _ => true

mutual
/-- `LoadOperatorChain` (src/ChainLoader.cpp:34-167).  Without an element in it, `AdjustElementNode` uses a NULL pointer:
the node itself if there is nothing in it and the operator is a sum on a grid or a matrix, the node in libxml if there is
only text in it (src/tools/XmlNode.cpp:43-57, 87-90). -/
def load (W : World) : Node → State → Res Nat
  | .mk _ at_ text kids, s =>
    match at_.ref with
    | some r =>
      match s.store r with
      | none => .threw s
      | some e => .ok s e.1
    | none =>
      if needsKids at_ && kids.isEmpty then .ub
      else match create W at_ with
        | none => .threw s
        | some o =>
          if hasParts o.shape then
            if kids.isEmpty && text then .ub
            else (loadKids W kids s o).bind fun s' o' => register s' at_.key at_.label o'
          else register s at_.key at_.label o

/-- The loops over the elements (src/ChainLoader.cpp:62-70, 96-116, 139-145). -/
def loadKids (W : World) : List Node → State → Obj → Res Obj
  | [], s, o => .ok s o
  | k :: ks, s, o =>
    if tagReady o k.tag then
      (load W k s).bind fun s1 a =>
        ((addPart W o k.tag a (shapeAt s1 a)).res s1).bind fun s2 o2 => loadKids W ks s2 o2
    else .ub
end

/-- No operators (src/GlobalOpList.h:39). -/
def State.start : State := { heap := [], store := fun _ => none, anon := 0 }

end QDng.OpChain
