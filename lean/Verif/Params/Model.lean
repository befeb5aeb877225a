import Verif.Common.OMap

/-!
# Model of `ParamContainer`, `trim` and `split`

Sources: `/repo/src/tools/ParamContainer.h`, `/repo/src/tools/ParamContainer.cpp`,
`/repo/src/tools/helpers.cpp`.
-/

namespace QDng.Params

open QDng

/-! ## String helpers -/

/-- The character set `" \t"` of `trim` (`/repo/src/tools/helpers.cpp:13-27`). -/
def isWs (c : Char) : Bool := c = ' ' || c = '\t'

/-- `std::string::find_first_of/find_first_not_of/find(char)`: index of the first character with
property `p`; `none` is `npos` (used at `/repo/src/tools/helpers.cpp:13,15,42`,
`/repo/src/tools/ParamContainer.cpp:747,759-760`). -/
def findFirst (p : Char → Bool) (s : Str) : Option Nat := s.findIdx? p

/-- `std::string::find_last_of/find_last_not_of` (used at `/repo/src/tools/helpers.cpp:21,27`). -/
def findLast (p : Char → Bool) (s : Str) : Option Nat :=
  (s.reverse.findIdx? p).map (fun i => s.length - 1 - i)

/-- The value `s.size()-1` as a `size_t`: for the empty string it wraps to `npos` (`none`)
(`/repo/src/tools/helpers.cpp:26`). -/
def lastPos (s : Str) : Option Nat := if s.length = 0 then none else some (s.length - 1)

/-- Left part of `trim` (`/repo/src/tools/helpers.cpp:13-19`). -/
def trimLeft (s : Str) : Str :=
  if findFirst isWs s = some 0 then
    match findFirst (fun c => !isWs c) s with
    | some pos => s.drop pos
    | none => s
  else s

/-- Right part of `trim` (`/repo/src/tools/helpers.cpp:21-33`). -/
def trimRight (s : Str) : Str :=
  if findLast isWs s = some 0 then []
  else if findLast isWs s = lastPos s then
    match findLast (fun c => !isWs c) s with
    | some pos => s.take (pos + 1)
    | none => s
  else s

/-- `trim` (`/repo/src/tools/helpers.cpp:9-34`). -/
def trim (s : Str) : Str := trimRight (trimLeft s)

/-- The loop of `split` (`/repo/src/tools/helpers.cpp:36-50`): `buf.find(",")`, push the part before
it, erase it together with the comma, and so on; the last part is pushed when no comma is left.
The fuel is the number of iterations; `split` provides one more than the string is long, which the
loop never uses up because each iteration removes at least one character. -/
def splitLoop : Nat → Str → List Str
  | 0, buf => [buf]
  | n + 1, buf =>
    match findFirst (fun c => c = ',') buf with
    | some pos => buf.take pos :: splitLoop n (buf.drop (pos + 1))
    | none => [buf]

/-- `split` (`/repo/src/tools/helpers.cpp:36-50`). -/
def split (s : Str) : List Str := splitLoop (s.length + 1) s

/-! ## The container -/

/-- `ParamContainer::datatype` (`/repo/src/tools/ParamContainer.h:37`). -/
inductive Datatype
  | undef | int | uint | sizet | double | bool | string
  deriving DecidableEq, Repr

/-- `Type2String` (`/repo/src/tools/ParamContainer.cpp:19-39`). -/
def type2String : Datatype → Str
  | .undef => []
  | .int => ['i', 'n', 't']
  | .uint => ['u', 'i', 'n', 't']
  | .sizet => ['s', 'i', 'z', 'e', 't']
  | .double => ['d', 'o', 'u', 'b', 'l', 'e']
  | .bool => ['b', 'o', 'o', 'l']
  | .string => ['s', 't', 'r', 'i', 'n', 'g']

/-- `String2Type` (`/repo/src/tools/ParamContainer.cpp:44-62`); `none` is the exception
`EParamProblem("Unknown type")`. -/
def string2Type (s : Str) : Option Datatype :=
  if s = [] then some .undef
  else if s = ['i', 'n', 't'] then some .int
  else if s = ['u', 'i', 'n', 't'] then some .uint
  else if s = ['s', 'i', 'z', 'e', 't'] then some .sizet
  else if s = ['d', 'o', 'u', 'b', 'l', 'e'] then some .double
  else if s = ['b', 'o', 'o', 'l'] then some .bool
  else if s = ['s', 't', 'r', 'i', 'n', 'g'] then some .string
  else none

/-- State of the position pointer `_it` (`/repo/src/tools/ParamContainer.h:42`): at the node with a
key, at the end, or invalidated (pointing to a node that was destroyed). -/
inductive Iter
  | node (k : Str)
  | atEnd
  | dangling
  deriving DecidableEq, Repr

/-- `ParamContainer` (`/repo/src/tools/ParamContainer.h:34-42`). -/
structure Container where
  types : OMap Str Datatype
  params : OMap Str Str
  it : Iter

/-- `_param_map.begin()` (`/repo/src/tools/ParamContainer.cpp:66,78,390,682,708`). -/
def beginIter (m : OMap Str Str) : Iter :=
  match m with
  | [] => .atEnd
  | (k, _) :: _ => .node k

/-- Default constructor (`/repo/src/tools/ParamContainer.cpp:64-67`). -/
def Container.empty : Container := { types := [], params := [], it := .atEnd }

/-- Constructor from a map (`/repo/src/tools/ParamContainer.cpp:75-79`). -/
def Container.ofMap (m : OMap Str Str) : Container := { types := [], params := m, it := beginIter m }

/-- Effect on `_it` of destroying all nodes of the map (`/repo/src/tools/ParamContainer.cpp:96,479`):
an end iterator stays valid, a node iterator dangles. -/
def invalidate : Iter → Iter
  | .node _ => .dangling
  | i => i

/-- `Params(const string_map)` (`/repo/src/tools/ParamContainer.cpp:94-97`): replaces the parameters,
keeps the type map. -/
def Container.setParams (c : Container) (m : OMap Str Str) : Container :=
  { c with params := m, it := invalidate c.it }

/-- `clear` (`/repo/src/tools/ParamContainer.cpp:477-481`). -/
def Container.clear (c : Container) : Container :=
  { types := [], params := [], it := invalidate c.it }

/-- `SetValue(name, string, type)` (`/repo/src/tools/ParamContainer.cpp:508-513`; the other overloads
at 493-609 convert the value to text first and use the same two assignments). -/
def Container.setValue (c : Container) (name value : Str) (type : Datatype) : Container :=
  { c with types := OMap.insert name type c.types, params := OMap.insert name value c.params }

/-- The copying loops of `operator+=` (`/repo/src/tools/ParamContainer.cpp:694-706`). -/
def mergeLoop {V : Type} (a b : OMap Str V) : OMap Str V :=
  b.foldl (fun m p => OMap.insert p.1 p.2 m) a

/-- `operator+=` (`/repo/src/tools/ParamContainer.cpp:691-711`). -/
def Container.merge (c d : Container) : Container :=
  let p := mergeLoop c.params d.params
  { types := mergeLoop c.types d.types, params := p, it := beginIter p }

/-- `operator=` (`/repo/src/tools/ParamContainer.cpp:676-684`). -/
def Container.assign (_c d : Container) : Container :=
  { types := d.types, params := d.params, it := beginIter d.params }

/-- `isPresent` (`/repo/src/tools/ParamContainer.cpp:420-439`). -/
def Container.isPresent (c : Container) (name : Str) : Bool := (OMap.find name c.params).isSome

/-- `GetValue(name, string&)` (`/repo/src/tools/ParamContainer.cpp:130-140`): the returned flag and
the value written to the reference. -/
def Container.getString (c : Container) (name : Str) : Bool × Str :=
  match OMap.find name c.params with
  | some v => (true, v)
  | none => (false, [])

/-- `GetValue(name, bool&, def)` (`/repo/src/tools/ParamContainer.cpp:245-257`). -/
def Container.getBool (c : Container) (name : Str) (dflt : Bool) : Bool × Bool :=
  match OMap.find name c.params with
  | some v =>
    (true, if v = ['t', 'r', 'u', 'e'] then true
           else if v = ['f', 'a', 'l', 's', 'e'] then false else dflt)
  | none => (false, dflt)

/-- `SetValue(name, bool)` (`/repo/src/tools/ParamContainer.cpp:603-609`). -/
def Container.setBool (c : Container) (name : Str) (b : Bool) : Container :=
  c.setValue name (if b then ['t', 'r', 'u', 'e'] else ['f', 'a', 'l', 's', 'e']) .bool

/-- `GetType` (`/repo/src/tools/ParamContainer.cpp:466-472`). -/
def Container.getType (c : Container) (name : Str) : Datatype :=
  match OMap.find name c.types with
  | some t => t
  | none => .undef

/-- `Size` (`/repo/src/tools/ParamContainer.h:86`). -/
def Container.size (c : Container) : Nat := c.params.length

/-- `ResetPosition` (`/repo/src/tools/ParamContainer.cpp:388-391`). -/
def Container.resetPosition (c : Container) : Container := { c with it := beginIter c.params }

/-- `_it++` for a `std::map` iterator (`/repo/src/tools/ParamContainer.cpp:408`): the node with the
next greater key. -/
def nextIter (k : Str) : OMap Str Str → Iter
  | [] => .atEnd
  | (k', _) :: r => if k < k' then .node k' else nextIter k r

/-- `GetNextValue` (`/repo/src/tools/ParamContainer.cpp:403-413`): `none` is undefined behaviour (use
of an invalidated iterator), `some (c, none)` is the return value `false`. -/
def Container.getNextValue (c : Container) : Option (Container × Option (Str × Str)) :=
  match c.it with
  | .atEnd => some (c, none)
  | .dangling => none
  | .node k =>
    match OMap.find k c.params with
    | some v => some ({ c with it := nextIter k c.params }, some (k, v))
    | none => none

/-- `n` calls of `GetNextValue` in a row (the loop at `/repo/src/tools/ParamContainer.cpp:820-831`
without its body): the results, `none` if undefined behaviour occurs. -/
def Container.getNextN : Nat → Container → Option (List (Option (Str × Str)))
  | 0, _ => some []
  | n + 1, c =>
    match c.getNextValue with
    | none => none
    | some (c', r) =>
      match Container.getNextN n c' with
      | none => none
      | some l => some (r :: l)

/-- The loop of `SetArray` (`/repo/src/tools/ParamContainer.cpp:614-670`) on the already formatted
elements: element, then a comma unless it is the last one. -/
def joinComma : List Str → Str
  | [] => []
  | [x] => x
  | x :: y :: r => x ++ ',' :: joinComma (y :: r)

/-- `SetArray` (`/repo/src/tools/ParamContainer.cpp:614-670`); elements are given as their printed
text. -/
def Container.setArray (c : Container) (name : Str) (vals : List Str) (type : Datatype) : Container :=
  c.setValue name (joinComma vals) type

/-- `GetArray(name, vector<string>&)` (`/repo/src/tools/ParamContainer.cpp:264-272`). -/
def Container.getArray (c : Container) (name : Str) : Option (List Str) :=
  match c.getString name with
  | (true, buf) => some (split buf)
  | (false, _) => none

/-! ## Text output -/

/-- One line of `Write` (`/repo/src/tools/ParamContainer.cpp:821-830`). -/
def writeEntry (withTypes : Bool) (type : Datatype) (key value : Str) : Str :=
  if !withTypes then key ++ [' ', '=', ' '] ++ value ++ ['\n']
  else if type = .undef then key ++ [' ', '=', ' '] ++ value ++ ['\n']
  else key ++ ['['] ++ type2String type ++ [']', ' ', '=', ' '] ++ value ++ ['\n']

/-- `Write` (`/repo/src/tools/ParamContainer.cpp:811-832`).  The loop
`ResetPosition(); while (GetNextValue(..))` visits the pairs in map order
(`Container.getNextN_resetPosition` in `Lemmas.lean` proves this), so it is written as a fold. -/
def Container.write (c : Container) (withTypes : Bool) : Str :=
  c.params.flatMap (fun p => writeEntry withTypes (c.getType p.1) p.1 p.2)

/-! ## Text input -/

/-- `std::istream` reduced to the unread text and the `eof`/`fail` state bits
(`/repo/src/tools/ParamContainer.cpp:731-739`). -/
structure Stream where
  rest : Str
  eof : Bool
  fail : Bool
  deriving Repr

/-- Extraction loop of `std::istream::getline(line, n)` with room for `n` more characters: stored
text and new stream state.  Standard order of tests: end of input, delimiter, buffer full. -/
def getlineLoop : Nat → Str → Str × Stream
  | _, [] => ([], { rest := [], eof := true, fail := false })
  | n, c :: r =>
    if c = '\n' then ([], { rest := r, eof := false, fail := false })
    else match n with
      | 0 => ([], { rest := c :: r, eof := false, fail := true })
      | n + 1 =>
        let (l, st) := getlineLoop n r
        (c :: l, st)

/-- `stream.getline(line, MAX_LINE_LENGTH)` (`/repo/src/tools/ParamContainer.cpp:739`): buffer of
`size` characters including the terminating zero.  On a stream that is not good nothing is extracted,
the line is empty and `failbit` is set; reaching the end of input without extracting anything also
sets `failbit`. -/
def getline (size : Nat) (st : Stream) : Str × Stream :=
  if st.eof || st.fail then ([], { st with fail := true })
  else
    let (l, st') := getlineLoop (size - 1) st.rest
    (l, { st' with fail := st'.fail || (st'.eof && l.isEmpty) })

/-- `MAX_LINE_LENGTH` (`/repo/src/tools/ParamContainer.h:14`). -/
def maxLineLength : Nat := 2048

/-- `s.assign(line)` with a zero terminated buffer (`/repo/src/tools/ParamContainer.cpp:742`). -/
def assignCStr (l : Str) : Str := l.takeWhile (fun c => c != Char.ofNat 0)

/-- Result of the type extraction (`/repo/src/tools/ParamContainer.cpp:758-773`) for a trimmed key:
new key and type, `none` for the exception.  The length argument of the first `substr` is `tpos1`, as
in the code. -/
def extractType (key : Str) : Option (Str × Datatype) :=
  match findFirst (fun c => c = '[') key with
  | none => some (key, .undef)
  | some tpos1 =>
    let stype := match findFirst (fun c => c = ']') key with
      | some _ => (key.drop (tpos1 + 1)).take tpos1
      | none => key.drop (tpos1 + 1)
    match string2Type stype with
    | none => none
    | some t => some (trim (key.take tpos1), t)

/-- Body of the reading loop after `s` is known (`/repo/src/tools/ParamContainer.cpp:747-781`);
`none` is the exception `EParamProblem`. -/
def parseLine (c : Container) (s : Str) : Option Container :=
  match findFirst (fun ch => ch = '=') s with
  | none => some c
  | some pos =>
    let key := trim (s.take pos)
    let val := trim (s.drop (pos + 1))
    match extractType key with
    | none => none
    | some (key, type) =>
      if !key.isEmpty && findFirst (fun ch => ch = '#') key != some 0 then
        some (c.setValue key val type)
      else some c

/-- What `Parse` has come to after some number of loop iterations. -/
inductive Outcome
  | running
  | done (c : Container)
  | threw

/-- The reading loop of `Parse` (`/repo/src/tools/ParamContainer.cpp:738-782`), observed after at most
`fuel` iterations. `stop` is the optional end marker. -/
def parseLoop (stop : Option Str) : Nat → Stream → Container → Outcome
  | 0, st, c => if st.eof then .done c else .running
  | fuel + 1, st, c =>
    if st.eof then .done c
    else
      let (line, st') := getline maxLineLength st
      let s := assignCStr line
      if stop = some s then .done c
      else match parseLine c s with
        | none => .threw
        | some c' => parseLoop stop fuel st' c'

/-- `Parse(istream&, eof)` (`/repo/src/tools/ParamContainer.cpp:731-783`) on a fresh stream holding
`text`, observed after at most `fuel` lines. -/
def Container.parse (c : Container) (text : Str) (stop : Option Str) (fuel : Nat) : Outcome :=
  parseLoop stop fuel { rest := text, eof := false, fail := false } c.clear

end QDng.Params
