import Verif.Params.Model
import Verif.FileSeq.Model
import Verif.Common.Outcome

/-
Model of the numbers, the arrays of numbers and the files of a `ParamContainer`
(src/tools/ParamContainer.cpp; the container itself, `trim`, `split`, `Write` and `Parse` are in Verif/Params).

The conversions of the C library are modelled as the C standard describes them: `sscanf` with `%d`, `%u`, `%ld`, `%lu`
skips white space, takes an optional sign and the longest run of decimal digits; if there is no digit it converts nothing
and leaves the variable as it is; a number that the variable cannot hold is undefined behaviour.  `ostream << number`
writes the decimal digits.  Numbers of type `double` are not modelled here.
-/

namespace QDng.PNum

open QDng QDng.Common QDng.Params

/-! ## Conversions -/

/-- White space that `sscanf` skips before a number (`isspace`, used at src/tools/ParamContainer.cpp:152, 170, 189, 207,
311, 333). -/
def isSpace (c : Char) : Bool :=
  c = ' ' || c = '\t' || c = '\n' || c = '\r' || c = Char.ofNat 11 || c = Char.ofNat 12

/-- A decimal digit (src/tools/ParamContainer.cpp:152). -/
def isDigit (c : Char) : Bool := decide (48 ≤ c.toNat) && decide (c.toNat ≤ 57)

/-- The number that a run of digits stands for (src/tools/ParamContainer.cpp:152). -/
def digitsVal (s : Str) : Nat := s.foldl (fun a c => 10 * a + (c.toNat - 48)) 0

/-- The optional sign of a number and the rest (src/tools/ParamContainer.cpp:152). -/
def takeSign : Str → Bool × Str
  | '-' :: r => (true, r)
  | '+' :: r => (false, r)
  | r => (false, r)

/-- The part of a text that `sscanf` converts (src/tools/ParamContainer.cpp:152): the sign and the amount; `none` if
nothing is converted. -/
def convert (s : Str) : Option (Bool × Nat) :=
  let t := takeSign (s.dropWhile isSpace)
  let ds := t.2.takeWhile isDigit
  if ds = [] then none else some (t.1, digitsVal ds)

/-- The integer types of the container (src/tools/ParamContainer.h:58-61). -/
inductive Kind where
  | int
  | uint
  | long
  | size
  deriving DecidableEq, Repr

/-- What a variable holds after a conversion with `%d`, `%u`, `%ld`, `%lu` (src/tools/ParamContainer.cpp:152, 170, 189,
207); `none` is undefined behaviour.  A negative amount for an unsigned variable is taken modulo two to the 64 (as by
`strtoul`) and has to fit into the variable. -/
def store : Kind → Bool → Nat → Option Int
  | .int, neg, n =>
    let v : Int := if neg then -n else n
    if -2147483648 ≤ v ∧ v ≤ 2147483647 then some v else none
  | .long, neg, n =>
    let v : Int := if neg then -n else n
    if -9223372036854775808 ≤ v ∧ v ≤ 9223372036854775807 then some v else none
  | .uint, neg, n =>
    if n ≤ 18446744073709551615 then
      let v : Nat := if neg then (18446744073709551616 - n) % 18446744073709551616 else n
      if v ≤ 4294967295 then some v else none
    else none
  | .size, neg, n =>
    if n ≤ 18446744073709551615 then
      some ((if neg then (18446744073709551616 - n) % 18446744073709551616 else n : Nat) : Int)
    else none

/-! ## Single values -/

/-- `GetValue(name, int&)`, `(unsigned int&)`, `(long int&)`, `(size_t&)` (src/tools/ParamContainer.cpp:149-159, 167-177,
186-196, 204-214): the value returned and the content of the variable afterwards; the variable holds `old` before, `none`
if it was never set. -/
def getNum (k : Kind) (c : Container) (name : Str) (old : Option Int) : Ans (Bool × Option Int) :=
  match OMap.find name c.params with
  | some s =>
    match convert s with
    | none => .val (true, old)
    | some (neg, n) =>
      match store k neg n with
      | none => .ub
      | some v => .val (true, some v)
  | none => .val (false, some 0)

/-- The type recorded by `SetValue` for a number (src/tools/ParamContainer.cpp:531, 550, 569). -/
def tag : Kind → Datatype
  | .int => .int
  | .long => .int
  | .uint => .uint
  | .size => .sizet

/-- `SetValue(name, int)`, `(long int)`, `(size_t)` (src/tools/ParamContainer.cpp:524-532, 543-551, 562-570).  There is none
for `unsigned int`. -/
def setNum (k : Kind) (c : Container) (name : Str) (v : Int) : Container := c.setValue name (FileSeq.showInt v) (tag k)

/-! ## Arrays -/

/-- `SetArray(name, int*, n)` and `(size_t*, n)` (src/tools/ParamContainer.cpp:629-654). -/
def setNums (k : Kind) (c : Container) (name : Str) (l : List Int) : Container :=
  c.setArray name (l.map FileSeq.showInt) (tag k)

/-- The loop of `GetArray` over the elements (src/tools/ParamContainer.cpp:309-313, 331-335): each one gets a new variable
that is not initialised; handing it to the array without a value is undefined behaviour. -/
def readNums (k : Kind) : List Str → List Int → Ans (List Int)
  | [], a => .val a
  | s :: r, a =>
    match convert s with
    | none => .ub
    | some (neg, n) =>
      match store k neg n with
      | none => .ub
      | some v => readNums k r (a ++ [v])

/-- `GetArray(name, vector<int>&)`, `(vector<unsigned int>&)` (src/tools/ParamContainer.cpp:300-338): the elements are
appended to the array `a`. -/
def getNums (k : Kind) (c : Container) (name : Str) (a : List Int) : Ans (Bool × List Int) :=
  match c.getString name with
  | (false, _) => .val (false, a)
  | (true, s) =>
    match readNums k (split s) a with
    | .val a => .val (true, a)
    | .threw => .threw
    | .ub => .ub

/-- `SetArray(name, bool*, n)` (src/tools/ParamContainer.cpp:659-670). -/
def setBools (c : Container) (name : Str) (l : List Bool) : Container :=
  c.setArray name (l.map (fun b => if b then ['t', 'r', 'u', 'e'] else ['f', 'a', 'l', 's', 'e'])) .bool

/-- `GetArray(name, vector<bool>&)` (src/tools/ParamContainer.cpp:364-381). -/
def getBools (c : Container) (name : Str) (a : List Bool) : Bool × List Bool :=
  match c.getString name with
  | (false, _) => (false, a)
  | (true, s) => (true, a ++ (split s).map (fun e => decide (e = ['t', 'r', 'u', 'e'])))

/-- `GetArray(name, vector<char>&)` (src/tools/ParamContainer.cpp:344-358); the first character of an empty text is the
zero character. -/
def getChars (c : Container) (name : Str) (a : List Char) : Bool × List Char :=
  match c.getString name with
  | (false, _) => (false, a)
  | (true, s) => (true, a ++ (split s).map (fun e => e.headD (Char.ofNat 0)))

/-! ## Files -/

/-- How the operating system treats a file name (`open` at src/tools/ParamContainer.cpp:789, 848 and the writes at 851):
whether it can be opened for reading, for writing, and how many characters the device takes (`none`: as many as wanted). -/
structure Access where
  reads : Bool
  writes : Bool
  room : Option Nat

/-- The files and the permissions (src/tools/ParamContainer.cpp:789, 848). -/
structure Disk where
  files : Str → Option Str
  access : Str → Access

/-- The part of a text that the device takes (src/tools/ParamContainer.cpp:822, 827, 829; every line is flushed by
`endl`). -/
def taken (room : Option Nat) (text : Str) : Str :=
  match room with
  | none => text
  | some n => text.take n

/-- `WriteToFile` (src/tools/ParamContainer.cpp:844-857): `open` truncates the file, or sets `failbit`, which `bad()` does
not report and which makes the output statements and `close` do nothing; a device that is full sets `badbit` at the flush
of a line, which is reported. -/
def writeToFile (c : Container) (d : Disk) (name : Str) (withTypes : Bool) : Disk × Bool :=
  if (d.access name).writes then
    let text := c.write withTypes
    let got := taken (d.access name).room text
    ({ d with files := fun n => if n = name then some got else d.files n }, decide (got = text))
  else (d, true)

/-- `ReadFromFile` (src/tools/ParamContainer.cpp:785-796): the default mode of `fstream::open` asks for reading and writing
of an existing file.  The outcome of `Parse` is observed after at most `fuel` lines. -/
def readFromFile (c : Container) (d : Disk) (name : Str) (fuel : Nat) : Bool × Params.Outcome :=
  match d.files name with
  | none => (false, .done c)
  | some text =>
    if (d.access name).reads ∧ (d.access name).writes then (true, c.parse text none fuel)
    else (false, .done c)

end QDng.PNum
