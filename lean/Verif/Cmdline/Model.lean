import Verif.Common.OMap

/-
Model of the command line options, src/tools/Getopt.cpp.

`getopt(3)` of the C library is modelled after its manual page, for short options and with the GNU reordering of
the arguments; it is not part of the repository and belongs to the trusted base.  Entries that `operator[]` adds
to the maps of descriptions, defaults and requirements cannot be observed and are left out; those it adds to the
map of values are modelled.  Printing the help has no effect on the state and is left out.
-/

namespace QDng.Cmdline

/-- The state of a `Getopt` (src/tools/Getopt.h:51-58). -/
structure Opts where
  value : OMap Char Str
  help : OMap Char Str
  param : OMap Char Str
  deflt : OMap Char Str
  req : OMap Char Bool
  argv : List Str
  optind : Nat

/-- `m[k]` of a map of strings that is only read (src/tools/Getopt.cpp:81, 185, 190). -/
def at' (m : OMap Char Str) (k : Char) : Str := (OMap.find k m).getD []

/-- `m[k]` of the map of values: a missing key is added with an empty string (src/tools/Getopt.cpp:185, 219, 232,
245, 258). -/
def touch (m : OMap Char Str) (k : Char) : OMap Char Str :=
  match OMap.find k m with
  | some _ => m
  | none => OMap.insert k [] m

/-- `SetHelp(letter, help)` (src/tools/Getopt.cpp:108-112). -/
def Opts.setFlag (o : Opts) (letter : Char) (help : Str) : Opts :=
  { o with help := OMap.insert letter help o.help, param := OMap.insert letter [] o.param }

/-- `SetHelp(letter, parameter, required, help, value)` (src/tools/Getopt.cpp:124-130). -/
def Opts.setOption (o : Opts) (letter : Char) (parameter : Str) (required : Bool) (help value : Str) : Opts :=
  { o with
    help := OMap.insert letter help o.help
    param := OMap.insert letter parameter o.param
    req := OMap.insert letter required o.req
    deflt := if !required then OMap.insert letter value o.deflt else o.deflt }

/-- Constructor (src/tools/Getopt.cpp:21-24). -/
def Opts.new (help : Str) : Opts :=
  ({ value := [], help := [], param := [], deflt := [], req := [], argv := [], optind := 1 } : Opts).setFlag 'h' help

/-- The definition string that `ReadArgs` builds (src/tools/Getopt.cpp:77-88). -/
def optdef (param : OMap Char Str) : OMap Char Str → Str
  | [] => []
  | (c, _) :: l => (if (at' param c).isEmpty then [c] else [c, ':']) ++ optdef param l

/-- `getopt(3)`: what the definition string says about a letter; `some true` if it takes an argument (C library,
used at src/tools/Getopt.cpp:52). -/
def lookup (def' : Str) (c : Char) : Option Bool :=
  if c = ':' then none
  else
    match def' with
    | [] => none
    | d :: l => if d = c then some (l.head? == some ':') else lookup l c

/-- `getopt(3)`: the letters of one word behind the dash; `kind` is what the definition string says about a letter, `next` is the following word (C library, used at
src/tools/Getopt.cpp:52).  The result are the options found and whether the following word was used up.  An
unknown letter and a missing argument are answered with a question mark. -/
def cluster (kind : Char → Option Bool) (next : Option Str) : Str → List (Char × Option Str) × Bool
  | [] => ([], false)
  | c :: rest =>
    match kind c with
    | none => let r := cluster kind next rest; (('?', none) :: r.1, r.2)
    | some false => let r := cluster kind next rest; ((c, none) :: r.1, r.2)
    | some true =>
      if rest ≠ [] then ([(c, some rest)], false)
      else
        match next with
        | some a => ([(c, some a)], true)
        | none => ([('?', none)], false)

/-- What a sequence of `getopt` calls gives: the options found, the words that were options or arguments of
options, and the other words (C library, used at src/tools/Getopt.cpp:52). -/
structure Scan where
  found : List (Char × Option Str)
  used : List Str
  rest : List Str

/-- `getopt(3)` over all words (C library, used at src/tools/Getopt.cpp:52): words that do not begin with a dash,
and the single dash, are moved behind the others; a double dash ends the options. -/
def scan (kind : Char → Option Bool) : List Str → Scan
  | [] => ⟨[], [], []⟩
  | w :: l =>
    if w = ['-', '-'] then ⟨[], [w], l⟩
    else
      match w with
      | '-' :: c :: cs =>
        match l with
        | [] => ⟨(cluster kind none (c :: cs)).1, [w], []⟩
        | a :: l' =>
          if (cluster kind (some a) (c :: cs)).2 then
            let r := scan kind l'
            ⟨(cluster kind (some a) (c :: cs)).1 ++ r.found, w :: a :: r.used, r.rest⟩
          else
            let r := scan kind (a :: l')
            ⟨(cluster kind (some a) (c :: cs)).1 ++ r.found, w :: r.used, r.rest⟩
      | _ =>
        let r := scan kind l
        ⟨r.found, r.used, w :: r.rest⟩

/-- The loop of `ParseArgs` (src/tools/Getopt.cpp:52-59). -/
def enter (value : OMap Char Str) : List (Char × Option Str) → OMap Char Str
  | [] => value
  | (a, arg) :: l =>
    enter (match arg with
      | some s => if a ≠ '?' then OMap.insert a s value else value
      | none => if a ≠ '?' then OMap.insert a [] value else value) l

/-- `ParseArgs` (src/tools/Getopt.cpp:45-60), after `getopt` the arguments are reordered and `optind` is the index
of the first one that is not an option. -/
def Opts.parseArgs (o : Opts) (name : Str) (args : List Str) (def' : Str) : Opts :=
  let r := scan (lookup def') args
  { o with value := enter o.value r.found, argv := name :: (r.used ++ r.rest), optind := 1 + r.used.length }

/-- `ReadArgs` (src/tools/Getopt.cpp:75-90). -/
def Opts.readArgs (o : Opts) (name : Str) (args : List Str) : Opts :=
  o.parseArgs name args (optdef o.param o.help)

/-- `GetOption(letter)` (src/tools/Getopt.cpp:205-210). -/
def Opts.has (o : Opts) (letter : Char) : Bool := (OMap.find letter o.value).isSome

/-- `GetOption(letter, string &value)` (src/tools/Getopt.cpp:256-262). -/
def Opts.getStr (o : Opts) (letter : Char) : Str × Opts :=
  (if !(at' o.value letter).isEmpty then at' o.value letter else at' o.deflt letter,
    { o with value := touch o.value letter })

/-- `GetOption(letter, char &value)` (src/tools/Getopt.cpp:217-223); the character behind the end of a string is
the null character. -/
def Opts.getChar (o : Opts) (letter : Char) : Char × Opts :=
  (if !(at' o.value letter).isEmpty then (at' o.value letter).headD '\x00' else (at' o.deflt letter).headD '\x00',
    { o with value := touch o.value letter })

/-- `GetOption(letter, int &value)` and `GetOption(letter, double &value)` (src/tools/Getopt.cpp:230-249); `conv`
is `sscanf`, which leaves the variable as it is if it fails. -/
def Opts.getNum {A : Type} (conv : Str → Option A) (o : Opts) (letter : Char) (old : A) : A × Opts :=
  ((conv (if !(at' o.value letter).isEmpty then at' o.value letter else at' o.deflt letter)).getD old,
    { o with value := touch o.value letter })

/-- The loop of `CheckOptions` over the declared letters (src/tools/Getopt.cpp:184-193). -/
def Opts.checkLoop (o : Opts) : OMap Char Str → Bool × Opts
  | [] => (true, o)
  | (c, _) :: l =>
    if !(at' o.param c).isEmpty && (OMap.find c o.req).getD false then
      if (at' o.value c).isEmpty then (false, { o with value := touch o.value c })
      else ({ o with value := touch o.value c } : Opts).checkLoop l
    else if (at' o.param c).isEmpty && !(at' o.deflt c).isEmpty then
      ({ o with value := OMap.insert c (at' o.deflt c) o.value } : Opts).checkLoop l
    else o.checkLoop l

/-- `CheckOptions()` (src/tools/Getopt.cpp:176-195). -/
def Opts.check (o : Opts) : Bool × Opts := if o.has 'h' then (false, o) else o.checkLoop o.help

/-- `_argv[i]`; behind the end only undefined behaviour (`none`) is left (src/tools/Getopt.cpp:278, 295). -/
def Opts.arg (o : Opts) (i : Nat) : Option Str := o.argv[i]?

/-- `GetNonOption(number, string &value)` (src/tools/Getopt.cpp:292-299); `none` is the answer false.  The sum is
unsigned with 32 bits. -/
def Opts.nonOption (o : Opts) (number : Int) : Option (Option Str) :=
  if ((o.optind : Int) + number) % 2 ^ 32 < o.argv.length then
    some (o.arg (((o.optind : Int) + number) % 2 ^ 32).toNat)
  else none

/-- `GetNonOption(number, char *value, len)` (src/tools/Getopt.cpp:275-282) for a number that is not negative and
a buffer that is long enough. -/
def Opts.nonOptionChars (o : Opts) (number : Nat) : Option (Option Str) :=
  if ((o.optind : Int) + number) % 2 ^ 32 < o.argv.length then
    some (o.arg (o.value.length + 1 + number))
  else none

end QDng.Cmdline
