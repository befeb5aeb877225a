/-
Model of the loader for wave function and operator classes: src/modules/ModuleLoader.h,
src/modules/ModuleLoader.cpp and the look-up functions of src/modules/InternalMods.cpp.

Strings are lists of characters.  An instance function is an abstract value of type `C`.  The C library
is a parameter: `wordexp`, `dlopen`, `dlsym`, `getenv`.  Debug messages are left out.
-/

namespace QDng.Mods

abbrev Str := List Char

/-- Outcome: normal end, exception, undefined behaviour. -/
inductive Res (S : Type) where
  | ok (s : S)
  | threw
  | ub
  deriving DecidableEq, Repr

/-- Which loader (src/modules/ModuleLoader.cpp:14-22). -/
inductive Kind where
  | waveFunction
  | operator
  deriving DecidableEq, Repr

/-- What the loader sees of the system at one call: shell expansion of a path (`none`: it fails), the
library behind a file name (`none`: it cannot be opened; `some none`: it has no `mod_instance_func`;
no name: the program itself), the variable QD_MOD_PATH and the compiled-in path
(src/modules/ModuleLoader.h:163-165, 127, 218, 227). -/
structure Env (C : Type) where
  expand : Str → Option (List Str)
  dlopen : Option Str → Option (Option C)
  modPath : Option Str
  sysPath : Str

/-- An entry of the map of modules (src/modules/ModuleLoader.h:52-61). -/
structure Entry (C : Type) where
  inst : C
  links : Nat

/-- The loader: user path and map (src/modules/ModuleLoader.h:63-66). -/
structure Loader (C : Type) where
  userPath : Str
  mods : Str → Option (Entry C)

/-- A fresh loader (src/modules/ModuleLoader.cpp:14-22). -/
def Loader.init {C : Type} : Loader C := ⟨"~/qdmods/".toList, fun _ => none⟩

/-- `MOD_BASENAME_WF`, `MOD_BASENAME_OP` (src/modules/ModuleLoader.h:23-24). -/
def baseLib : Kind → Str
  | .waveFunction => "libqd-WF".toList
  | .operator => "libqd-O".toList

/-- `INTERNAL_BASENAME_WF`, `INTERNAL_BASENAME_OP` (src/modules/ModuleLoader.h:20-21). -/
def baseInt : Kind → Str
  | .waveFunction => "INT_WF".toList
  | .operator => "INT_O".toList

/-- The name under which a compiled-in class is looked up (src/modules/ModuleLoader.cpp:52-55 and 83). -/
def intName (k : Kind) (name : Str) : Str :=
  match k with
  | .waveFunction =>
    if name.take 2 = "WF".toList then baseInt k ++ name.drop 2 else baseInt k ++ name
  | .operator => baseInt k ++ name

/-- The classes that are compiled in (src/modules/InternalMods.cpp:120-167); `dyn` is USE_DYNMODS. -/
def internals (dyn : Bool) : Kind → List String
  | .waveFunction => ["WFGridCartesian", "WFLevel"]
  | .operator =>
    ["OSum", "OProduct", "OProjection", "OScalar", "ONormalize", "OGridMomentum", "OArnoldi"] ++
    (if dyn then [] else
      ["OCheby", "OGSPO", "OSIL", "ORK4", "OGridNablaSq", "OGridPML", "OGridGMat", "OGridPotential",
       "OGridDipole", "OGridRaman", "OGridPosition", "OGridHOFD", "OJump", "OGridNabla", "OGridNAC",
       "OGridKick", "OHermitianMatrix", "OMatDipole", "OGobbler", "OFlux"])

/-- `InternalWF`, `InternalOP` (src/modules/InternalMods.cpp:120-167, macro 67-68): `inst` gives the
instance function of a class. -/
def lookup {C : Type} (dyn : Bool) (inst : String → C) (k : Kind) (s : Str) : Option C :=
  ((internals dyn k).find? fun c => s = "INT_".toList ++ c.toList).map inst

/-- `_mod_map[name].Instance = inst; _mod_map[name].link_count++`
(src/modules/ModuleLoader.h:130-132, src/modules/ModuleLoader.cpp:61-63). -/
def Loader.register {C : Type} (l : Loader C) (name : Str) (inst : C) : Loader C :=
  let count := match l.mods name with
    | some e => e.links
    | none => 0
  { l with mods := fun n => if n = name then some ⟨inst, count + 1⟩ else l.mods n }

/-- Models `UserPath` (src/modules/ModuleLoader.h:142-150): the last character is read before the
length is tested. -/
def Loader.setUserPath {C : Type} (l : Loader C) (path : Str) : Res (Loader C) :=
  match path.getLast? with
  | none => .ub
  | some c => .ok { l with userPath := if c ≠ '/' then path ++ ['/'] else path }

/-- Models `try_lib_path` with `_Register` (src/modules/ModuleLoader.h:157-184, 120-136): `none` if the
library cannot be opened.  The result of `wordexp` is not tested, and only the first word is used. -/
def tryPath {C : Type} (env : Env C) (l : Loader C) (full name : Str) : Res (Option (Loader C × C)) :=
  match env.expand full with
  | none => .ub
  | some ws =>
    match env.dlopen ws.head? with
    | none => .ok none
    | some none => .threw
    | some (some c) => .ok (some (l.register name c, c))

/-- The tries of `Load` one behind the other (src/modules/ModuleLoader.h:209-235). -/
def tryPaths {C : Type} (env : Env C) (l : Loader C) (name : Str) : List Str → Res (Loader C × C)
  | [] => .threw
  | p :: ps =>
    match tryPath env l p name with
    | .ok (some r) => .ok r
    | .ok none => tryPaths env l name ps
    | .threw => .threw
    | .ub => .ub

/-- The file names tried by `Load` (src/modules/ModuleLoader.h:209-232). -/
def paths {C : Type} (k : Kind) (env : Env C) (l : Loader C) (name : Str) : List Str :=
  (if l.userPath.length > 0 then [l.userPath ++ baseLib k ++ name ++ ".so".toList] else []) ++
  ((match env.modPath with | some d => [d ++ baseLib k ++ name ++ ".so".toList] | none => []) ++
  [env.sysPath ++ baseLib k ++ name ++ ".so".toList, baseLib k ++ name])

/-- Models `Load` (src/modules/ModuleLoader.h:195-243) with `_isLoaded` (108-113) and `_Internal`
(src/modules/ModuleLoader.cpp:47-98): the loader afterwards and the instance function that is called.
A `Load` that throws leaves the loader as it was. -/
def Loader.load {C : Type} (dyn : Bool) (inst : String → C) (k : Kind) (env : Env C) (l : Loader C)
    (name : Str) : Res (Loader C × C) :=
  match (if dyn then l.mods name else none) with
  | some e => .ok (l.register name e.inst, e.inst)
  | none =>
    match lookup dyn inst k (intName k name) with
    | some c => .ok (l.register name c, c)
    | none => if dyn then tryPaths env l name (paths k env l name) else .threw

/-- A call by the user: load a class while the system is in some state, or set the path
(src/modules/ModuleLoader.h:83-91). -/
inductive Call (C : Type) where
  | load (env : Env C) (name : Str)
  | userPath (path : Str)

/-- A sequence of calls: the loader afterwards and the successful loads in order; `none` after
undefined behaviour (src/modules/ModuleLoader.h:83-91). -/
def run {C : Type} (dyn : Bool) (inst : String → C) (k : Kind) :
    Loader C → List (Call C) → Option (Loader C × List (Str × C))
  | l, [] => some (l, [])
  | l, .load env name :: cs =>
    match l.load dyn inst k env name with
    | .ok (l', c) => (run dyn inst k l' cs).map fun r => (r.1, (name, c) :: r.2)
    | .threw => run dyn inst k l cs
    | .ub => none
  | l, .userPath p :: cs =>
    match l.setUserPath p with
    | .ok l' => run dyn inst k l' cs
    | .threw => run dyn inst k l cs
    | .ub => none

end QDng.Mods
