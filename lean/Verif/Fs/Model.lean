import Verif.Common.OMap
import Verif.Common.Outcome

/-
Model of the directory functions: src/tools/fstools.cpp.

The file system is a map from absolute paths (lists of names) to files and directories, without symbolic links.  `stat` and `mkdir` follow
POSIX: a path is walked component by component, an empty component or `.` stays, `..` goes up, trailing slashes are allowed for
directories; `mkdir` fails if the last component is `.` or `..`.  `allow` says which directories the operating system lets be created (permissions,
space).
-/

namespace QDng.Fs

open QDng.Common

/-- What a path can be (`S_ISDIR`, `S_ISREG`, src/tools/fstools.cpp:73, 113, 132). -/
inductive Kind where
  | dir | file
  deriving DecidableEq

/-- The file system as `stat` sees it (src/tools/fstools.cpp:51). -/
abbrev Disk := List Str → Option Kind

/-- The surroundings: the current directory and what may be created (src/tools/fstools.cpp:63). -/
structure Sys where
  cwd : List Str
  allow : List Str → Bool

/-- `errno` of `stat` and `mkdir` (src/tools/fstools.cpp:54, 66). -/
inductive Err where
  | enoent | enotdir | eexist | eacces
  deriving DecidableEq

/-- The parts of a path between slashes (POSIX path resolution, used by src/tools/fstools.cpp:51, 63). -/
def comps : Str → List Str
  | [] => [[]]
  | c :: cs => if c = '/' then [] :: comps cs else (comps cs).modifyHead (c :: ·)

/-- Walk from a path (POSIX path resolution, used by src/tools/fstools.cpp:51, 63). -/
def walk (d : Disk) : List Str → List Str → Except Err (List Str)
  | cur, [] => .ok cur
  | cur, n :: ns =>
    match d cur with
    | none => .error .enoent
    | some .file => .error .enotdir
    | some .dir =>
      if n = [] ∨ n = ['.'] then walk d cur ns
      else if n = ['.', '.'] then walk d cur.dropLast ns
      else walk d (cur ++ [n]) ns

/-- Where a path begins (POSIX path resolution, used by src/tools/fstools.cpp:51, 63). -/
def start (S : Sys) (p : Str) : List Str := if p.head? = some '/' then [] else S.cwd

/-- `stat` (called in src/tools/fstools.cpp:51). -/
def stat (S : Sys) (d : Disk) (p : Str) : Except Err Kind :=
  if p = [] then .error .enoent
  else
    match walk d (start S p) (comps p) with
    | .error e => .error e
    | .ok q =>
      match d q with
      | none => .error .enoent
      | some k => .ok k

/-- A path without the slashes at its end. -/
def dropSlashes (p : Str) : Str := (p.reverse.dropWhile (· = '/')).reverse

/-- `mkdir` (called in src/tools/fstools.cpp:63). -/
def mkdir (S : Sys) (d : Disk) (p : Str) : Except Err Disk :=
  match (comps (dropSlashes p)).getLast? with
  | none => .error .enoent
  | some n =>
    match walk d (start S p) (comps (dropSlashes p)).dropLast with
    | .error e => .error e
    | .ok q =>
      match d q with
      | none => .error .enoent
      | some .file => .error .enotdir
      | some .dir =>
        if n = [] ∨ n = ['.'] ∨ n = ['.', '.'] then .error .eexist
        else if (d (q ++ [n])).isSome then .error .eexist
        else if S.allow (q ++ [n]) then .ok (fun r => if r = q ++ [n] then some .dir else d r)
        else .error .eacces

/-- `FS::StripLast` (src/tools/fstools.cpp:18-32): `none` if the text becomes empty in the first loop, where the character in front
of it is read. -/
def stripLast (p : Str) : Option Str :=
  let s := dropSlashes p
  if s = [] then none
  else if '/' ∈ s then some ((s.reverse.dropWhile (· ≠ '/')).drop 1).reverse
  else some []

/-- `FS::CreateDir` (src/tools/fstools.cpp:42-83); the fuel bounds the depth of the recursion. -/
def createDirN (S : Sys) : Nat → Str → Disk → Out Disk
  | 0, _, _ => .ub
  | k + 1, p, d =>
    if p = [] ∨ p = ['.', '/'] then .ok d
    else
      match stat S d p with
      | .ok .dir => .ok d
      | .ok .file => .threw d
      | .error .enoent =>
        match stripLast p with
        | none => .ub
        | some s =>
          (createDirN S k s d).bind fun d =>
            match mkdir S d p with
            | .ok d => .ok d
            | .error _ => .threw d
      | .error _ => .threw d

/-- `FS::CreateDir` (src/tools/fstools.cpp:42-83). -/
def createDir (S : Sys) (p : Str) (d : Disk) : Out Disk := createDirN S (p.length + 1) p d

end QDng.Fs
