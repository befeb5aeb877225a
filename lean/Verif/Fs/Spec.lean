import Verif.Fs.Model

/-
What creating a directory means, in terms of absolute paths.
-/

namespace QDng.Fs.Spec

open QDng.Fs

/-- The names of a path: its parts between slashes that are not empty. -/
def names (p : Str) : List Str := (comps p).filter (fun n => n ≠ [])

/-- The path does not use `.` or `..`. -/
def Plain (p : Str) : Prop := ['.'] ∉ names p ∧ ['.', '.'] ∉ names p

/-- The absolute path. -/
def target (S : Sys) (p : Str) : List Str := (if p.head? = some '/' then [] else S.cwd) ++ names p

/-- A sensible file system: the root and the current directory are directories and everything else is inside a directory. -/
structure Wf (S : Sys) (d : Disk) : Prop where
  root : d [] = some .dir
  cwd : d S.cwd = some .dir
  parent : ∀ q n, d (q ++ [n]) ≠ none → d q = some .dir

/-- The file system with all directories on the way to `t` that were missing. -/
def withDirs (d : Disk) (t : List Str) : Disk := fun q => if q <+: t ∧ d q = none then some .dir else d q

/-- Nothing on the way is a file, and what is missing may be created. -/
def Possible (S : Sys) (d : Disk) (t : List Str) : Prop :=
  ∀ q, q <+: t → d q ≠ some .file ∧ (d q = none → S.allow q = true)

end QDng.Fs.Spec
