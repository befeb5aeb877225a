import Mathlib.Data.Complex.Basic
import Verif.Common.Outcome

/-!
# Model of the energy bounds of sums and products of operators

Source: `/repo/src/qdlib/OSum.cpp:28-60` and `/repo/src/qdlib/OProduct.cpp:21-67`.

Simplifications: exact arithmetic; wave functions are vectors of `n` complex numbers; a part is given by its action and the
two values that it reports.  `Get` refuses a position that does not exist (`/repo/src/qdlib/OList.cpp:47-52`).
-/

namespace QDng.SumBnd

open QDng.Common

/-- A part: its action and what its `Emin()` and `Emax()` return (`/repo/src/qdlib/Operator.h:259, 266`). -/
structure Part (n : Nat) where
  /-- the action -/
  op : (Fin n → ℂ) → Fin n → ℂ
  /-- `Emin()` -/
  emin : ℂ
  /-- `Emax()` -/
  emax : ℂ

/-- `OSum::Emax()` (`/repo/src/qdlib/OSum.cpp:28-39`). -/
def sumEmax {n : Nat} (l : List (Part n)) : Ans ℂ :=
  if l.length = 0 then .threw else .val (l.foldl (fun d p => d + p.emax) 0)

/-- `OSum::Emin()` (`/repo/src/qdlib/OSum.cpp:41-51`). -/
def sumEmin {n : Nat} (l : List (Part n)) : Ans ℂ :=
  if l.length = 0 then .threw else .val (l.foldl (fun d p => d + p.emin) 0)

/-- `OSum::Apply(destPsi, sourcePsi)` (`/repo/src/qdlib/OSum.cpp:53-60`). -/
def sumApply {n : Nat} (l : List (Part n)) (ψ : Fin n → ℂ) : Ans (Fin n → ℂ) :=
  match l with
  | [] => .threw
  | p :: l => .val (l.foldl (fun d q => fun x => d x + q.op ψ x) (p.op ψ))

/-- `OProduct::Emax()` (`/repo/src/qdlib/OProduct.cpp:34-42`): from the last part to the first one. -/
def prodEmax {n : Nat} (l : List (Part n)) : ℂ := l.foldr (fun p v => v * p.emax) 1

/-- `OProduct::Emin()` (`/repo/src/qdlib/OProduct.cpp:44-52`). -/
def prodEmin {n : Nat} (l : List (Part n)) : ℂ := l.foldr (fun p v => v * p.emin) 1

/-- `OProduct::Apply(Psi)` (`/repo/src/qdlib/OProduct.cpp:63-67`): from the last part to the first one. -/
def prodApply {n : Nat} (l : List (Part n)) (ψ : Fin n → ℂ) : Fin n → ℂ := l.foldr (fun p φ => p.op φ) ψ

end QDng.SumBnd
