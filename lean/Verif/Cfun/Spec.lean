import Mathlib.Data.List.Range

/-
What the handbook says about correlation functions (doc/Handbook.tex:463-496), for wave functions, operators and
propagators of any kind.  Times are step numbers; `U c` brings the system from step `c` to step `c + 1`; an operator `o`
of the input acts as `o c` at step `c`.  Only the ket sides of the products are spelled out:
`⟨Ψ0| O_b U†(t,0) O_p U(t,0) O_k |Ψ0⟩` is the scalar product of `U(t,0) O_b† Ψ0` and `O_p U(t,0) O_k Ψ0`, where the
operators of the section `bra` are those that act on the wave function of the bra.
-/

namespace QDng.Cfun.Spec

variable {V K : Type}

/-- The state brought from step `a` to step `b`. -/
def evolve (U : Nat → V → V) (a b : Nat) (v : V) : V := (List.range' a (b - a)).foldl (fun v c => U c v) v

/-- The operators of a list, one after the other, at step `c`. -/
def apply (ops : List (Nat → V → V)) (c : Nat) (v : V) : V := ops.foldl (fun v o => o c v) v

/-- `C(t)` with `b = O_b† Ψ0` and `k = O_k Ψ0`. -/
def onePoint (U : Nat → V → V) (ip : V → V → K) (probe : Nat → V → V) (b k : V) (t : Nat) : K :=
  ip (evolve U 0 t b) (probe t (evolve U 0 t k))

/-- `C(t1,t)`. -/
def twoPointKet (U : Nat → V → V) (ip : V → V → K) (probe o1 : Nat → V → V) (b k : V) (t1 t : Nat) : K :=
  ip (evolve U 0 t b) (probe t (evolve U t1 t (o1 t1 (evolve U 0 t1 k))))

/-- `C(t,t2)`. -/
def twoPointBra (U : Nat → V → V) (ip : V → V → K) (probe o2 : Nat → V → V) (b k : V) (t2 t : Nat) : K :=
  ip (evolve U t2 t (o2 t2 (evolve U 0 t2 b))) (probe t (evolve U 0 t k))

end QDng.Cfun.Spec
