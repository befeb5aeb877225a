import Verif.Simd.Model

/-
Specification of the element wise vector operations: what the comment of each codelet says, in terms of
complex numbers.
-/

namespace QDng.Simd

/-- The result of a vector operation for each element: a complex or a real number. -/
inductive Result where
  | cplx (t : Var) (f : Env → ℂ)
  | real (t : Var) (f : Env → ℝ)

/-- The documented vector operations. -/
noncomputable def Codelet.doc : Codelet → Result
  | .abs => .real .B fun e => ‖e.c .A‖
  | .addCC => .cplx .A fun e => e.c .A + e.c .B
  | .addCCc => .cplx .A fun e => e.c .A + e.c .B * e.pc
  | .addCCd => .cplx .A fun e => e.c .A + e.c .B * e.pd
  | .addEqCCC => .cplx .C fun e => e.c .A + e.c .B
  | .expCCc => .cplx .A fun e => Complex.exp (e.c .B * e.pc)
  | .expCDc => .cplx .A fun e => Complex.exp (e.d .B * e.pc)
  | .imC => .cplx .A fun e => (e.c .A).im
  | .imCC => .cplx .A fun e => (e.c .B).im
  | .multAddCCD => .cplx .A fun e => e.c .A + e.c .B * e.d .C
  | .multAddCCDd => .cplx .A fun e => e.c .A + e.c .B * e.d .C * e.pd
  | .multAddCCc => .cplx .A fun e => e.c .A + e.c .B * e.pc
  | .multAddCCd => .cplx .A fun e => e.c .A + e.c .B * e.pd
  | .multCC => .cplx .A fun e => e.c .A * e.c .B
  | .multCCD => .cplx .A fun e => e.c .B * e.d .C
  | .multCCDd => .cplx .A fun e => e.c .B * e.d .C * e.pd
  | .multCCd => .cplx .A fun e => e.c .A * e.c .B * e.pd
  | .multCD => .cplx .A fun e => e.c .A * e.d .B
  | .multCDc => .cplx .A fun e => e.c .A * e.d .B * e.pc
  | .multCDd => .cplx .A fun e => e.c .A * e.d .B * e.pd
  | .multCc => .cplx .A fun e => e.c .A * e.pc
  | .multCd => .cplx .A fun e => e.c .A * e.pd
  | .cplxCCDd => .cplx .C fun e => e.c .C * e.c .A * Complex.I * e.d .B * e.pd
  | .cplxCCd => .cplx .A fun e => e.c .A * Complex.I * e.c .B * e.pd
  | .cplxCDd => .cplx .A fun e => e.c .A * Complex.I * e.d .B * e.pd
  | .cplxEqCCDd => .cplx .C fun e => e.c .A * (e.d .B * Complex.I) * e.pd
  | .conjCCCd => .cplx .C fun e => (starRingEnd ℂ) (e.c .A) * e.c .B * e.pd
  | .conjCCd => .cplx .A fun e => (starRingEnd ℂ) (e.c .A) * e.c .B * e.pd
  | .copyCCC => .cplx .C fun e => e.c .A * e.c .B
  | .copyCCCd => .cplx .C fun e => e.c .A * e.c .B * e.pd
  | .copyCCD => .cplx .A fun e => e.c .B * e.d .C
  | .copyCCDd => .cplx .A fun e => e.c .B * e.d .C * e.pd
  | .copyCCc => .cplx .A fun e => e.c .B * e.pc
  | .copyCCd => .cplx .A fun e => e.c .B * e.pd
  | .multDd => .real .A fun e => e.d .A * e.pd
  | .reC => .cplx .A fun e => (e.c .A).re
  | .reCC => .cplx .A fun e => (e.c .B).re

/-- The memory after a vector operation on the first `n` elements: each element of the target is the
documented value for the elements the vectors had before, everything else is unchanged. -/
noncomputable def Result.after (r : Result) (a : Call) (n : Nat) (m : Mem) : Mem :=
  match r with
  | .cplx t f =>
    { c := fun v j => if v = a.vec t ∧ j < n then
        f ⟨fun w => m.c (a.vec w) j, fun w => m.d (a.vec w) j, a.pc, a.pd⟩ else m.c v j
      d := m.d }
  | .real t f =>
    { c := m.c
      d := fun v j => if v = a.vec t ∧ j < n then
        f ⟨fun w => m.c (a.vec w) j, fun w => m.d (a.vec w) j, a.pc, a.pd⟩ else m.d v j }

/-- One order of the Chebychev recursion for the first `n` elements: with `b = 2 x (H - offset) / scaling`
applied to the last vector, the next vector is `b + k0` (`b - k0` in imaginary time), it replaces `k0` and is
added to the wave function with its coefficient. -/
noncomputable def chebDoc (q : ChebPar) (im : Bool) (n : Nat) (m : ChebMem) : ChebMem :=
  let b : Nat → ℂ := fun j => (m.bf j - q.offset * m.k1 j) / q.scaling * q.exp2
  let k : Nat → ℂ := fun j => if im then b j - m.k0 j else b j + m.k0 j
  let p : Nat → ℂ := fun j => m.psi j + k j * q.coeff
  { bf := fun j => if j < n then b j else m.bf j
    k0 := fun j => if j < n then k j else m.k0 j
    k1 := m.k1
    k2 := fun j => if j < n then k j else m.k2 j
    psi := fun j => if j < n then p j else m.psi j
    acc := m.acc + ∑ j ∈ Finset.range n, ‖p j‖ ^ 2 }

/-- The operations that take the imaginary part. -/
def Codelet.TakesImag (k : Codelet) : Prop := k = .imC ∨ k = .imCC

end QDng.Simd
