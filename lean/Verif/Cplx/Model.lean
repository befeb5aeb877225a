import Mathlib.Analysis.SpecialFunctions.Complex.Arg
import Mathlib.Analysis.SpecialFunctions.Trigonometric.Inverse
import Verif.Common.Outcome

/-
Model of the complex numbers, src/math/dcomplex.h, with exact real numbers instead of floating point numbers.
`none` is a result that is not a finite number (division by zero, the phase of zero).
-/

namespace QDng.Cplx

open QDng.Common
open Classical

/-- `dcomplex` (src/math/dcomplex.h:22-25). -/
structure DC where
  re : ℝ
  im : ℝ

/-- `dcomplex(real)` and assignment of a real number (src/math/dcomplex.h:39, 68-81). -/
def DC.ofReal (r : ℝ) : DC := ⟨r, 0⟩

/-- Assignment of the imaginary unit (src/math/dcomplex.cpp:18-22). -/
def DC.unit : DC := ⟨0, 1⟩

/-- `conj()` (src/math/dcomplex.h:44-50, 140). -/
def DC.conj (a : DC) : DC := ⟨a.re, -a.im⟩

/-- `conjugate()` (src/math/dcomplex.h:57-60). -/
def DC.conjugate (a : DC) : DC := { a with im := -a.im }

/-- `operator+` and `operator+=` (src/math/dcomplex.h:149-157, 192-195). -/
def DC.add (a b : DC) : DC := ⟨a.re + b.re, a.im + b.im⟩

/-- `operator+` with a real number (src/math/dcomplex.h:161-169). -/
def DC.addReal (a : DC) (b : ℝ) : DC := ⟨a.re + b, a.im⟩

/-- `operator-` and `operator-=` (src/math/dcomplex.h:171-179, 197-200). -/
def DC.sub (a b : DC) : DC := ⟨a.re - b.re, a.im - b.im⟩

/-- `operator-` with a real number (src/math/dcomplex.h:182-190). -/
def DC.subReal (a : DC) (b : ℝ) : DC := ⟨a.re - b, a.im⟩

/-- `operator*` and `operator*=` (src/math/dcomplex.h:202-215). -/
def DC.mul (a b : DC) : DC := ⟨a.re * b.re - a.im * b.im, a.re * b.im + a.im * b.re⟩

/-- `operator*` and `operator*=` with a real number (src/math/dcomplex.h:218-235). -/
def DC.mulReal (a : DC) (b : ℝ) : DC := ⟨a.re * b, a.im * b⟩

/-- Division of floating point numbers (for instance src/math/dcomplex.h:245). -/
noncomputable def fdiv (a b : ℝ) : Option ℝ := if b = 0 then none else some (a / b)

/-- Two parts of a number (for instance src/math/dcomplex.h:245-246). -/
def parts (a b : Option ℝ) : Option DC :=
  match a, b with
  | some x, some y => some ⟨x, y⟩
  | _, _ => none

/-- `operator/` of a real by a complex number (src/math/dcomplex.h:237-248). -/
noncomputable def DC.realDiv (a : ℝ) (b : DC) : Option DC :=
  let d := b.re * b.re + b.im * b.im
  parts (fdiv (a * b.re) d) (fdiv (-a * b.im) d)

/-- `operator/` and `operator/=` (src/math/dcomplex.h:251-267). -/
noncomputable def DC.div (a b : DC) : Option DC :=
  let d := b.re * b.re + b.im * b.im
  parts (fdiv (a.re * b.re + a.im * b.im) d) (fdiv (a.im * b.re - a.re * b.im) d)

/-- `operator/` by a real number (src/math/dcomplex.h:269-277). -/
noncomputable def DC.divReal (a : DC) (b : ℝ) : Option DC := parts (fdiv a.re b) (fdiv a.im b)

/-- `cexpI(phi)` (src/math/dcomplex.h:289-295). -/
noncomputable def cexpI (phi : ℝ) : DC := ⟨Real.cos phi, Real.sin phi⟩

/-- `cexp(z)` (src/math/dcomplex.h:300-306). -/
noncomputable def cexp (z : DC) : DC := (cexpI z.im).mulReal (Real.exp z.re)

/-- `cabs(z)` (src/math/dcomplex.h:310-313). -/
noncomputable def cabs (z : DC) : ℝ := Real.sqrt (z.re * z.re + z.im * z.im)

/-- `phase(z)` (src/math/dcomplex.h:316-325). -/
noncomputable def phase (z : DC) : Option ℝ :=
  let r := cabs z
  if r = 0 then none
  else if z.im ≥ 0 then some (Real.arccos (z.re / r))
  else some (-Real.arccos (z.re / r))

/-- The imaginary unit times a complex number, from both sides (src/math/dcomplex.h:333-339, 352-360). -/
def unitMul (c : DC) : DC := ⟨-c.im, c.re⟩

/-- The imaginary unit times a real number, from both sides (src/math/dcomplex.h:341-349, 362-370). -/
def unitMulReal (d : ℝ) : DC := ⟨0, d⟩

/-- The imaginary unit times itself (src/math/dcomplex.h:372-375). -/
def unitSq : ℝ := -1

/-- `cpow(I, n)` (src/math/dcomplex.h:380-390); the remainder has the sign of `n`, and without a matching case
the function ends without a result. -/
def cpow (n : Int) : Out DC :=
  if n.tmod 4 = 0 then .ok (DC.ofReal 1)
  else if n.tmod 4 = 1 then .ok ⟨0, 1⟩
  else if n.tmod 4 = 2 then .ok (DC.ofReal (-1))
  else if n.tmod 4 = 3 then .ok ⟨0, -1⟩
  else .ub

/-- `csqrt(c)` (src/math/dcomplex.h:395-401). -/
noncomputable def csqrt (c : DC) : Option DC :=
  match phase c with
  | some phi => some ((cexpI (phi / 2)).mulReal (Real.sqrt (cabs c)))
  | none => none

end QDng.Cplx
