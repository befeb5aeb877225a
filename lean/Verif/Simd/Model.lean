import Verif.Common.Outcome
import Verif.GridFn.Model
import Mathlib.Analysis.SpecialFunctions.Complex.Circle

/-
Model of the element wise vector operations (src/math/codelets/*.h) in the builds without SIMD
instructions, with SSE2 and with SSE3 (src/math/m128dc.h), of the inner loops of the Chebychev
recursion and the scalar product with and without SSE, and of their parallel execution with OpenMP.

Numbers are exact.  The iterations of a parallel loop are executed in an arbitrary order, each as a
whole.  The alignment of memory is left out.  The AVX variants are left out: with AVX enabled the
codelets are not accepted by a compiler (an undeclared variable in MultElementsComplexEqCCDd.h:22).
-/

namespace QDng.Simd

open QDng.Common QDng.Deriv QDng.GridFn

/-! ### SSE registers -/

/-- A register of the type `__m128d` with its two numbers (src/math/m128dc.h:31). -/
structure Reg where
  lo : ℝ
  hi : ℝ

/-- `_mm_mul_pd` as used in src/math/m128dc.h:83, 87. -/
def mulPd (a b : Reg) : Reg := ⟨a.lo * b.lo, a.hi * b.hi⟩

/-- `_mm_add_pd` as used in src/math/m128dc.h:96, 189. -/
def addPd (a b : Reg) : Reg := ⟨a.lo + b.lo, a.hi + b.hi⟩

/-- `_mm_sub_pd` as used in src/math/m128dc.h:206. -/
def subPd (a b : Reg) : Reg := ⟨a.lo - b.lo, a.hi - b.hi⟩

/-- `_mm_xor_pd` with `SIGNMASK128` (src/math/m128dc.h:80-84): the sign of the upper number. -/
def xorSign (a : Reg) : Reg := ⟨a.lo, -a.hi⟩

/-- `_mm_shuffle_pd(a, b, 0x1)` as used in src/math/m128dc.h:86, 121. -/
def shuffle1 (a b : Reg) : Reg := ⟨a.hi, b.lo⟩

/-- `_mm_hadd_pd` as used in src/math/m128dc.h:90. -/
def hadd (a b : Reg) : Reg := ⟨a.lo + a.hi, b.lo + b.hi⟩

/-- `_mm_unpacklo_pd` as used in src/math/m128dc.h:93. -/
def unpackLo (a b : Reg) : Reg := ⟨a.lo, b.lo⟩

/-- `_mm_unpackhi_pd` as used in src/math/m128dc.h:94. -/
def unpackHi (a b : Reg) : Reg := ⟨a.hi, b.hi⟩

/-- `_mm_load1_pd` as used in src/math/m128dc.h:115, 172. -/
def load1 (a : ℝ) : Reg := ⟨a, a⟩

/-- The instruction set (configure.in:173-181). -/
inductive Build where
  | scalar
  | sse2
  | sse3

/-- Models the constructor from a complex number (src/math/m128dc.h:42-50). -/
def load (z : ℂ) : Reg := ⟨z.re, z.im⟩

/-- Models `Store` and the conversion (src/math/m128dc.h:59-71). -/
def store (a : Reg) : ℂ := ⟨a.lo, a.hi⟩

/-- Models the product of two registers (src/math/m128dc.h:77-98); `three`: with SSE3. -/
def Reg.mul (three : Bool) (v b : Reg) : Reg :=
  let re := xorSign (mulPd v b)
  let im := mulPd v (shuffle1 b b)
  if three then hadd re im else addPd (unpackLo re im) (unpackHi re im)

/-- Models `MultImag` (src/math/m128dc.h:112-124). -/
def Reg.multImag (v : Reg) (a : ℝ) : Reg :=
  let r := mulPd (xorSign v) (load1 a)
  shuffle1 r r

/-- Models `conj` (src/math/m128dc.h:126-132). -/
def Reg.conj (v : Reg) : Reg := xorSign v

/-- Models `imag` (src/math/m128dc.h:134-140). -/
def Reg.imag (v : Reg) : Reg := ⟨0, v.hi⟩

/-- Models `real` (src/math/m128dc.h:142-148). -/
def Reg.real (v : Reg) : Reg := ⟨v.lo, 0⟩

/-- Models `imags` (src/math/m128dc.h:151-157): `_mm_store_sd` stores the lower number. -/
def Reg.imags (v : Reg) : ℝ := v.lo

/-- Models `reals` (src/math/m128dc.h:159-165). -/
def Reg.reals (v : Reg) : ℝ := v.lo

/-- Models the product with a number (src/math/m128dc.h:170-182). -/
def Reg.scale (v : Reg) (a : ℝ) : Reg := mulPd v (load1 a)

/-- Models the sum (src/math/m128dc.h:187-198). -/
def Reg.add (v a : Reg) : Reg := addPd v a

/-- Models the difference (src/math/m128dc.h:204-215). -/
def Reg.sub (v a : Reg) : Reg := subPd v a

/-! ### Complex numbers -/

/-- The product (src/math/dcomplex.h:202-210). -/
def cMul (a b : ℂ) : ℂ := ⟨a.re * b.re - a.im * b.im, a.re * b.im + a.im * b.re⟩

/-- The product with a number (src/math/dcomplex.h:218-224, 232-235). -/
def cMulD (a : ℂ) (b : ℝ) : ℂ := ⟨a.re * b, a.im * b⟩

/-- The quotient by a number (src/math/dcomplex.h:269-277). -/
noncomputable def cDivD (a : ℂ) (b : ℝ) : ℂ := ⟨a.re / b, a.im / b⟩

/-- The sum (src/math/dcomplex.h:149-157, 192-195). -/
def cAdd (a b : ℂ) : ℂ := ⟨a.re + b.re, a.im + b.im⟩

/-- The difference (src/math/dcomplex.h:171-179, 197-200). -/
def cSub (a b : ℂ) : ℂ := ⟨a.re - b.re, a.im - b.im⟩

/-- The product with the imaginary unit (src/math/dcomplex.h:333-339, 352-360). -/
def cMulI (c : ℂ) : ℂ := ⟨-c.im, c.re⟩

/-- The product of a number with the imaginary unit (src/math/dcomplex.h:341-349, 362-370). -/
def dMulI (d : ℝ) : ℂ := ⟨0, d⟩

/-- `conj` (src/math/dcomplex.h:44-50, 140). -/
def cConj (c : ℂ) : ℂ := ⟨c.re, -c.im⟩

/-- `cexp` (src/math/dcomplex.h:289-306). -/
noncomputable def cExp (z : ℂ) : ℂ := cMulD ⟨Real.cos z.im, Real.sin z.im⟩ (Real.exp z.re)

/-- `cabs` (src/math/dcomplex.h:310-313). -/
noncomputable def cAbs (z : ℂ) : ℝ := Real.sqrt (z.re * z.re + z.im * z.im)

/-! ### Codelets -/

/-- The vectors of a codelet (src/math/codelets/codelet.pl:27-34). -/
inductive Var where
  | A
  | B
  | C
  deriving DecidableEq

/-- The values the body of a loop can use: the elements of the vectors and the parameters
(src/math/codelets/vec.cl). -/
structure Env where
  c : Var → ℂ
  d : Var → ℝ
  pc : ℂ
  pd : ℝ

/-- Real expressions of the codelets (src/math/codelets/*.pm). -/
inductive DX where
  | vec (v : Var)
  | par
  | mul (a b : DX)

/-- Complex expressions of the codelets (src/math/codelets/*.pm).  `mulS` and `mulDS` are products for
which the operands are converted to `dcomplex` in all builds. -/
inductive CX where
  | vec (v : Var)
  | par
  | mul (a b : CX)
  | mulS (a b : CX)
  | mulD (a : CX) (b : DX)
  | mulDS (a : CX) (b : DX)
  | add (a b : CX)
  | mulI (a : CX)
  | ofI (b : DX)
  | multImag (a : CX) (b : DX)
  | conj (a : CX)
  | re (a : CX)
  | im (a : CX)
  | exp (a : CX)

/-- The value of a real expression; the arithmetic is that of the processor in all builds
(src/math/codelets/MultElementsDd.h:22-30). -/
def DX.eval (e : Env) : DX → ℝ
  | .vec v => e.d v
  | .par => e.pd
  | .mul a b => a.eval e * b.eval e

/-- The value of an expression in the build without SSE (src/math/dcomplex.h:46-374). -/
noncomputable def CX.evalS (e : Env) : CX → ℂ
  | .vec v => e.c v
  | .par => e.pc
  | .mul a b => cMul (a.evalS e) (b.evalS e)
  | .mulS a b => cMul (a.evalS e) (b.evalS e)
  | .mulD a b => cMulD (a.evalS e) (b.eval e)
  | .mulDS a b => cMulD (a.evalS e) (b.eval e)
  | .add a b => cAdd (a.evalS e) (b.evalS e)
  | .mulI a => cMulI (a.evalS e)
  | .ofI b => dMulI (b.eval e)
  | .multImag a b => cMul (a.evalS e) (dMulI (b.eval e))
  | .conj a => cConj (a.evalS e)
  | .re a => ⟨(a.evalS e).re, 0⟩
  | .im a => ⟨(a.evalS e).im, 0⟩
  | .exp a => cExp (a.evalS e)

/-- The value of an expression in the builds with SSE (src/math/m128dc.h:27-222). -/
noncomputable def CX.evalV (three : Bool) (e : Env) : CX → Reg
  | .vec v => load (e.c v)
  | .par => load e.pc
  | .mul a b => (a.evalV three e).mul three (b.evalV three e)
  | .mulS a b => load (cMul (store (a.evalV three e)) (store (b.evalV three e)))
  | .mulD a b => (a.evalV three e).scale (b.eval e)
  | .mulDS a b => load (cMulD (store (a.evalV three e)) (b.eval e))
  | .add a b => (a.evalV three e).add (b.evalV three e)
  | .mulI a => load (cMulI (store (a.evalV three e)))
  | .ofI b => load (dMulI (b.eval e))
  | .multImag a b => (a.evalV three e).multImag (b.eval e)
  | .conj a => (a.evalV three e).conj
  | .re a => (a.evalV three e).real
  | .im a => (a.evalV three e).imag
  | .exp a => load (cExp (store (a.evalV three e)))

/-- The value of an expression, stored to memory. -/
noncomputable def CX.eval (b : Build) (e : Env) (x : CX) : ℂ :=
  match b with
  | .scalar => x.evalS e
  | .sse2 => store (x.evalV false e)
  | .sse3 => store (x.evalV true e)

/-- The statement of a loop: an assignment to an element of a complex vector, of a real vector, or of the
absolute value (src/math/codelets/codelet.pl:86-118). -/
inductive Body where
  | cplx (t : Var) (x : CX)
  | real (t : Var) (x : DX)
  | abs (t : Var) (x : CX)

/-- The codelets (src/math/VectorPrimitives.h:12-48), by function and types of the parameters. -/
inductive Codelet where
  | abs | addCC | addCCc | addCCd | addEqCCC | expCCc | expCDc | imC | imCC | multAddCCD | multAddCCDd
  | multAddCCc | multAddCCd | multCC | multCCD | multCCDd | multCCd | multCD | multCDc | multCDd | multCc
  | multCd | cplxCCDd | cplxCCd | cplxCDd | cplxEqCCDd | conjCCCd | conjCCd | copyCCC | copyCCCd | copyCCD
  | copyCCDd | copyCCc | copyCCd | multDd | reC | reCC

open CX in
/-- The statements of the codelets, lines 26 (with SSE) and 30 (without) of the files
src/math/codelets/Abs.h, AddElementsCC.h, AddElementsCCc.h, AddElementsCCd.h, AddElementsEqCCC.h,
ExpElements.h, ExpElementsCDc.h, Im.h, ImCC.h, MultElementsAddCCD.h, MultElementsAddCCDd.h,
MultElementsAddCCc.h, MultElementsAddCCd.h, MultElementsCC.h, MultElementsCCD.h, MultElementsCCDd.h,
MultElementsCCd.h, MultElementsCD.h, MultElementsCDc.h, MultElementsCDd.h, MultElementsCc.h,
MultElementsCd.h, MultElementsComplexCCDd.h, MultElementsComplexCCd.h, MultElementsComplexCDd.h,
MultElementsComplexEqCCDd.h, MultElementsConjugateCCCd.h, MultElementsConjugateCCd.h,
MultElementsCopyCCC.h, MultElementsCopyCCCd.h, MultElementsCopyCCD.h, MultElementsCopyCCDd.h,
MultElementsCopyCCc.h, MultElementsCopyCCd.h, MultElementsDd.h, Re.h, ReCC.h, in this order. -/
def Codelet.body (b : Build) : Codelet → Body
  | .abs => .abs .B (vec .A)
  | .addCC => .cplx .A (add (vec .A) (vec .B))
  | .addCCc => .cplx .A (add (vec .A) (mul (vec .B) par))
  | .addCCd => .cplx .A (add (vec .A) (mulD (vec .B) .par))
  | .addEqCCC => .cplx .C (add (vec .A) (vec .B))
  | .expCCc => .cplx .A (exp (mul (vec .B) par))
  | .expCDc => .cplx .A (exp (mulDS par (.vec .B)))
  | .imC => .cplx .A (im (vec .A))
  | .imCC => .cplx .A (im (vec .B))
  | .multAddCCD => .cplx .A (add (vec .A) (mulD (vec .B) (.vec .C)))
  | .multAddCCDd => .cplx .A (add (vec .A) (mulD (mulD (vec .B) (.vec .C)) .par))
  | .multAddCCc => .cplx .A (add (vec .A) (mul (vec .B) par))
  | .multAddCCd => .cplx .A (add (vec .A) (mulD (vec .B) .par))
  | .multCC => .cplx .A (mul (vec .A) (vec .B))
  | .multCCD => .cplx .A (mulD (vec .B) (.vec .C))
  | .multCCDd => .cplx .A (mulD (mulD (vec .B) (.vec .C)) .par)
  | .multCCd => .cplx .A (mulD (mul (vec .A) (vec .B)) .par)
  | .multCD => .cplx .A (mulD (vec .A) (.vec .B))
  | .multCDc => .cplx .A (mul (mulD (vec .A) (.vec .B)) par)
  | .multCDd => .cplx .A (mulD (mulD (vec .A) (.vec .B)) .par)
  | .multCc => .cplx .A (mul (vec .A) par)
  | .multCd => .cplx .A (mulD (vec .A) .par)
  | .cplxCCDd =>
    match b with
    | .scalar => .cplx .C (mulD (mulD (mulI (mul (vec .C) (vec .A))) (.vec .B)) .par)
    | _ => .cplx .C (mulD (mul (vec .C) (multImag (vec .A) (.vec .B))) .par)
  | .cplxCCd => .cplx .A (mulDS (mulS (mulI (vec .A)) (vec .B)) .par)
  | .cplxCDd => .cplx .A (mulDS (mulDS (mulI (vec .A)) (.vec .B)) .par)
  | .cplxEqCCDd =>
    match b with
    | .scalar => .cplx .C (mulD (mul (vec .A) (ofI (.vec .B))) .par)
    | _ => .cplx .C (mulD (multImag (vec .A) (.vec .B)) .par)
  | .conjCCCd => .cplx .C (mulD (mul (conj (vec .A)) (vec .B)) .par)
  | .conjCCd => .cplx .A (mulD (mul (conj (vec .A)) (vec .B)) .par)
  | .copyCCC => .cplx .C (mul (vec .A) (vec .B))
  | .copyCCCd => .cplx .C (mulD (mul (vec .A) (vec .B)) .par)
  | .copyCCD => .cplx .A (mulD (vec .B) (.vec .C))
  | .copyCCDd => .cplx .A (mulD (mulD (vec .B) (.vec .C)) .par)
  | .copyCCc => .cplx .A (mul (vec .B) par)
  | .copyCCd => .cplx .A (mulD (vec .B) .par)
  | .multDd => .real .A (.mul (.vec .A) .par)
  | .reC => .cplx .A (re (vec .A))
  | .reCC => .cplx .A (re (vec .B))

/-- The memory: the elements of the complex and of the real vectors (src/math/Vector.h:73-81), one
stride. -/
@[ext] structure Mem where
  c : Nat → Nat → ℂ
  d : Nat → Nat → ℝ

/-- The arguments of a call: the vectors, which may be the same, and the parameters
(src/math/codelets/vec.cl:6). -/
structure Call where
  vec : Var → Nat
  pc : ℂ
  pd : ℝ

/-- The values for the iteration `i` (src/math/codelets/vec.cl:18-30). -/
def Call.env (a : Call) (m : Mem) (i : Nat) : Env :=
  { c := fun v => m.c (a.vec v) i, d := fun v => m.d (a.vec v) i, pc := a.pc, pd := a.pd }

/-- One iteration of a loop (src/math/codelets/vec.cl:18-30). -/
noncomputable def Body.step (b : Build) (a : Call) (x : Body) (m : Mem) (i : Nat) : Mem :=
  match x with
  | .cplx t e => { m with c := fun v j => if v = a.vec t ∧ j = i then e.eval b (a.env m i) else m.c v j }
  | .real t e => { m with d := fun v j => if v = a.vec t ∧ j = i then e.eval (a.env m i) else m.d v j }
  | .abs t e =>
    { m with d := fun v j => if v = a.vec t ∧ j = i then cAbs (e.eval b (a.env m i)) else m.d v j }

/-- The loop over the elements (src/math/codelets/vec.cl:14-31); `order` is the order in which the threads
execute the iterations. -/
noncomputable def Codelet.run (k : Codelet) (b : Build) (a : Call) (order : List Nat) (m : Mem) : Mem :=
  order.foldl (fun m i => (k.body b).step b a m i) m

/-! ### Chebychev recursion -/

/-- The vectors the recursion works on (src/qdlib/OCheby.cpp:132-136). -/
@[ext] structure ChebMem where
  bf : Nat → ℂ
  k0 : Nat → ℂ
  k1 : Nat → ℂ
  k2 : Nat → ℂ
  psi : Nat → ℂ
  acc : ℝ

/-- The factors of a recursion (src/qdlib/OCheby.cpp:117, 122, 138). -/
structure ChebPar where
  offset : ℂ
  scaling : ℝ
  exp2 : ℂ
  coeff : ℂ

/-- One element without SSE (src/qdlib/OCheby.cpp:168-173; in imaginary time, `im`, 274-279). -/
noncomputable def chebScalar (q : ChebPar) (im : Bool) (m : ChebMem) (j : Nat) : ChebMem :=
  let b1 := cDivD (cSub (m.bf j) (cMul q.offset (m.k1 j))) q.scaling
  let b2 := cMul b1 q.exp2
  let k := if im then cSub b2 (m.k0 j) else cAdd b2 (m.k0 j)
  let p := cAdd (m.psi j) (cMul k q.coeff)
  { bf := Function.update m.bf j b2, k0 := Function.update m.k0 j k, k1 := m.k1,
    k2 := Function.update m.k2 j k, psi := Function.update m.psi j p,
    acc := m.acc + (cMul (cConj p) p).re }

/-- One element with SSE (src/qdlib/OCheby.cpp:143-160; in imaginary time, `im`, 249-266). -/
noncomputable def chebSse (three : Bool) (q : ChebPar) (im : Bool) (m : ChebMem) (j : Nat) : ChebMem :=
  let vbf := ((((load (m.bf j)).sub ((load (m.k1 j)).mul three (load q.offset))).scale (1 / q.scaling)).mul
    three (load q.exp2))
  let vk2 := if im then vbf.sub (load (m.k0 j)) else (load (m.k0 j)).add vbf
  let vpsi := (load (m.psi j)).add (vk2.mul three (load q.coeff))
  { bf := Function.update m.bf j (store vbf), k0 := Function.update m.k0 j (store vk2),
    k1 := Function.update m.k1 j (store (load (m.k1 j))), k2 := Function.update m.k2 j (store vk2),
    psi := Function.update m.psi j (store vpsi), acc := m.acc + (store (vpsi.conj.mul three vpsi)).re }

/-- The loop over the elements in the order of the threads (src/qdlib/OCheby.cpp:130-176, 237-283). -/
noncomputable def chebLoop (b : Build) (q : ChebPar) (im : Bool) (order : List Nat) (m : ChebMem) :
    ChebMem :=
  order.foldl (fun m j => match b with
    | .scalar => chebScalar q im m j
    | .sse2 => chebSse false q im m j
    | .sse3 => chebSse true q im m j) m

/-! ### Reference norm of the Chebychev recursion -/

/-- The norm of one stride (src/qdlib/OCheby.cpp:78-85). -/
def lnorm (n : Nat) (wf : Nat → ℂ) : ℝ :=
  (List.range n).foldl (fun a j => a + (cMul (cConj (wf j)) (wf j)).re) 0

/-- `norm += lnorm` in one thread (src/qdlib/OCheby.cpp:86): `norm` is shared without protection
(src/qdlib/OCheby.cpp:72-77), so that reading and writing are separate steps. -/
inductive NormStep where
  | read (s : Nat)
  | write (s : Nat)

/-- The shared variable and the values the threads have read. -/
structure NormState where
  norm : ℝ
  reg : Nat → ℝ

/-- One step of the thread of the stride `s` (src/qdlib/OCheby.cpp:86). -/
def NormState.step (l : Nat → ℝ) (x : NormState) : NormStep → NormState
  | .read s => { x with reg := Function.update x.reg s x.norm }
  | .write s => { x with norm := x.reg s + l s }

/-- Models `raw_norm` (src/qdlib/OCheby.cpp:64-90) for an interleaving of the steps of the threads; `l` are
the norms of the strides. -/
def rawNorm (l : Nat → ℝ) (steps : List NormStep) : ℝ :=
  (steps.foldl (NormState.step l) { norm := 0, reg := fun _ => 0 }).norm

/-! ### Scalar product -/

/-- The share of one thread in a stride (src/qdlib/WFGridCartesian.cpp:73-92): `own` are its elements. -/
noncomputable def threadSum (b : Build) (f g : Nat → ℂ) (own : List Nat) (c : ℂ) : ℂ :=
  match b with
  | .scalar => own.foldl (fun c i => cAdd c (cMul (cConj (f i)) (g i))) c
  | .sse2 => store (own.foldl (fun v i => v.add ((load (f i)).conj.mul false (load (g i)))) (load c))
  | .sse3 => store (own.foldl (fun v i => v.add ((load (f i)).conj.mul true (load (g i)))) (load c))

/-- Models the loop over the strides of the process `rank` of `msize` with OpenMP
(src/qdlib/WFGridCartesian.cpp:70-102): in each stride each thread starts with the zero in `c` and adds its
share to `cglob`. -/
noncomputable def strideSums (b : Build) (f g : Nat → Nat → ℂ) (threads : Nat → List (List Nat))
    (strides : List Nat) : ℂ :=
  strides.foldl (fun cglob s =>
    (threads s).foldl (fun cg own => cAdd cg (threadSum b (f s) (g s) own 0)) cglob) 0

/-- The same without OpenMP (src/qdlib/WFGridCartesian.cpp:70-102): `c` keeps its value from stride to
stride and is copied to `cglob`. -/
noncomputable def serialSums (b : Build) (f g : Nat → Nat → ℂ) (size : Nat) (strides : List Nat) : ℂ :=
  (strides.foldl (fun (x : ℂ × ℂ) s =>
    let c := threadSum b (f s) (g s) (List.range size) x.1
    (c, c)) (0, 0)).2

/-- The strides of a process (src/qdlib/WFGridCartesian.cpp:70). -/
def ownStrides (rank msize strides : Nat) : List Nat :=
  (List.range strides).filter fun s => s % msize = rank

/-- How the loop over the elements is executed: by one thread, or with the elements of each stride
distributed over threads (src/qdlib/WFGridCartesian.cpp:75-79, 85-89). -/
inductive Threads where
  | none
  | omp (own : Nat → List (List Nat))

/-- Models the scalar product (src/qdlib/WFGridCartesian.cpp:62-119) in the process `rank` of `msize`;
`dims` are the spacing and the length of each dimension. -/
noncomputable def gridProduct (b : Build) (f g : Nat → Nat → ℂ) (t : Threads) (rank msize strides size : Nat)
    (kspace : Bool) (dims : List (ℝ × ℝ)) : ℂ :=
  let own := ownStrides rank msize strides
  let c := match t with
    | .none => serialSums b f g size own
    | .omp o => strideSums b f g o own
  if kspace then dims.foldl (fun c x => cMulD c (2 * Real.pi / x.2)) c
  else dims.foldl (fun c x => cMulD c x.1) c

/-! ### Flux -/

/-- Models `OFlux::MatrixElement` (src/qdlib/OFlux.cpp:48-64) with the two operators `T` and `G`; the
imaginary part is taken by the codelet (src/qdlib/WaveFunction.h:290-293, src/math/codelets/Im.h). -/
noncomputable def fluxElement {s : Space} (b : Build) (T G : s.Wf → s.Wf) (bra ket : s.Wf) : ℂ :=
  let b2 : s.Wf := fun p => cMulD (cMul (cConj (T ket p)) (bra p)) 1
  let b3 : s.Wf := fun p => (CX.im (.vec .A)).eval b ⟨fun _ => b2 p, fun _ => 0, 0, 0⟩
  wfMul s (fun _ => -2) (G b3)

end QDng.Simd
