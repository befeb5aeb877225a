import Verif.Grid.Model
import Mathlib.Analysis.SpecialFunctions.Complex.Circle
import Mathlib.Analysis.SpecialFunctions.Trigonometric.Basic
import Mathlib.Data.List.FinRange

/-
Model of the derivative operators on a grid: the squared and the plain Nabla operator, the
difference operator they share, the kinetic energy with a G-matrix and the non adiabatic coupling
(src/qdlib/OGridNablaSq.cpp, OGridNabla.cpp, Diff.cpp, OGridGMat.cpp, OGridNAC.cpp), with the Fourier
method.  Double precision numbers are modelled as real numbers.  A vector over the grid is modelled
as a function of the grid point; the place of a point in the linear array is the subject of the
properties C19 and C20, and of C64 for the momentum grids.

The Fourier transform is the library FFTW: it is modelled by its documented result, the unnormalised
discrete Fourier transform with negative (forward) and positive (backward) exponent
(src/fft/fft.cpp:60-66, 92-118, 185-218, 250-290).
-/

namespace QDng.Deriv

open QDng.Grid

/-- A grid: the number of dimensions and the axis of each (src/qdlib/GridSystem.h:36-110). -/
structure Space where
  d : Nat
  axes : Fin d → Axis ℝ

/-- A point of the grid, by its index along each dimension. -/
abbrev Space.Pt (s : Space) := (i : Fin s.d) → Fin (s.axes i).n

/-- A wave function on the grid (src/qdlib/WFGridSystem.h:26-40). -/
abbrev Space.Wf (s : Space) := s.Pt → ℂ

/-- Models `GridSystem::Size` (src/qdlib/GridSystem.cpp:149-158). -/
def Space.size (s : Space) : Nat := ∏ i, (s.axes i).n

/-! ### The Fourier transform (FFTW) -/

/-- The factor `exp(± 2 pi i a b / n)` of the discrete Fourier transform of FFTW
(called in src/fft/fft.cpp:253-262). -/
noncomputable def root (sgn : ℝ) (n a b : Nat) : ℂ :=
  Complex.exp (((sgn * (2 * Real.pi * (a * b) / n) : ℝ) : ℂ) * Complex.I)

/-- Models `TransformFFT::Forward(Psi)` (src/qdlib/TransformFFT.cpp:25-34). -/
noncomputable def forward (s : Space) (ψ : s.Wf) : s.Wf := fun q =>
  ∑ x : s.Pt, ψ x * ∏ i, root (-1) (s.axes i).n (q i) (x i)

/-- Models `TransformFFT::Backward(Psi)` (src/qdlib/TransformFFT.cpp:40-49). -/
noncomputable def backward (s : Space) (ψ : s.Wf) : s.Wf := fun x =>
  ∑ q : s.Pt, ψ q * ∏ i, root 1 (s.axes i).n (q i) (x i)

/-- Models `TransformFFT::Forward(Psi, dim)` (src/qdlib/TransformFFT.cpp:51-56). -/
noncomputable def forwardDim (s : Space) (i : Fin s.d) (ψ : s.Wf) : s.Wf := fun p =>
  ∑ x : Fin (s.axes i).n, ψ (Function.update p i x) * root (-1) (s.axes i).n (p i) x

/-- Models `TransformFFT::Backward(Psi, dim)` (src/qdlib/TransformFFT.cpp:58-63). -/
noncomputable def backwardDim (s : Space) (i : Fin s.d) (ψ : s.Wf) : s.Wf := fun p =>
  ∑ q : Fin (s.axes i).n, ψ (Function.update p i q) * root 1 (s.axes i).n q (p i)

/-! ### Momentum grids -/

/-- Element `j` of a vector built by `Kspace` (src/qdlib/Kspace.cpp:22-88).  The default is never
used, all elements are set (C22). -/
noncomputable def entry (r : Option (List (Option ℝ))) (j : Nat) : ℝ :=
  match r with
  | some k => (k[j]?.join).getD 0
  | none => 0

/-- The momentum grid of the first derivative along dimension `i`
(src/qdlib/Kspace.cpp:64-88, called in src/qdlib/OGridNabla.cpp:176 and src/qdlib/Diff.cpp:79). -/
noncomputable def ddx (s : Space) (i : Fin s.d) (factor : ℝ) (j : Nat) : ℝ :=
  entry (init1Dddx Real.pi (s.axes i) factor) j

/-- The momentum grid of the second derivative along dimension `i`
(src/qdlib/Kspace.cpp:22-50, called in src/qdlib/Diff.cpp:132). -/
noncomputable def d2dx2 (s : Space) (i : Fin s.d) (factor : ℝ) (j : Nat) : ℝ :=
  entry (init1Dd2dx2 Real.pi (s.axes i) factor) j

/-- Models the sum over the dimensions in `Diff::_InitKspace` (src/qdlib/Diff.cpp:120-139), as a
function of the grid point. -/
noncomputable def collective (s : Space) (pfac : Fin s.d → ℝ) : s.Pt → ℝ := fun p =>
  ∑ i, d2dx2 s i (pfac i) (p i)

/-- Models `Diff::DnDxn(out, in, d)` with the Fourier method (src/qdlib/Diff.cpp:203-212). -/
noncomputable def dnDxnAll (s : Space) (kspace : s.Pt → ℝ) (ψ : s.Wf) (d : ℝ) : s.Wf :=
  let ket := forward s ψ
  backward s (fun p => ket p * (kspace p : ℂ) * ((d / (s.size : ℝ) : ℝ) : ℂ))

/-- Models `Diff::DnDxn(out, in, dim, d)` with the Fourier method for first derivatives
(src/qdlib/Diff.cpp:223-236), which multiplies with `I` times the momentum grid. -/
noncomputable def dnDxn (s : Space) (i : Fin s.d) (ψ : s.Wf) (d : ℝ) : s.Wf :=
  let ket := forwardDim s i ψ
  backwardDim s i (fun p =>
    ket p * ((ddx s i 1 (p i) : ℂ) * Complex.I) * ((d / ((s.axes i).n : ℝ) : ℝ) : ℂ))

/-- Models `Diff::DnDxnAdd` with the Fourier method for first derivatives
(src/qdlib/Diff.cpp:250-262); the destroyed input is a buffer. -/
noncomputable def dnDxnAdd (s : Space) (i : Fin s.d) (out ψ : s.Wf) (d : ℝ) : s.Wf :=
  let ket := forwardDim s i ψ
  out + backwardDim s i (fun p =>
    ket p * Complex.I * (ddx s i 1 (p i) : ℂ) * ((d / ((s.axes i).n : ℝ) : ℝ) : ℂ))

/-! ### The kinetic energy in Cartesian coordinates -/

/-- The errors of the operators (exceptions). -/
inductive Err where
  | noDim
  | zeroMass
  | empty
  | dims
  deriving DecidableEq, Repr

/-- Models `OGridNablaSq::Init(params)` (src/qdlib/OGridNablaSq.cpp:28-58): the masses are checked
and turned into prefactors. -/
noncomputable def initMass {d : Nat} (mass : Fin d → ℝ) : Except Err (Fin d → ℝ) :=
  if d < 1 then .error .noDim
  else if ∃ i, mass i = 0 then .error .zeroMass
  else if ¬ ∃ i, mass i > 0 then .error .empty
  else .ok (fun i => -1 / 2 / mass i)

/-- The state of a kinetic energy operator: the masses, the prefactors and the momentum grid of the
difference operator (`none`: the empty vector) and the pointer `_dspace`
(src/qdlib/OGridNablaSq.h:26-36, src/qdlib/Diff.h:44-58). -/
structure KinOp (s : Space) where
  mass : Fin s.d → ℝ
  pfac : Fin s.d → ℝ
  kspace : Option (s.Pt → ℝ)
  dspace : Option (s.Pt → ℝ)

/-- An operator after `Init(params)`, before it has seen a wave function
(src/qdlib/OGridNablaSq.cpp:14-22, 28-58). -/
noncomputable def KinOp.create (s : Space) (mass : Fin s.d → ℝ) : Except Err (KinOp s) :=
  match initMass mass with
  | .error e => .error e
  | .ok f => .ok { mass := mass, pfac := f, kspace := none, dspace := none }

/-- Models `OGridNablaSq::Init(Psi)` for a wave function on the grid
(src/qdlib/OGridNablaSq.cpp:60-83, 156-164): it does nothing if `_dspace` is set already. -/
noncomputable def KinOp.init {s : Space} (o : KinOp s) : KinOp s :=
  match o.dspace with
  | some _ => o
  | none =>
    let k := collective s o.pfac
    { o with kspace := some k, dspace := some k }

/-- Models `OGridNablaSq::Apply` (src/qdlib/OGridNablaSq.cpp:108-111); `none` if the vector that is
read is empty. -/
noncomputable def KinOp.apply {s : Space} (o : KinOp s) (ψ : s.Wf) : Option s.Wf :=
  match o.kspace with
  | some k => some (dnDxnAll s k ψ 1)
  | none => none

/-- Models `OGridNablaSq::Copy` into a new operator (src/qdlib/OGridNablaSq.cpp:119-140 and 14-22):
the masses and the diagonal representation are copied, the data of the difference operator are
not. -/
noncomputable def KinOp.copy {s : Space} (o : KinOp s) : KinOp s :=
  { mass := o.mass, pfac := fun _ => 1, kspace := none, dspace := o.dspace }

/-- Models `OGridNablaSq::Emax` (src/qdlib/OGridNablaSq.cpp:89-101). -/
noncomputable def KinOp.emax {s : Space} (o : KinOp s) : ℝ :=
  (∑ i, if o.mass i > 0 then 1 / (o.mass i * (s.axes i).dx * (s.axes i).dx) else 0) *
    (Real.pi * Real.pi / 2)

/-- Models `OGridNablaSq::Emin` (src/qdlib/OGridNablaSq.cpp:103-106). -/
noncomputable def KinOp.emin {s : Space} (_ : KinOp s) : ℝ := 0

/-- Models `OGridNablaSq::InitExponential` followed by the normalisation and use of the exponential
in the split operator (src/qdlib/OGridNablaSq.cpp:166-170, src/qdlib/OGSPO.cpp:37-41, 120-126). -/
noncomputable def KinOp.expo {s : Space} (o : KinOp s) (c : ℂ) (ψ : s.Wf) : Option s.Wf :=
  match o.init.dspace with
  | none => none
  | some k =>
    some (backward s (fun p => forward s ψ p *
      (Complex.exp ((k p : ℂ) * c) * ((1 / (s.size : ℝ) : ℝ) : ℂ))))

/-! ### The Nabla and the momentum operator -/

/-- The parameters of the Nabla operator (src/qdlib/OGridNabla.h:34-40, OGridNabla.cpp:39-52);
`dim` is `none` if the operator acts on all dimensions. -/
structure Nabla (s : Space) where
  fac : ℝ
  momentum : Bool
  dim : Option (Fin s.d)
  conj : Bool

/-- Models `OGridNabla::_InitDspaceReal` (src/qdlib/OGridNabla.cpp:172-205), as a function of the
grid point. -/
noncomputable def Nabla.kspace {s : Space} (o : Nabla s) : s.Pt → ℝ :=
  match o.dim with
  | none => fun p => ∑ i, ddx s i 1 (p i)
  | some i => fun p => ddx s i 1 (p i)

/-- Models `OGridNabla::Apply(destPsi, sourcePsi)` (src/qdlib/OGridNabla.cpp:76-95) with the momentum
grid `k`. -/
noncomputable def Nabla.applyTo {s : Space} (o : Nabla s) (k : s.Pt → ℝ) (ψ : s.Wf) : s.Wf :=
  let sgn : ℝ := if o.conj then -1 else 1
  let ket := forward s ψ
  let f : ℝ := sgn * o.fac / (s.size : ℝ)
  backward s (if o.momentum then fun p => ket p * (k p : ℂ) * (f : ℂ)
    else fun p => ket p * ((k p : ℂ) * Complex.I) * (f : ℂ))

/-- Models `OGridNabla::Apply(Psi)` (src/qdlib/OGridNabla.cpp:98-114) with the momentum grid `k`. -/
noncomputable def Nabla.applyIn {s : Space} (o : Nabla s) (k : s.Pt → ℝ) (ψ : s.Wf) : s.Wf :=
  let sgn : ℝ := if o.conj then -1 else 1
  let ψ1 := forward s ψ
  let f : ℝ := sgn * o.fac / (s.size : ℝ)
  backward s (if o.momentum then fun p => ψ1 p * (k p : ℂ) * (f : ℂ)
    else fun p => ψ1 p * Complex.I * (k p : ℂ) * (f : ℂ))

/-- The operator applied after `Init` with its own momentum grid
(src/qdlib/OGridNabla.cpp:54-68, 76-95). -/
noncomputable def Nabla.apply {s : Space} (o : Nabla s) (ψ : s.Wf) : s.Wf := o.applyTo o.kspace ψ

/-- Models `OGridNabla::Copy` into a new operator (src/qdlib/OGridNabla.cpp:122-141): the dimension
is not copied, the sign is the one of a new operator.  The momentum grid is copied as well, see
`Nabla.applyCopy`. -/
def Nabla.copy {s : Space} (o : Nabla s) : Nabla s :=
  { fac := o.fac, momentum := o.momentum, dim := none, conj := false }

/-- A copy applied right away, with the copied momentum grid
(src/qdlib/OGridNabla.cpp:122-141, 76-95). -/
noncomputable def Nabla.applyCopy {s : Space} (o : Nabla s) (ψ : s.Wf) : s.Wf :=
  o.copy.applyTo o.kspace ψ

/-- A copy which is initialised with a wave function before it is applied: the momentum grid is set
up again, for the dimension of the copy (src/qdlib/OGridNabla.cpp:54-68, 76-95, 122-141). -/
noncomputable def Nabla.applyCopyInit {s : Space} (o : Nabla s) (ψ : s.Wf) : s.Wf := o.copy.apply ψ

/-- Models `OGridNabla::Emax` (src/qdlib/OGridNabla.cpp:71-74) on a grid of one dimension, where
element `Size() / 2` of the vector is the point with this index. -/
noncomputable def nablaEmax (s : Space) (i : Fin s.d) : ℝ := ddx s i 1 ((s.axes i).n / 2)

/-- Models `OGridNabla::InitDspace` (src/qdlib/OGridNabla.cpp:155-167): only the imaginary part of
the new vector is set, the real part is what is found in memory (`junk`). -/
noncomputable def Nabla.dspace {s : Space} (o : Nabla s) (junk : s.Pt → ℝ) : s.Wf :=
  fun p => ⟨junk p, -o.kspace p⟩

/-- Models `OGridNabla::InitExponential` (src/qdlib/OGridNabla.cpp:207-213), applied in momentum
space. -/
noncomputable def Nabla.expo {s : Space} (o : Nabla s) (junk : s.Pt → ℝ) (c : ℂ) (ψ : s.Wf) : s.Wf :=
  backward s (fun p => forward s ψ p *
    (Complex.exp (o.dspace junk p * (c * (o.fac : ℂ))) * ((1 / (s.size : ℝ) : ℝ) : ℂ)))

/-! ### The kinetic energy with a G-matrix -/

/-- The source of an element of the G-matrix: not used, a constant or a function on the grid
(src/qdlib/OGridGMat.h:40-60, src/qdlib/OGridGMat.cpp:208-218). -/
inductive Elem (s : Space) where
  | none
  | const (g : ℝ)
  | grid (g : s.Pt → ℝ)

/-- A G-matrix operator: the lower triangle of the matrix and the kinetic coupling
(src/qdlib/OGridGMat.cpp:142-244). -/
structure GMat (s : Space) where
  low : Fin s.d → Fin s.d → Elem s
  coup : Bool

/-- The element `(i, j)`: the upper triangle mirrors the lower one
(src/qdlib/OGridGMat.cpp:194, 205, 236). -/
def GMat.elem {s : Space} (o : GMat s) (i j : Fin s.d) : Elem s :=
  if j ≤ i then o.low i j else o.low j i

/-- Models the body of the inner loop of `OGridGMat::ApplyAdd` without chain rule and absorbing
layer (src/qdlib/OGridGMat.cpp:332-375); `wfbuf` is the derivative along dimension `i`. -/
noncomputable def GMat.term {s : Space} (o : GMat s) (i : Fin s.d) (wfbuf : s.Wf) (dest : s.Wf)
    (j : Fin s.d) : s.Wf :=
  if i = j ∨ o.coup = true then
    match o.elem i j with
    | .none => dest
    | .const g => dnDxnAdd s j dest wfbuf (-0.5 * g)
    | .grid g => dnDxnAdd s j dest (fun p => wfbuf p * (g p : ℂ)) (-0.5)
  else dest

/-- Models the body of the outer loop of `OGridGMat::ApplyAdd`
(src/qdlib/OGridGMat.cpp:325-376). -/
noncomputable def GMat.row {s : Space} (o : GMat s) (ψ dest : s.Wf) (i : Fin s.d) : s.Wf :=
  (List.finRange s.d).foldl (o.term i (dnDxn s i ψ 1)) dest

/-- Models `OGridGMat::ApplyAdd` (src/qdlib/OGridGMat.cpp:313-385). -/
noncomputable def GMat.applyAdd {s : Space} (o : GMat s) (dest ψ : s.Wf) : s.Wf :=
  (List.finRange s.d).foldl (o.row ψ) dest

/-- Models `OGridGMat::Apply(destPsi, sourcePsi)` (src/qdlib/OGridGMat.cpp:307-311). -/
noncomputable def GMat.apply {s : Space} (o : GMat s) (ψ : s.Wf) : s.Wf := o.applyAdd 0 ψ

/-- Whether `_Gmat[i][j]` points to a loaded element (src/qdlib/OGridGMat.cpp:166-168, 227-240): off
diagonal elements are only loaded with kinetic coupling. -/
def GMat.loaded {s : Space} (o : GMat s) (i j : Fin s.d) : Prop :=
  (∃ g, o.low i j = .grid g) ∧ (i = j ∨ o.coup = true)

open Classical in
/-- Models the check of the elements in `OGridGMat::Init(Psi)` (src/qdlib/OGridGMat.cpp:67-74) for
elements on the grid of the wave function; `none` if a null pointer is dereferenced. -/
noncomputable def GMat.init {s : Space} (o : GMat s) : Option Unit :=
  if ∃ i j, j ≤ i ∧ (∃ g, o.low i j = .grid g) ∧ ¬ o.loaded i j then none else some ()

/-- Models `VecMax` (src/math/math_functions.cpp:23-31). -/
noncomputable def vecMax {s : Space} (g : s.Pt → ℝ) : ℝ := ⨆ p, g p

/-- Models `VecMin` (src/math/math_functions.cpp:10-18). -/
noncomputable def vecMin {s : Space} (g : s.Pt → ℝ) : ℝ := ⨅ p, g p

/-- Models the contribution of the element `(i, j)` with `j ≤ i` to the sum in `OGridGMat::Emax`
(src/qdlib/OGridGMat.cpp:260-277). -/
noncomputable def GMat.emaxTerm {s : Space} (o : GMat s) (i j : Fin s.d) : ℝ :=
  let h := (s.axes i).dx * (s.axes j).dx
  if i ≠ j ∧ o.coup = true then
    let max := match o.low i j with
      | .none => 0
      | .const g => g
      | .grid g => vecMax g / h
    let min := match o.low i j with
      | .none => 0
      | .const g => g
      | .grid g => vecMin g / h
    if min < 0 ∧ |min| > |max| then 2 * |min| else 2 * max
  else if i = j then
    match o.low i j with
    | .none => 0
    | .const g => g / h
    | .grid g => vecMax g / h
  else 0

/-- Models `OGridGMat::Emax` (src/qdlib/OGridGMat.cpp:250-284). -/
noncomputable def GMat.emax {s : Space} (o : GMat s) : ℝ :=
  (∑ i, ∑ j, if j ≤ i then o.emaxTerm i j else 0) * (Real.pi * Real.pi / 2)

/-- Models `OGridGMat::Emin` (src/qdlib/OGridGMat.cpp:286-305). -/
noncomputable def GMat.emin {s : Space} (o : GMat s) : ℝ :=
  ∑ i, ∑ j, if j < i then
    (if i = j ∨ o.coup = true then
      let min := match o.low i j with
        | .none => 0
        | .const g => g
        | .grid g => vecMin g / ((s.axes i).dx * (s.axes j).dx)
      if min < 0 then min else 0
    else 0) else 0

/-! ### Non adiabatic coupling -/

/-- A non adiabatic coupling operator: the coupling functions, the sign and the mass
(src/qdlib/OGridNAC.h:30-38, src/qdlib/OGridNAC.cpp:27-78). -/
structure Nac (s : Space) where
  f : Fin s.d → s.Pt → ℝ
  sign : ℝ
  mass : ℝ

/-- The derivative used for dimension `i`, with its prefactor (src/qdlib/OGridNAC.cpp:67-69, 137,
147). -/
noncomputable def Nac.nabla {s : Space} (o : Nac s) (i : Fin s.d) : Nabla s :=
  { fac := 0.5 * o.sign / o.mass, momentum := false, dim := some i, conj := false }

/-- Models the body of the loop of `OGridNAC::Apply` (src/qdlib/OGridNAC.cpp:135-152). -/
noncomputable def Nac.step {s : Space} (o : Nac s) (ψ : s.Wf) (dest : s.Wf) (i : Fin s.d) : s.Wf :=
  let n := o.nabla i
  let buf : s.Wf := fun p => n.applyTo n.kspace ψ p * (o.f i p : ℂ)
  let dest1 := if (i : Nat) = 0 then buf else dest + buf
  let buf2 := n.applyIn n.kspace (fun p => ψ p * (o.f i p : ℂ))
  dest1 + buf2

/-- Models `OGridNAC::Apply(destPsi, sourcePsi)` (src/qdlib/OGridNAC.cpp:131-155); `dest` is the
previous content of the destination. -/
noncomputable def Nac.apply {s : Space} (o : Nac s) (dest ψ : s.Wf) : s.Wf :=
  (List.finRange s.d).foldl (o.step ψ) dest

/-- Models `OGridNAC::Emax` (src/qdlib/OGridNAC.cpp:106-116); `i0` is the first dimension. -/
noncomputable def Nac.emax {s : Space} (o : Nac s) (i0 : Fin s.d) : ℝ :=
  (∑ i, vecMax (o.f i)) * (Real.pi / o.mass / (s.axes i0).dx)

/-- Models `OGridNAC::Emin` (src/qdlib/OGridNAC.cpp:119-129): the results of `VecMin` are not
used. -/
noncomputable def Nac.emin {s : Space} (o : Nac s) (i0 : Fin s.d) : ℝ :=
  0 * (Real.pi / o.mass / (s.axes i0).dx)

end QDng.Deriv
