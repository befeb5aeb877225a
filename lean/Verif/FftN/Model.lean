import Verif.Lossy.Model

/-
Model of how the code calls the library FFTW for a transform over the whole grid and along one
dimension (src/fft/fft.cpp:18-46, 82-122, 161-225, 250-287, src/qdlib/TransformFFT.cpp:25-63).  The
vectors are linear arrays here.  The library itself is a parameter: what its documentation says about
the arguments it is given.
-/

namespace QDng.FftN

open QDng.Deriv QDng.Lossy

/-! ### What the library does, according to its documentation -/

/-- The place of an element in an array in row-major format: the last index runs fastest (argument
`n` of `fftw_plan_dft`, called in src/fft/fft.cpp:98-118). -/
def rowPlace (ns x : List Nat) : Nat := (ns.zip x).foldl (fun a p => a * p.1 + p.2) 0

/-- The sum over all indices of an array of the dimensions `ns`. -/
def sumIdx : List Nat → (List Nat → ℂ) → ℂ
  | [], f => f []
  | n :: ns, f => ∑ x ∈ Finset.range n, sumIdx ns (fun xs => f (x :: xs))

/-- The product of the factors of the transform over the dimensions. -/
noncomputable def kernel (sgn : ℝ) : List Nat → List Nat → List Nat → ℂ
  | n :: ns, q :: qs, x :: xs => root sgn n q x * kernel sgn ns qs xs
  | _, _, _ => 1

/-- An index of an array of the dimensions `ns`. -/
def IsIdx (ns x : List Nat) : Prop := List.Forall₂ (fun a n => a < n) x ns

/-- The result of a plan of `fftw_plan_dft` (called in src/fft/fft.cpp:98-118). -/
def PlanDft (sgn : ℝ) (ns : List Nat) (inp out : Nat → ℂ) : Prop :=
  ∀ q, IsIdx ns q → out (rowPlace ns q) = sumIdx ns (fun x => inp (rowPlace ns x) * kernel sgn ns q x)

/-- An entry of the arguments of `fftw_plan_guru_dft`: the number of elements, the strides of input and
output (`fftw_iodim`, src/fft/fft.cpp:168-183). -/
structure IoDim where
  n : Nat
  is : Nat
  os : Nat
  deriving DecidableEq, Repr

/-- The result of a plan of `fftw_plan_guru_dft` of one transformed dimension and a list of loops
(called in src/fft/fft.cpp:186-218). -/
def PlanGuru (sgn : ℝ) (d : IoDim) (loops : List IoDim) (inp out : Nat → ℂ) : Prop :=
  ∀ k < d.n, ∀ l, IsIdx (loops.map IoDim.n) l →
    out (k * d.os + (List.zipWith (fun a (L : IoDim) => a * L.os) l loops).sum) =
      ∑ j ∈ Finset.range d.n,
        inp (j * d.is + (List.zipWith (fun a (L : IoDim) => a * L.is) l loops).sum) * root sgn d.n k j

/-! ### The arguments the code passes -/

/-- Models `FFT::_lothers` (src/fft/fft.cpp:20-29). -/
def lothers (dims : List Nat) (dim : Nat) : Nat :=
  if dim > 0 then (List.range dim).foldl (fun l i => l * dims.getD i 0) 1 else 1

/-- Models `FFT::_uothers` (src/fft/fft.cpp:34-37). -/
def uothers (dims : List Nat) (cdim : Nat) : Nat := lothers dims (dims.length - cdim - 1)

/-- Models the array `_rdims` (src/fft/fft.cpp:91-95): element `i` is the size of the dimension
`Dim - i - 1`. -/
def rdims (dims : List Nat) : List Nat :=
  (List.range dims.length).map fun i => dims.getD (dims.length - i - 1) 0

/-- Models the description of the transformed dimension in `FFT::_CreatePlanDim`
(src/fft/fft.cpp:165-171). -/
def dataDim (dims : List Nat) (dim : Nat) : IoDim :=
  { n := (rdims dims).getD (dims.length - dim - 1) 0, is := lothers dims dim, os := lothers dims dim }

/-- Models the loops over the other dimensions in `FFT::_CreatePlanDim` (src/fft/fft.cpp:174-183). -/
def loopDims (dims : List Nat) (dim : Nat) : List IoDim :=
  ((List.range dims.length).filter fun i => decide (i ≠ dims.length - dim - 1)).map fun i =>
    { n := (rdims dims).getD i 0, is := uothers dims i, os := uothers dims i }

/-- The forward transform over the whole grid does what the library documents for the arguments of
src/fft/fft.cpp:98-108, 250-256. -/
def ForwardAll (dims : List Nat) (inp out : Nat → ℂ) : Prop := PlanDft (-1) (rdims dims) inp out

/-- The backward transform over the whole grid (src/fft/fft.cpp:112-120, 273-279). -/
def BackwardAll (dims : List Nat) (inp out : Nat → ℂ) : Prop := PlanDft 1 (rdims dims) inp out

/-- The forward transform along a dimension (src/fft/fft.cpp:186-201, 250-256). -/
def ForwardDim (dims : List Nat) (dim : Nat) (inp out : Nat → ℂ) : Prop :=
  PlanGuru (-1) (dataDim dims dim) (loopDims dims dim) inp out

/-- The backward transform along a dimension (src/fft/fft.cpp:207-220, 273-279). -/
def BackwardDim (dims : List Nat) (dim : Nat) (inp out : Nat → ℂ) : Prop :=
  PlanGuru 1 (dataDim dims dim) (loopDims dims dim) inp out

/-! ### The first transform along a dimension -/

/-- A wave function with its transform: the two arrays and the representation as in `Lossy.Obj`, the
representation when the transform was created, which decides to which of the two vectors `_in` refers,
and the dimensions that have a plan (src/fft/fft.cpp:82-86, src/qdlib/WFGridSystem.cpp:39-45). -/
structure TObj (s : Space) where
  x : s.Wf
  k : s.Wf
  isK : Bool
  madeK : Bool
  plans : Fin s.d → Bool

/-- The content of the vector. -/
def TObj.val {s : Space} (o : TObj s) : s.Wf := if o.isK then o.k else o.x

/-- Models `FFT::_CreatePlanDim` (src/fft/fft.cpp:161-225): `*_in` is saved, the other vector is not.
`*_in` is the coordinate array if the representation is the one at creation, since the vectors are
swapped with the representation (src/qdlib/WaveFunction.h:118-128).  The forward and the backward plan
are searched for after each other; `junk` is what the search leaves. -/
def TObj.createPlan {s : Space} (lib : Lib s) (i : Fin s.d) (o : TObj s) : TObj s :=
  let inIsX : Bool := o.madeK == o.isK
  let step (knows : Bool) (junk : s.Wf) (o : TObj s) : TObj s :=
    if inIsX then { o with k := searched lib.flag knows junk o.k }
    else { o with x := searched lib.flag knows junk o.x }
  let o := step lib.knowsForward lib.junkForward o
  let o := step lib.knowsBackward lib.junkBackward o
  { o with plans := Function.update o.plans i true }

/-- Models `TransformFFT::Forward(Psi, dim)` (src/qdlib/TransformFFT.cpp:51-56) with `FFT::forward`
(src/fft/fft.cpp:250-256). -/
noncomputable def TObj.forward {s : Space} (lib : Lib s) (i : Fin s.d) (o : TObj s) : TObj s :=
  let o := if o.plans i then o else o.createPlan lib i
  { o with k := forwardDim s i o.x, isK := true }

/-- Models `TransformFFT::Backward(Psi, dim)` (src/qdlib/TransformFFT.cpp:58-63) with `FFT::backward`
(src/fft/fft.cpp:273-279). -/
noncomputable def TObj.backward {s : Space} (lib : Lib s) (i : Fin s.d) (o : TObj s) : TObj s :=
  let o := if o.plans i then o else o.createPlan lib i
  { o with x := backwardDim s i o.k, isK := false }

/-- A wave function whose transform was created for its first transform
(src/qdlib/WFGridSystem.cpp:43-44). -/
def TObj.fresh {s : Space} (ψ : s.Wf) (junk : s.Wf) : TObj s :=
  { x := ψ, k := junk, isK := false, madeK := false, plans := fun _ => false }

/-- A wave function after `Restore` into a new object (src/qdlib/WFGridSystem.cpp:124-137): the
transform was created in the momentum representation. -/
def TObj.afterRestore {s : Space} (ψ : s.Wf) (k : s.Wf) : TObj s :=
  { x := ψ, k := k, isK := false, madeK := true, plans := fun _ => false }

end QDng.FftN
