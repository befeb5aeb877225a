import Verif.Common.Outcome
import Mathlib.Data.Matrix.Mul
import Mathlib.Data.Complex.Basic
import Mathlib.Analysis.SpecialFunctions.Exp
import Mathlib.LinearAlgebra.Matrix.Notation

/-
Model of the matrix operator (src/qdlib/OHermitianMatrix.cpp), of its transformation
(src/qdlib/TransformMat.cpp) and of the energy bounds of the matrix dipole operator
(src/qdlib/OMatDipole.cpp).

Numbers are exact.  The size of an operator is fixed.  LAPACK is a pair of functions with the contract
`Lapack.Ok`.  The serialisation of the matrix is the subject of C13.
-/

namespace QDng.HMat

open QDng.Common

/-- The matrices (src/math/Matrix.h:21-69). -/
abbrev RMat (n : Nat) := Matrix (Fin n) (Fin n) ℝ

/-- `LAPACK::FullDiagHermitian` for real matrices (src/linalg/LapackDiag.cpp:22-47): eigenvalues and
the matrix which is overwritten with the eigenvectors. -/
structure Lapack (n : Nat) where
  vals : RMat n → Fin n → ℝ
  vecs : RMat n → RMat n

/-- The matrix LAPACK takes from the upper triangle (src/linalg/LapackDiag.cpp:36-42). -/
def upper {n : Nat} (M : RMat n) : RMat n := fun r c => if r ≤ c then M r c else M c r

/-- The contract of `DSYEV` (src/linalg/LapackDiag.cpp:41-42): orthonormal eigenvectors in the columns and
ascending eigenvalues of the matrix given by the upper triangle. -/
structure Lapack.Ok {n : Nat} (L : Lapack n) : Prop where
  ortho : ∀ M, (L.vecs M).transpose * L.vecs M = 1
  eigen : ∀ M, upper M * L.vecs M = L.vecs M * Matrix.diagonal (L.vals M)
  sorted : ∀ M i j, i ≤ j → L.vals M i ≤ L.vals M j

/-- Models `OHermitianMatrix` (src/qdlib/OHermitianMatrix.h:28-41): the matrix, the eigenvectors `_X`,
whether the transformation `_XT` has been given `_X`, the eigenvalues `_dspace` and `_valid`. -/
structure Op (n : Nat) where
  mat : RMat n
  x : Option (RMat n)
  linked : Bool
  ds : Option (Fin n → ℝ)
  valid : Bool

/-- Models the constructor (src/qdlib/OHermitianMatrix.cpp:21-22); the content of the matrix is not set. -/
def Op.new {n : Nat} (garbage : RMat n) : Op n := ⟨garbage, none, false, none, false⟩

/-- Models `InitDspace` and `Diag` (src/qdlib/OHermitianMatrix.cpp:233-236, 262-277). -/
def Op.initDspace {n : Nat} (L : Lapack n) (o : Op n) : Op n :=
  { mat := o.mat
    x := some (L.vecs o.mat)
    linked := if o.x.isNone then true else o.linked
    ds := some (L.vals o.mat)
    valid := true }

/-- Models the eigenvalue a bound returns (src/qdlib/OHermitianMatrix.cpp:143-145, 151-152). -/
def Op.bound {n : Nat} (L : Lapack n) (o : Op n) (i : Option (Fin n)) : Ans (ℝ × Op n) :=
  let o' := if o.valid then o else o.initDspace L
  match o'.ds, i with
  | some d, some i => .val (d i, o')
  | _, _ => .ub

/-- The index of the first element (src/qdlib/OHermitianMatrix.cpp:152), none for an empty vector. -/
def firstIx (n : Nat) : Option (Fin n) := if h : 0 < n then some ⟨0, h⟩ else none

/-- The index of the last element (src/qdlib/OHermitianMatrix.cpp:145), none for an empty vector. -/
def lastIx (n : Nat) : Option (Fin n) := if h : 0 < n then some ⟨n - 1, Nat.sub_lt h Nat.one_pos⟩ else none

/-- Models `Emin` (src/qdlib/OHermitianMatrix.cpp:149-153). -/
def Op.emin {n : Nat} (L : Lapack n) (o : Op n) : Ans (ℝ × Op n) := o.bound L (firstIx n)

/-- Models `Emax` (src/qdlib/OHermitianMatrix.cpp:141-146). -/
def Op.emax {n : Nat} (L : Lapack n) (o : Op n) : Ans (ℝ × Op n) := o.bound L (lastIx n)

/-- Models `Init` with a file (src/qdlib/OHermitianMatrix.cpp:48-71); `file` is the matrix in the file. -/
def Op.load {n : Nat} (L : Lapack n) (file : RMat n) (setzero : Bool) (o : Op n) : Ans (Op n) :=
  let o1 : Op n := { o with mat := file, valid := false }
  if setzero then
    match o1.emin L with
    | .val (m, o2) =>
      .val { o2 with mat := fun i j => if i = j then o2.mat i j - m else o2.mat i j, valid := false }
    | .threw => .threw
    | .ub => .ub
  else .val { o1 with valid := false }

/-- Models `Init` without a file (src/qdlib/OHermitianMatrix.cpp:73-94); the contents of the new matrices
are not set. -/
def Op.initSize {n : Nat} (L : Lapack n) (g1 g2 : RMat n) (qdiag : Bool) (o : Op n) : Out (Op n) :=
  if n = 0 then .threw o
  else
    let o1 : Op n := { o with mat := g1, valid := false }
    if qdiag then
      .ok ((if o1.x.isNone then { o1 with x := some g2 } else o1).initDspace L)
    else .ok o1

/-- Models the product of a matrix and a vector (src/math/Matrix.h:305-342). -/
noncomputable def matVec {n : Nat} (M : RMat n) (transpose : Bool) (ψ : Fin n → ℂ) : Fin n → ℂ := fun i =>
  (List.finRange n).foldl (fun b j => b + ((if transpose then M j i else M i j : ℝ) : ℂ) * ψ j) 0

/-- Models both forms of `Apply` (src/qdlib/OHermitianMatrix.cpp:160-180); the form in place works on a
copy. -/
noncomputable def Op.apply {n : Nat} (o : Op n) (ψ : Fin n → ℂ) : Fin n → ℂ := matVec o.mat false ψ

/-- Models `InitExponential` (src/qdlib/ODSpace.h:65-69, src/math/codelets/ExpElementsCDc.h:30). -/
noncomputable def Op.expo {n : Nat} (L : Lapack n) (o : Op n) (c : ℂ) : Ans ((Fin n → ℂ) × Op n) :=
  let o' := if o.ds.isNone then o.initDspace L else o
  match o'.ds with
  | some d => .val (fun i => Complex.exp ((d i : ℂ) * c), o')
  | none => .ub

/-- Models `Forward` (`transpose`) and `Backward` of the transformation (src/qdlib/TransformMat.cpp:19-30):
without a matrix a null pointer is used. -/
noncomputable def Op.transform {n : Nat} (o : Op n) (transpose : Bool) (ψ : Fin n → ℂ) : Ans (Fin n → ℂ) :=
  match o.linked, o.x with
  | true, some X => .val (matVec X transpose ψ)
  | _, _ => .ub

/-- Models the part a matrix operator has in a step of the split operator propagator
(src/qdlib/OGSPO.cpp:37-41, 131-137); the normalization is one (src/qdlib/TransformMat.h:29). -/
noncomputable def Op.part {n : Nat} (L : Lapack n) (o : Op n) (c : ℂ) (ψ : Fin n → ℂ) :
    Ans ((Fin n → ℂ) × Op n) :=
  match o.expo L c with
  | .val (e, o') =>
    match o'.transform true ψ with
    | .val φ =>
      match o'.transform false (fun i => φ i * e i) with
      | .val χ => .val (χ, o')
      | .threw => .threw
      | .ub => .ub
    | .threw => .threw
    | .ub => .ub
  | .threw => .threw
  | .ub => .ub

/-- `*p = *q` for two pointers (src/qdlib/OHermitianMatrix.cpp:194-198): nothing if `p` is null, a null
pointer is read if only `q` is. -/
def assign {A : Type} : Option A → Option A → Option (Option A)
  | none, _ => some none
  | some _, some b => some (some b)
  | some _, none => none

/-- Models `Copy` (src/qdlib/OHermitianMatrix.cpp:185-205): the operator and the source after the call. -/
def Op.copy {n : Nat} (o op : Op n) : Ans (Op n × Op n) :=
  match assign o.x op.x, assign o.ds op.ds with
  | some x, some d =>
    .val ({ o with mat := op.mat, x := x, ds := d, valid := op.valid }, { op with linked := op.x.isSome })
  | _, _ => .ub

/-- The uses of an operator. -/
inductive Use (n : Nat) where
  | emin
  | emax
  | apply (ψ : Fin n → ℂ)
  | part (c : ℂ) (ψ : Fin n → ℂ)

/-- The operator after one use. -/
noncomputable def Op.use {n : Nat} (L : Lapack n) (o : Op n) : Use n → Ans (Op n)
  | .emin => match o.emin L with | .val (_, o') => .val o' | .threw => .threw | .ub => .ub
  | .emax => match o.emax L with | .val (_, o') => .val o' | .threw => .threw | .ub => .ub
  | .apply _ => .val o
  | .part c ψ => match o.part L c ψ with | .val (_, o') => .val o' | .threw => .threw | .ub => .ub

/-- The operator after a history of uses. -/
noncomputable def Op.uses {n : Nat} (L : Lapack n) (o : Op n) : List (Use n) → Ans (Op n)
  | [] => .val o
  | u :: l => match o.use L u with | .val o' => o'.uses L l | .threw => .threw | .ub => .ub

/-! ### Matrix dipole operator -/

/-- The smallest element, `VecMin` (src/math/math_functions.cpp:10-18). -/
noncomputable def vecMin : ℝ → List ℝ → ℝ
  | d, [] => d
  | d, x :: l => vecMin (open Classical in if x < d then x else d) l

/-- The largest element, `VecMax` (src/math/math_functions.cpp:23-31). -/
noncomputable def vecMax : ℝ → List ℝ → ℝ
  | d, [] => d
  | d, x :: l => vecMax (open Classical in if x > d then x else d) l

/-- Models `OMatDipole::Emax` (src/qdlib/OMatDipole.cpp:41-44) for the laser field `E0 :: E`. -/
noncomputable def dipoleEmax {n : Nat} (L : Lapack n) (o : Op n) (E0 : ℝ) (E : List ℝ) : Ans ℝ :=
  match o.emax L with | .val (m, _) => .val (m * vecMax E0 E) | .threw => .threw | .ub => .ub

/-- Models `OMatDipole::Emin` (src/qdlib/OMatDipole.cpp:46-49). -/
noncomputable def dipoleEmin {n : Nat} (L : Lapack n) (o : Op n) (E0 : ℝ) (E : List ℝ) : Ans ℝ :=
  match o.emin L with | .val (m, _) => .val (m * vecMin E0 E) | .threw => .threw | .ub => .ub

/-- Models `OMatDipole::Apply` (src/qdlib/OMatDipole.cpp:51-61) at a time with the field `e`. -/
noncomputable def dipoleApply {n : Nat} (o : Op n) (e : ℝ) (ψ : Fin n → ℂ) : Fin n → ℂ := fun i =>
  o.apply ψ i * ((-1 * e : ℝ) : ℂ)

end QDng.HMat
