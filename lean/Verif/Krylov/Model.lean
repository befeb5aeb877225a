import Mathlib.Analysis.InnerProductSpace.Basic
import Mathlib.Analysis.SpecialFunctions.Exp
import Mathlib.Analysis.Complex.Exponential
import Mathlib.LinearAlgebra.Matrix.NonsingularInverse

/-
Model of the Krylov space propagators: the short iterative Lanczos propagator
(src/qdlib/OSIL.cpp, OSIL.h) and the Arnoldi propagator (src/qdlib/OArnoldi.cpp, OArnoldi.h).

Simplifications:
* wave functions are vectors of an inner product space over the complex numbers and the Hamiltonian
  is a linear map on it; the scalar product of the code is linear in the second argument, as the
  one of Mathlib;
* numbers are exact; a division by zero (a vector of infinities or of not-a-numbers) is an outcome
  of its own (`none`);
* the arrays `_alpha`, `_beta`, `_Lzb` are functions of the index; the loops stay in the range of
  the arrays;
* warnings printed on the console are left out;
* LAPACK is represented by its contract.
-/

namespace QDng.Krylov

open scoped ComplexOrder

variable {V : Type} [NormedAddCommGroup V] [InnerProductSpace ℂ V]

/-! ### Short iterative Lanczos -/

/-- What `BuildLZB` works on (src/qdlib/OSIL.h:30, 32-35): the Lanczos vectors `_Lzb`, the
coefficients `_alpha` and `_beta`, and `_convorder`. -/
structure Lz (V : Type) where
  q : ℕ → V
  alpha : ℕ → ℝ
  beta : ℕ → ℝ
  conv : ℕ

/-- Models the error estimate of `OSIL::BuildLZB` (src/qdlib/OSIL.cpp:112-116). -/
noncomputable def silErr (dt : ℝ) (beta : ℕ → ℝ) (it : ℕ) : ℝ :=
  |(List.range (it - 3)).foldl (fun e i => e * (beta (i + 1) / ((i : ℝ) + 1))) (dt ^ (it - 2) * beta 0)|

/-- Models the loop of `OSIL::BuildLZB` (src/qdlib/OSIL.cpp:109-151).  The first argument is
`_order - it`; the result contains the value of `it` after the loop. -/
noncomputable def silLoop (H : V →ₗ[ℂ] V) (dt tol : ℝ) : ℕ → ℕ → Lz V → Option (Lz V × ℕ)
  | 0, it, s => some (s, it)
  | k + 1, it, s =>
    let err := silErr dt s.beta it
    let w := H (s.q (it - 1))
    let a := (inner ℂ (s.q (it - 1)) w : ℂ).re
    let w1 := w - (a : ℂ) • s.q (it - 1)
    let w2 := w1 - (s.beta (it - 2) : ℂ) • s.q (it - 2)
    let b := ‖w2‖
    if b = 0 then none
    else
      let s' : Lz V := { q := Function.update s.q it (((1 / b : ℝ) : ℂ) • w2),
                         alpha := Function.update s.alpha (it - 1) a,
                         beta := Function.update s.beta (it - 1) b,
                         conv := s.conv + 1 }
      if err < tol then some (s', it) else silLoop H dt tol k (it + 1) s'

/-- Models the part of `OSIL::BuildLZB` before the loop (src/qdlib/OSIL.cpp:90-108).  `stale` is the
content of the buffer from before the call. -/
noncomputable def silStart (H : V →ₗ[ℂ] V) (stale : ℕ → V) (ψ : V) : Option (Lz V) :=
  let a := (inner ℂ ψ (H ψ) : ℂ).re
  let w := H ψ - (a : ℂ) • ψ
  let b := ‖w‖
  if b = 0 then none
  else some { q := Function.update (Function.update stale 0 ψ) 1 (((1 / b : ℝ) : ℂ) • w),
              alpha := Function.update (fun _ => 0) 0 a,
              beta := Function.update (fun _ => 0) 0 b,
              conv := 2 }

/-- Models `OSIL::BuildLZB` (src/qdlib/OSIL.cpp:83-158); `order` is at least 3
(src/qdlib/OSIL.cpp:45-46). -/
noncomputable def silBuild (H : V →ₗ[ℂ] V) (order : ℕ) (dt err : ℝ) (stale : ℕ → V) (ψ : V) :
    Option (Lz V) :=
  match silStart H stale ψ with
  | none => none
  | some s =>
    match silLoop H dt (err * ‖ψ‖) (order - 2) 2 s with
    | none => none
    | some (s', it) =>
      some { s' with
        alpha := Function.update s'.alpha (it - 1)
          (inner ℂ (s'.q (it - 1)) (H (s'.q (it - 1))) : ℂ).re }

/-- The tridiagonal matrix that is passed to LAPACK by its diagonal and its subdiagonal
(src/linalg/LapackDiag.cpp:81-100). -/
def tri (n : ℕ) (alpha beta : ℕ → ℝ) : Matrix (Fin n) (Fin n) ℝ := fun i j =>
  if i.val = j.val then alpha i
  else if i.val = j.val + 1 then beta j
  else if j.val = i.val + 1 then beta i
  else 0

/-- The contract of `LAPACK::TriDiagHermitian` (`DSTEV`, src/linalg/LapackDiag.cpp:81-100):
eigenvalues, and an orthogonal matrix of eigenvectors. -/
structure TriDiag where
  eval : (n : ℕ) → (ℕ → ℝ) → (ℕ → ℝ) → Fin n → ℝ
  evec : (n : ℕ) → (ℕ → ℝ) → (ℕ → ℝ) → Matrix (Fin n) (Fin n) ℝ
  orth : ∀ n a b, (evec n a b).transpose * evec n a b = 1
  eigen : ∀ n a b, tri n a b * evec n a b = evec n a b * Matrix.diagonal (eval n a b)

/-- Models the computation of the coefficients in `OSIL::DiagLZB` (src/qdlib/OSIL.cpp:168-177):
`Z * exp(tau * D) * Z^T` applied to the first unit vector; `tau` is `OPropagator::Exponent()`. -/
noncomputable def silCoef (L : TriDiag) (n : ℕ) (alpha beta : ℕ → ℝ) (tau : ℂ) : Fin n → ℂ :=
  let Z : Matrix (Fin n) (Fin n) ℂ := (L.evec n alpha beta).map (fun x : ℝ => (x : ℂ))
  let e : Fin n → ℂ := fun i => if i.val = 0 then 1 else 0
  let v0 := Z.transpose.mulVec e
  let v1 := fun i => v0 i * Complex.exp ((L.eval n alpha beta i : ℂ) * tau)
  Z.mulVec v1

/-- Models the linear combination in `OSIL::DiagLZB` (src/qdlib/OSIL.cpp:180-184) and in
`OArnoldi::Propagate` (src/qdlib/OArnoldi.cpp:189, 196-198). -/
def combine (q : ℕ → V) (c : ℕ → ℂ) (ψ : V) (conv : ℕ) : V :=
  (List.range (conv - 1)).foldl (fun φ i => φ + c (i + 1) • q (i + 1)) (c 0 • ψ)

/-- The elements of an array as a function of the index (`operator[]` of `_vect`,
src/qdlib/OSIL.cpp:180-183). -/
def arr {n : ℕ} (v : Fin n → ℂ) (i : ℕ) : ℂ := if h : i < n then v ⟨i, h⟩ else 0

/-- Models `OSIL::Apply` (src/qdlib/OSIL.cpp:188-199). -/
noncomputable def silStep (L : TriDiag) (H : V →ₗ[ℂ] V) (order : ℕ) (dt err : ℝ) (tau : ℂ)
    (stale : ℕ → V) (ψ : V) : Option V :=
  match silBuild H order dt err stale ψ with
  | none => none
  | some s => some (combine s.q (arr (silCoef L order s.alpha s.beta tau)) ψ s.conv)

/-! ### Arnoldi -/

/-- `ARNOLDI_UNDERRUN` (src/qdlib/OArnoldi.h:12). -/
noncomputable def underrun : ℝ := 1 / 10 ^ 11

/-- What `OArnoldi::BuildLZB` works on (src/qdlib/OArnoldi.h:33, 35, 39): the basis, the matrix
`_tHA` and `_order`. -/
structure Ar (V : Type) where
  q : ℕ → V
  h : ℕ → ℕ → ℂ
  order : ℕ

/-- `_tHA(i, j) = x` (src/qdlib/OArnoldi.cpp:107, 117, 138). -/
def setEntry (h : ℕ → ℕ → ℂ) (i j : ℕ) (x : ℂ) : ℕ → ℕ → ℂ :=
  fun i' j' => if i' = i ∧ j' = j then x else h i' j'

/-- Models the orthogonalization (src/qdlib/OArnoldi.cpp:105-109) of `w`, column `col` of the matrix;
the steps `j = 0, 1, ..., m - 1`. -/
def orthLoop (q : ℕ → V) (col : ℕ) (m : ℕ) (w : V) (h : ℕ → ℕ → ℂ) : V × (ℕ → ℕ → ℂ) :=
  (List.range m).foldl (fun (p : V × (ℕ → ℕ → ℂ)) j =>
    (p.1 + (-1 * (inner ℂ (q j) p.1 : ℂ)) • q j, setEntry p.2 j col (inner ℂ (q j) p.1))) (w, h)

/-- Models the error estimate (src/qdlib/OArnoldi.cpp:124-127); for `it = 1` the power is
`dt^(-1)`. -/
noncomputable def arErr (dt psinorm : ℝ) (h : ℕ → ℕ → ℂ) (it : ℕ) : ℂ :=
  (List.range (it - 3)).foldl (fun e i => e * (h (i + 2) (i + 1) / ((i : ℂ) + 1)))
    (((dt ^ ((it : ℤ) - 2) : ℝ) : ℂ) * h 1 0 * (psinorm : ℂ))

/-- Models the loop of `OArnoldi::BuildLZB` (src/qdlib/OArnoldi.cpp:99-133); the first argument is
`_maxorder - it`. -/
noncomputable def arLoop (H : V →ₗ[ℂ] V) (dt psinorm conv : ℝ) : ℕ → ℕ → Ar V → Ar V
  | 0, _, s => s
  | k + 1, it, s =>
    let p := orthLoop s.q (it - 1) it (H (s.q (it - 1))) s.h
    let norm := ‖p.1‖
    if norm < underrun then { s with h := p.2 }
    else
      let s' : Ar V := { q := Function.update s.q it (((1 / norm : ℝ) : ℂ) • p.1),
                         h := setEntry p.2 it (it - 1) (norm : ℂ),
                         order := it + 1 }
      if ‖arErr dt psinorm s'.h it‖ < conv then s'
      else arLoop H dt psinorm conv k (it + 1) s'

/-- Models `OArnoldi::BuildLZB` (src/qdlib/OArnoldi.cpp:86-153): the basis, the matrix `_HA` and
`_order`.  `stale` and `order0` are the basis and the order from before the call. -/
noncomputable def arBuild (H : V →ₗ[ℂ] V) (maxorder : ℕ) (dt conv : ℝ) (stale : ℕ → V)
    (order0 : ℕ) (ψ : V) : Ar V :=
  let s := arLoop H dt ‖ψ‖ conv (maxorder - 1) 1
    { q := Function.update stale 0 ψ, h := (fun _ _ => 0), order := order0 }
  let w := H (s.q (s.order - 1))
  let h' := (List.range s.order).foldl
    (fun h j => setEntry h j (s.order - 1) (inner ℂ (s.q j) w)) s.h
  { s with h := h' }

/-- The contract of `LAPACK::DiagHessenberg` (`ZHSEQR`, `ZHSEIN`, src/linalg/LapackDiag.cpp:124-206):
eigenvalues and right eigenvectors of a matrix. -/
structure GenDiag where
  eval : (n : ℕ) → Matrix (Fin n) (Fin n) ℂ → Fin n → ℂ
  evec : (n : ℕ) → Matrix (Fin n) (Fin n) ℂ → Matrix (Fin n) (Fin n) ℂ
  eigen : ∀ n A, A * evec n A = evec n A * Matrix.diagonal (eval n A)

/-- The matrix `_HA` (src/qdlib/OArnoldi.cpp:142-147). -/
def haMat (n : ℕ) (h : ℕ → ℕ → ℂ) : Matrix (Fin n) (Fin n) ℂ := fun i j => h i j

/-- Models the coefficients in `OArnoldi::Propagate` (src/qdlib/OArnoldi.cpp:171-186).
`LAPACK::InvertGeneral` is the inverse of a matrix that has one; otherwise the content of the
matrix after the call is not specified (`none`). -/
noncomputable def arCoef (L : GenDiag) (n : ℕ) (h : ℕ → ℕ → ℂ) (tau : ℂ) : Option (Fin n → ℂ) :=
  open Classical in
  let Z := L.evec n (haMat n h)
  if IsUnit Z.det then
    let e : Fin n → ℂ := fun i => if i.val = 0 then 1 else 0
    let v0 := Z⁻¹.mulVec e
    let v1 := fun i => v0 i * Complex.exp (L.eval n (haMat n h) i * tau)
    some (Z.mulVec v1)
  else none

/-- Models `OArnoldi::Propagate` (src/qdlib/OArnoldi.cpp:169-199); `n` is `_order`. -/
noncomputable def arPropagate (L : GenDiag) (n : ℕ) (s : Ar V) (tau : ℂ) (ψ : V) : Option V :=
  match arCoef L n s.h tau with
  | none => none
  | some c => some (combine s.q (arr c) ψ n)

/-- Models `OArnoldi::Apply` (src/qdlib/OArnoldi.cpp:201-214). -/
noncomputable def arStep (L : GenDiag) (H : V →ₗ[ℂ] V) (maxorder : ℕ) (dt conv : ℝ) (tau : ℂ)
    (stale : ℕ → V) (order0 : ℕ) (ψ : V) : Option V :=
  let s := arBuild H maxorder dt conv stale order0 ψ
  arPropagate L s.order s tau ψ

end QDng.Krylov
