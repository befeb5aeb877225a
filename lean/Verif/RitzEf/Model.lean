import Verif.Krylov.ArProps
import Verif.Eigen.DiagProps
import Mathlib.LinearAlgebra.Matrix.Charpoly.Basic

/-
Model of the eigenfunctions by the Lanczos method: `ProgEigen::LanczosEF` (src/ProgEigen.cpp:604-653) with the part of
`ProgEigen::Run` around it (src/ProgEigen.cpp:655-736), on top of the model of `OArnoldi::BuildLZB` in `Verif.Krylov.Model`.

Exact arithmetic.  The LAPACK routines `ZHSEQR` and `ZHSEIN` are described by what they compute; their failures, which the
code only prints, are not modelled.
-/

namespace QDng.RitzEf

open QDng.Krylov

variable {V : Type} [NormedAddCommGroup V] [InnerProductSpace ℂ V]

/-- What `ZHSEQR` and `ZHSEIN` deliver (src/linalg/LapackDiag.cpp:149, 174): all eigenvalues of a matrix, each as often as it is a
root of the characteristic polynomial, and for each of them a right eigenvector. -/
structure Solver where
  eval : (n : ℕ) → Matrix (Fin n) (Fin n) ℂ → Fin n → ℂ
  evec : (n : ℕ) → Matrix (Fin n) (Fin n) ℂ → Matrix (Fin n) (Fin n) ℂ
  roots : ∀ n A, A.charpoly = ∏ i, (Polynomial.X - Polynomial.C (eval n A i))
  eigen : ∀ n A, A * evec n A = evec n A * Matrix.diagonal (eval n A)
  nonzero : ∀ n A j, ∃ i, evec n A i j ≠ 0

/-- The sum `sr` of a column (src/linalg/LapackDiag.cpp:192-196). -/
noncomputable def colSum {n : ℕ} (Z : Matrix (Fin n) (Fin n) ℂ) (c : Fin n) : ℂ :=
  (List.finRange n).foldl (fun s r => s + (starRingEnd ℂ) (Z r c) * Z r c) 0

/-- The normalization of the right eigenvectors (src/linalg/LapackDiag.cpp:186-203). -/
noncomputable def normCols {n : ℕ} (Z : Matrix (Fin n) (Fin n) ℂ) : Matrix (Fin n) (Fin n) ℂ := fun r c =>
  ((1 / Real.sqrt (colSum Z c).re : ℝ) : ℂ) * Z r c

/-- An element of a matrix (src/ProgEigen.cpp:639, 641: `evecs(j, i)`); outside of the matrix, which does not occur, zero. -/
def at' {n : ℕ} (Z : Matrix (Fin n) (Fin n) ℂ) (j i : ℕ) : ℂ := if h : j < n ∧ i < n then Z ⟨j, h.1⟩ ⟨i, h.2⟩ else 0

/-- Function number `i` (src/ProgEigen.cpp:638-642). -/
noncomputable def ritzFn (q : ℕ → V) {n : ℕ} (Z : Matrix (Fin n) (Fin n) ℂ) (i : ℕ) : V :=
  (List.range (n - 1)).foldl (fun b (j : ℕ) => b + at' Z (j + 1) i • q (j + 1)) (at' Z 0 i • q 0)

/-- The result: number of functions `_Nef`, the functions in `_P` (which are written to the files, src/ProgEigen.cpp:650) and the energies
`_Energies_raw` (src/ProgEigen.cpp:620-646).  Functions and energies are numbered `0 ... n - 1`. -/
structure Found (V : Type) where
  n : ℕ
  fn : ℕ → V
  en : ℕ → ℝ

/-- `evals[i].real()` (src/ProgEigen.cpp:644). -/
def realAt {n : ℕ} (e : Fin n → ℂ) (i : ℕ) : ℝ := if h : i < n then (e ⟨i, h⟩).re else 0

/-- Models `ProgEigen::LanczosEF` (src/ProgEigen.cpp:616-650) with an Arnoldi propagator: `DiagLZB` (src/qdlib/OArnoldi.cpp:155-162)
diagonalizes the small matrix.  `stale` are the vectors in the buffer of the propagator before the call; `_order` is
`_maxorder` before the call (src/qdlib/OArnoldi.cpp:53). -/
noncomputable def lanczosEF (L : Solver) (H : V →ₗ[ℂ] V) (maxorder : ℕ) (dt conv : ℝ) (stale : ℕ → V) (ψ : V) : Found V :=
  let s := arBuild H maxorder dt conv stale maxorder ψ
  let A := haMat s.order s.h
  let Z := normCols (L.evec s.order A)
  { n := s.order, fn := fun i => ritzFn s.q Z i, en := fun i => realAt (L.eval s.order A) i }

/-- The propagator of the input: an Arnoldi propagator with its parameters `order` and `conv`, or another one
(src/ProgEigen.cpp:607, src/qdlib/OArnoldi.cpp:43-47). -/
inductive Propagator where
  | arnoldi (maxorder : ℕ) (conv : ℝ)
  | other

/-- The end of the run: the result, an exception, or (zero initial wave function) functions that are not a number. -/
inductive Res (V : Type) where
  | found (r : Found V)
  | threw
  | nan

/-- Models `ProgEigen::Run` with the method `lanczos` up to the diagonalization (src/ProgEigen.cpp:699-725): the initial wave function
is normalised first, an order below three is rejected by the propagator (src/qdlib/OArnoldi.cpp:50-51), the method needs an Arnoldi
propagator (src/ProgEigen.cpp:609-610). `dt` is the time step of the clock. -/
noncomputable def run (L : Solver) (H : V →ₗ[ℂ] V) (p : Propagator) (dt : ℝ) (stale : ℕ → V) (ψ0 : V) : Res V :=
  match p with
  | .other => .threw
  | .arnoldi maxorder conv =>
    if maxorder < 3 then .threw
    else match QDng.Eigen.normalize ψ0 with
      | none => .nan
      | some ψ => .found (lanczosEF L H maxorder dt conv stale ψ)

end QDng.RitzEf
