import Verif.Lap.Model

/-
What the documentation of LAPACK demands of the arguments (src/linalg/LapackDiag.h:41-643), for the
values of `JOBZ`, `UPLO`, `JOB`, `COMPZ`, `SIDE`, ... that the code passes.  A `DOUBLE PRECISION` number
has 8 bytes, a `COMPLEX*16` number 16 bytes, an `INTEGER` or `LOGICAL` 4 bytes.
-/

namespace QDng.Lap

open QDng QDng.Memory

/-- An array of `bytes` bytes has the dimension `dim` of elements of `size` bytes. -/
def HasDim (bytes size : Nat) (dim : Int) : Prop := dim * size ≤ bytes

/-- The demands on the arguments of a call. -/
def Call.Documented : Call → Prop
  | .dsyev n lda lwork a w work =>
    0 ≤ n ∧ max 1 n ≤ lda ∧ max 1 (3 * n - 1) ≤ lwork ∧ HasDim a 8 (lda * n) ∧ HasDim w 8 n ∧
      HasDim work 8 (max 1 lwork)
  | .zheev n lda lwork a w work rwork =>
    0 ≤ n ∧ max 1 n ≤ lda ∧ max 1 (2 * n - 1) ≤ lwork ∧ HasDim a 16 (lda * n) ∧ HasDim w 8 n ∧
      HasDim work 16 (max 1 lwork) ∧ HasDim rwork 8 (max 1 (3 * n - 2))
  | .dstev n ldz d e z work =>
    0 ≤ n ∧ max 1 n ≤ ldz ∧ HasDim d 8 n ∧ HasDim e 8 (n - 1) ∧ HasDim z 8 (ldz * n) ∧
      HasDim work 8 (max 1 (2 * n - 2))
  | .zgehrd n lda lwork a tau work =>
    0 ≤ n ∧ max 1 n ≤ lda ∧ max 1 n ≤ lwork ∧ HasDim a 16 (lda * n) ∧ HasDim tau 16 (n - 1) ∧
      HasDim work 16 lwork
  | .zhseqr n ldh lwork h w work =>
    0 ≤ n ∧ max 1 n ≤ ldh ∧ max 1 n ≤ lwork ∧ HasDim h 16 (ldh * n) ∧ HasDim w 16 n ∧
      HasDim work 16 lwork
  | .zhsein n ldh ldvl ldvr mm select h w vl vr work rwork ifaill ifailr =>
    0 ≤ n ∧ max 1 n ≤ ldh ∧ max 1 n ≤ ldvl ∧ max 1 n ≤ ldvr ∧ n ≤ mm ∧ HasDim select 4 n ∧
      HasDim h 16 (ldh * n) ∧ HasDim w 16 n ∧ HasDim vl 16 (ldvl * mm) ∧ HasDim vr 16 (ldvr * mm) ∧
      HasDim work 16 (n * n) ∧ HasDim rwork 8 n ∧ HasDim ifaill 4 mm ∧ HasDim ifailr 4 mm
  | .zgetrf m n lda a ipiv =>
    0 ≤ m ∧ 0 ≤ n ∧ max 1 m ≤ lda ∧ HasDim a 16 (lda * n) ∧ HasDim ipiv 4 (min m n)
  | .zgetri n lda lwork a ipiv work =>
    0 ≤ n ∧ max 1 n ≤ lda ∧ max 1 n ≤ lwork ∧ HasDim a 16 (lda * n) ∧ HasDim ipiv 4 n ∧
      HasDim work 16 (max 1 lwork)

/-- The operating system hands out fresh memory only (as in `Memory.OsOk`). -/
def Honest (sys : Sys) : Prop := ∀ s size, OsOk sys.nd s size (sys.os s size)

/-- The bytes a client of the pool holds. -/
def held (w : World) : Nat := (w.owned.map (fun e => e.2)).sum

end QDng.Lap
