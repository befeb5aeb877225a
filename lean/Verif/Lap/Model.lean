import Verif.Memory.Props

/-
Model of the routines that call LAPACK (src/linalg/LapackDiag.cpp:22-249).  Modelled are the arguments
of the library calls with the lengths of the arrays in bytes, the work arrays from the memory pool, and
the return codes; the numbers in the matrices are not.  The library is a parameter which answers a call
with its argument `INFO`.  The pool is that of `Verif.Memory.Model`.  The storage of matrices and
vectors does not come from the pool here; they have the lengths of their declarations.  Dimensions are
natural numbers that do not overflow an `int`.
-/

namespace QDng.Lap

open QDng QDng.Memory

/-- A call of LAPACK (declarations in src/linalg/LapackDiag.h:97-98, 160-161, 226, 282-283, 421-423,
549-552, 596, 642-643): the numbers and the lengths in bytes of the arrays it is given. -/
inductive Call
  | dsyev (n lda lwork : Int) (a w work : Nat)
  | zheev (n lda lwork : Int) (a w work rwork : Nat)
  | dstev (n ldz : Int) (d e z work : Nat)
  | zgehrd (n lda lwork : Int) (a tau work : Nat)
  | zhseqr (n ldh lwork : Int) (h w work : Nat)
  | zhsein (n ldh ldvl ldvr mm : Int) (select h w vl vr work rwork ifaill ifailr : Nat)
  | zgetrf (m n lda : Int) (a ipiv : Nat)
  | zgetri (n lda lwork : Int) (a ipiv work : Nat)
  deriving DecidableEq, Repr

/-- What a routine does: it returns a code, throws the exception of the memory pool, or is undefined. -/
inductive End
  | ret (info : Int)
  | threw
  | ub
  deriving DecidableEq, Repr

/-- A run of a routine: the calls of the library in their order, the pool afterwards, the end. -/
structure Run where
  calls : List Call
  world : World
  fin : End

/-- The surroundings: the build (`NDEBUG`), what the operating system answers in a state of the pool to
a request (`posix_memalign`, src/tools/Memory.cpp:219-222), what the library answers. -/
structure Sys where
  nd : Bool
  os : Pool → Nat → Option Nat
  lib : Call → Int

/-- A number as the `size_t` argument of `Align` (src/tools/Memory.h, used in
src/linalg/LapackDiag.cpp:40, 67, 70, 93, 114, 146, 172, 233). -/
def szt (k : Int) : Nat := (k % (2 ^ 64 : Int)).toNat

/-- Result of a request for memory. -/
inductive Got
  | got (w : World) (p : Nat)
  | threw (w : World)
  | ub

/-- `Memory::Instance().Align` (src/tools/Memory.cpp:205-240). -/
def request (sys : Sys) (w : World) (size : Nat) : Got :=
  match w.pool.align sys.nd size (sys.os w.pool size) with
  | .ok s p => .got { pool := s, owned := (p, size) :: w.owned } p
  | .threw s => .threw { w with pool := s }
  | .ub => .ub

/-- The bytes behind a pointer of the pool (src/tools/Memory.cpp:219-233). -/
def cap (w : World) (p : Nat) : Nat := (OMap.find p w.pool.heap).getD 0

/-- `Memory::Instance().Free` (src/tools/Memory.cpp:245-263), followed by the rest of the
routine. -/
def release (sys : Sys) (w : World) (p : Nat) (calls : List Call) (k : World → Run) : Run :=
  match wstep sys.nd w (.free p) with
  | some w' => k w'
  | none => ⟨calls, w, .ub⟩

/-- A request followed by the rest of the routine; the exception of `Align` is not caught. -/
def withMem (sys : Sys) (w : World) (size : Nat) (calls : List Call) (k : World → Nat → Run) : Run :=
  match request sys w size with
  | .got w' p => k w' p
  | .threw w' => ⟨calls, w', .threw⟩
  | .ub => ⟨calls, w, .ub⟩

/-- `FullDiagHermitian` for real matrices (src/linalg/LapackDiag.cpp:22-47). -/
def fullDiagReal (sys : Sys) (rows cols strides : Nat) (w : World) : Run :=
  if rows ≠ cols then ⟨[], w, .ret (-1)⟩
  else if strides ≠ 1 then ⟨[], w, .ret (-2)⟩
  else
    withMem sys w (szt (3 * rows * 8)) [] fun w ws =>
      let c := Call.dsyev rows rows (3 * rows) (8 * (rows * rows)) (8 * rows) (cap w ws)
      release sys w ws [c] fun w => ⟨[c], w, .ret (sys.lib c)⟩

/-- `FullDiagHermitian` for complex matrices (src/linalg/LapackDiag.cpp:49-79): `ws` has
`ws_size*sizeof(dcomplex)` bytes and is passed as `RWORK`, `wsC` has `ws_size*sizeof(double)` bytes and is
passed as `WORK`. -/
def fullDiagCplx (sys : Sys) (rows cols strides : Nat) (w : World) : Run :=
  if rows ≠ cols then ⟨[], w, .ret (-1)⟩
  else if strides ≠ 1 then ⟨[], w, .ret (-2)⟩
  else
    withMem sys w (szt (3 * rows * 16)) [] fun w ws =>
    withMem sys w (szt (3 * rows * 8)) [] fun w wsC =>
      let c := Call.zheev rows rows (3 * rows) (16 * (rows * rows)) (8 * rows) (cap w wsC) (cap w ws)
      release sys w ws [c] fun w =>
      release sys w wsC [c] fun w => ⟨[c], w, .ret (sys.lib c)⟩

/-- `TriDiagHermitian` (src/linalg/LapackDiag.cpp:81-100); `d` and `e` are the numbers of elements of the
diagonal and of the subdiagonal given. -/
def triDiag (sys : Sys) (d e length : Nat) (w : World) : Run :=
  withMem sys w (szt ((2 * length - 2) * 8)) [] fun w ws =>
    let c := Call.dstev length length (8 * d) (8 * e) (8 * (length * length)) (cap w ws)
    release sys w ws [c] fun w => ⟨[c], w, .ret (sys.lib c)⟩

/-- `DiagHessenberg` (src/linalg/LapackDiag.cpp:124-206) after the calls `pre`.  The messages on the
screen and the normalization of the eigenvectors are left out. -/
def diagHess (sys : Sys) (rows cols strides : Nat) (pre : List Call) (w : World) : Run :=
  if rows ≠ cols then ⟨pre, w, .ret (-1)⟩
  else if strides ≠ 1 then ⟨pre, w, .ret (-2)⟩
  else
    withMem sys w (szt (rows * rows * 16)) pre fun w ws =>
      let c := Call.zhseqr rows rows (rows * rows) (16 * (rows * rows)) (16 * rows) (cap w ws)
      withMem sys w (szt (rows * 8)) (pre ++ [c]) fun w rws =>
        let c' := Call.zhsein rows rows rows rows rows (4 * rows) (16 * (rows * rows)) (16 * rows)
          (16 * (rows * rows)) (16 * (rows * rows)) (cap w ws) (cap w rws) (4 * rows) (4 * rows)
        release sys w ws (pre ++ [c, c']) fun w =>
        release sys w rws (pre ++ [c, c']) fun w => ⟨pre ++ [c, c'], w, .ret (sys.lib c')⟩

/-- `DiagGeneral` (src/linalg/LapackDiag.cpp:102-122); `len` is the number of elements of the vector for
the eigenvalues, which is passed as `TAU`. -/
def diagGeneral (sys : Sys) (rows cols strides len : Nat) (w : World) : Run :=
  if rows ≠ cols then ⟨[], w, .ret (-1)⟩
  else if strides ≠ 1 then ⟨[], w, .ret (-2)⟩
  else
    withMem sys w (szt (rows * rows * 16)) [] fun w ws =>
      let c := Call.zgehrd rows rows (rows * rows) (16 * (rows * rows)) (16 * len) (cap w ws)
      release sys w ws [c] fun w => diagHess sys rows cols strides [c] w

/-- `InvertGeneral` (src/linalg/LapackDiag.cpp:208-249): the work array is not given back. -/
def invertGeneral (sys : Sys) (rows cols : Nat) (w : World) : Run :=
  let c := Call.zgetrf rows cols rows (16 * (rows * cols)) (4 * rows)
  if sys.lib c ≠ 0 then ⟨[c], w, .ret (sys.lib c)⟩
  else
    withMem sys w (szt (10 * cols * 16)) [c] fun w ws =>
      let c' := Call.zgetri cols rows (10 * cols) (16 * (rows * cols)) (4 * rows) (cap w ws)
      ⟨[c, c'], w, .ret (sys.lib c')⟩

/-- The inverses of `k` steps of the Arnoldi propagator one after another
(src/qdlib/OArnoldi.cpp:168-190, the call in line 179); an exception ends it. -/
def steps (sys : Sys) (order : Nat) : Nat → World → Option World
  | 0, w => some w
  | k + 1, w =>
    match (invertGeneral sys order order w).fin with
    | .ret _ => steps sys order k (invertGeneral sys order order w).world
    | _ => none

end QDng.Lap
