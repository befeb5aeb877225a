import Verif.Common.Loop
import Mathlib.Algebra.Ring.Defs

/-
Model of the vector storage (src/math/Vector.h) and of the matrix class (src/math/Matrix.h).

Simplifications: sizes are natural numbers; the memory of a vector or matrix belongs to it alone
(two vectors never share memory, MPI is not used); freshly allocated elements are `none`
(uninitialised) and the value of an expression on uninitialised elements is `none`; a read or write
outside of the storage, and a division by zero, is undefined behaviour and the outcome `none` of the
whole operation.
-/

namespace QDng.Linalg

open QDng.Common

/-! ### Vector -/

/-- Models the members `v_`, `n_`, `nstrides_`, `stride_size_` of `class Vector`
(src/math/Vector.h:73-81): the strides, each with `ssize` elements, and the nominal size. -/
structure Vec (A : Type) where
  v : List (List (Option A))
  n : Nat
  ssize : Nat

/-- Models `Vector::initialize` (src/math/Vector.h:99-128), called from the constructors and from
`newsize`.  No strides at all is a division by zero. -/
def Vec.init (A : Type) (n strides : Nat) : Option (Vec A) :=
  if strides = 0 then none
  else some { v := List.replicate strides (List.replicate (n / strides) none)
              n := n
              ssize := n / strides }

/-- Models `Vector::operator[]` used as a value (src/math/Vector.h:680-692). -/
def Vec.get {A : Type} (w : Vec A) (i : Nat) : Option (Option A) :=
  if w.ssize = 0 then none
  else
    match w.v[i / w.ssize]? with
    | none => none
    | some l => l[i % w.ssize]?

/-- Models `Vector::operator[]` used as the target of an assignment (src/math/Vector.h:680-685). -/
def Vec.put {A : Type} (w : Vec A) (i : Nat) (x : A) : Option (Vec A) :=
  if w.ssize = 0 then none
  else
    match w.v[i / w.ssize]? with
    | none => none
    | some l =>
      match upd (i % w.ssize) (fun _ => some x) l with
      | none => none
      | some l' => some { w with v := w.v.set (i / w.ssize) l' }

/-- The inner loop over the elements of stride `s` in `set`, `operator*=` and the scalar assignment
(src/math/Vector.h:170-172,565-567): `f` is the statement executed for each element. -/
def strideLoop {A : Type} (ssize : Nat) (f : Option A → Option A) (s : Nat)
    (v : List (List (Option A))) : Option (List (List (Option A))) :=
  match v[s]? with
  | none => none
  | some l => (loop ssize (fun i l => upd i f l) l).map (fun l' => v.set s l')

/-- The double loop over strides and elements of a stride in `set`, `operator*=` and the scalar
assignment (src/math/Vector.h:163-176,558-569,590-594). -/
def Vec.forAll {A : Type} (w : Vec A) (f : Option A → Option A) : Option (Vec A) :=
  (loop w.v.length (strideLoop w.ssize f) w.v).map (fun v => { w with v := v })

/-- Models `Vector::operator*=` (src/math/Vector.h:558-569). -/
def Vec.scale {A : Type} [Mul A] (w : Vec A) (c : A) : Option (Vec A) :=
  w.forAll (fun x => x.map (fun y => y * c))

/-- Models `Vector::operator=(const T&)` and `set` (src/math/Vector.h:163-176,590-594). -/
def Vec.fill {A : Type} (w : Vec A) (c : A) : Option (Vec A) := w.forAll (fun _ => some c)

/-- Models the body of the loop of `Vector::StrideCopy` (src/math/Vector.h:609). -/
def copyElem {A : Type} (src : List (Option A)) (i : Nat) (l : List (Option A)) :
    Option (List (Option A)) :=
  match src[i]? with
  | none => none
  | some x => upd i (fun _ => x) l

/-- Models `Vector::StrideCopy` (src/math/Vector.h:603-612): the answer of the call and the vector
afterwards.  The tests `dest > nstrides_` and `source > vec.strides()` are those of the code. -/
def Vec.strideCopy {A : Type} (w u : Vec A) (source dest : Nat) : Option (Bool × Vec A) :=
  if dest > w.v.length ∨ u.ssize ≠ w.ssize ∨ source > u.v.length then some (false, w)
  else if w.ssize = 0 then some (true, w)
  else
    match w.v[dest]?, u.v[source]? with
    | some d, some s =>
      (loop w.ssize (copyElem s) d).map (fun d' => (true, { w with v := w.v.set dest d' }))
    | _, _ => none

/-! ### Matrix -/

/-- Models `class Matrix` (src/math/Matrix.h:21-31): rows, columns, and the storage. -/
structure Mat (U : Type) where
  m : Nat
  n : Nat
  v : List U

/-- Models `Matrix::operator()` (src/math/Matrix.h:242-252) with the column pointers of `_init`
(src/math/Matrix.h:91-94): a column pointer past the last column, or an address outside of the
storage, is undefined behaviour. -/
def Mat.get {U : Type} (M : Mat U) (i j : Nat) : Option U :=
  if j < M.n then M.v[j * M.m + i]? else none

/-- Models one of the three double loops of `MatVecMult` (src/math/Matrix.h:320-325,327-332,
335-340); `e i j` is the matrix element used. -/
def mvLoop {T : Type} [Semiring T] (rows cols : Nat) (e : Nat → Nat → Option T)
    (a : List T) (b : List (Option T)) : Option (List (Option T)) :=
  loop rows (fun i b =>
    (upd i (fun _ => some 0) b).bind (fun b =>
      loop cols (fun j b =>
        match e i j, a[j]? with
        | some x, some y => upd i (fun o => o.map (fun s => s + x * y)) b
        | _, _ => none) b)) b

/-- Models `MatVecMult` (src/math/Matrix.h:304-342) on unstrided vectors; `b` is the old content of
the result vector, `conj` the complex conjugation.  The result vector gets the size of `a`. -/
def matVecMult {T : Type} [Semiring T] (conj : T → T) (b : List (Option T)) (M : Mat T)
    (a : List T) (transpose adjoint : Bool) : Option (List (Option T)) :=
  if M.n ≠ a.length ∧ transpose = false then some b
  else if M.m ≠ a.length ∧ transpose = true then some b
  else
    let b := if b.length ≠ a.length then List.replicate a.length none else b
    if transpose = true ∧ adjoint = false then
      mvLoop M.m M.n (fun i j => M.get j i) a b
    else if transpose = true ∧ adjoint = true then
      mvLoop M.m M.n (fun i j => (M.get j i).map conj) a b
    else
      mvLoop M.m M.n (fun i j => M.get i j) a b

/-- Models `Matrix::transpose` (src/math/Matrix.h:221-234). -/
def Mat.transpose {U : Type} (conj : U → U) (M : Mat U) : Option (Mat U) :=
  if M.m ≠ M.n then some M
  else
    (loop M.m (fun i v =>
      loop i (fun j v =>
        match v[i * M.m + j]?, v[j * M.m + i]? with
        | some swap, some other =>
          (upd (i * M.m + j) (fun _ => conj other) v).bind
            (upd (j * M.m + i) (fun _ => conj swap))
        | _, _ => none) v) M.v).map (fun v => { M with v := v })

/-- Models `Matrix::diag() const` (src/math/Matrix.h:188-200); `some none` is the NULL result. -/
def Mat.diag {U : Type} (M : Mat U) : Option (Option (List (Option U))) :=
  if M.m ≠ M.n then some none
  else
    (loop M.m (fun i d =>
      match M.get i i with
      | none => none
      | some x => upd i (fun _ => some x) d) (List.replicate M.m none)).map some

/-- Models an assignment `mat(i, j) = x` (src/math/Matrix.h:242-246). -/
def Mat.put {U : Type} (M : Mat U) (i j : Nat) (x : U) : Option (Mat U) :=
  if j < M.n then (upd (j * M.m + i) (fun _ => x) M.v).map (fun v => { M with v := v }) else none

/-- The local variables `r`, `clen`, `c` and the target of `ReorderLowerTriangular`
(src/tools/helpers.h:98-100). -/
structure Reorder (U : Type) where
  mat : Mat U
  r : Nat := 0
  clen : Nat := 1
  c : Nat := 0

/-- Models the body of the loop of `ReorderLowerTriangular` (src/tools/helpers.h:103-110). -/
def reorderStep {U : Type} (sym : Bool) (x : U) (s : Reorder U) : Option (Reorder U) :=
  (s.mat.put s.r s.c x).bind (fun m =>
    (if sym then m.put s.c s.r x else some m).bind (fun m =>
      let c := s.c + 1
      if c = s.clen then some ⟨m, s.r + 1, s.clen + 1, 0⟩ else some ⟨m, s.r, s.clen, c⟩))

/-- Models `ReorderLowerTriangular` (src/tools/helpers.h:95-112). -/
def reorder {U : Type} (vec : List U) (mat : Mat U) (sym : Bool) : Option (Mat U) :=
  (loop vec.length (fun i s =>
    match vec[i]? with
    | none => none
    | some x => reorderStep sym x s) { mat := mat }).map Reorder.mat

end QDng.Linalg
