import Verif.HMat.Model

/-
Model of the multistate operator which diagonalises coupled potentials (src/qdlib/ODMultistate.cpp,
src/qdlib/ODMultistate.h), of its transformation (src/qdlib/TransformMSD.cpp) and of the energy bounds and the
copies of multistate operators (src/qdlib/OMultistate.cpp).

All states have the same number `N` of grid points and the wave function has as many states as the operator.
Elements of the matrix are described by what the operator asks of them; their own initialisation is assumed to
succeed and their copies to be faithful.  One process, exact numbers, LAPACK as in `QDng.HMat`.
-/

namespace QDng.Dms

open QDng.Common QDng.HMat

/-- A transformation of an element (src/qdlib/Transform.h:15-35), after it has been used once (the value of the
normalization before is the subject of C33). -/
structure Trf (N : Nat) where
  fwd : (Fin N → ℂ) → Fin N → ℂ
  bwd : (Fin N → ℂ) → Fin N → ℂ
  norm : ℝ

/-- An element of the matrix: whether it has a diagonal representation, what `Dspace()` returns
(src/qdlib/ODSpace.h:42-47), the factor between this and what is applied at a time (one for potentials, minus the
field for dipole operators, src/qdlib/OGridDipole.cpp:46-60, 83-87), whether it tells to be time dependent, and its
transformation. -/
structure Elem (N : Nat) where
  od : Bool
  base : Fin N → ℝ
  fac : Nat → ℝ
  timeDep : Bool
  trans : Option (Trf N)

/-- What an element applies at a time: the multiplication with the diagonal, in its own basis
(src/qdlib/OGridDipole.cpp:46-60, src/qdlib/OGridNablaSq.cpp:108-111, src/qdlib/Diff.cpp:203-212). -/
noncomputable def Elem.act {N : Nat} (e : Elem N) (t : Nat) (φ : Fin N → ℂ) : Fin N → ℂ :=
  match e.trans with
  | none => fun x => ((e.base x * e.fac t : ℝ) : ℂ) * φ x
  | some T => T.bwd fun k => T.fwd φ k * (((e.base k * e.fac t : ℝ) : ℂ) * (T.norm : ℂ))

/-- An entry of the array `_T`, which is allocated without being initialised
(src/qdlib/ODMultistate.cpp:55). -/
inductive Cell (N : Nat) where
  | unset
  | at (T : Trf N)

/-- Models `ODMultistate` (src/qdlib/ODMultistate.h:24-33, src/qdlib/OMultistate.h): the matrix, `_unity`,
`_hermitian`, whether the buffers exist, `_state_size`, `_IsFullDiag`, `_T`, whether the transformation has been
given `_T`, `_dspace`, the matrices `_X` of the transformation and `_isTimedependent`. -/
structure Op (S N : Nat) where
  mat : Fin S → Fin S → Option (Elem N)
  unity : Bool
  herm : Bool
  inited : Bool
  size : Nat
  fullDiag : Bool
  tArr : Option (Fin S → Cell N)
  external : Bool
  ds : Option (Fin S → Fin N → ℝ)
  xs : Option (Fin N → RMat S)
  timeDep : Bool

/-- Models an operator after the elements have been added (src/qdlib/OMultistate.cpp:14-22, 34-54, 79-97,
src/qdlib/ODMultistate.cpp:11-14). -/
def Op.new {S N : Nat} (m : Fin S → Fin S → Option (Elem N)) (unity herm : Bool) : Op S N :=
  { mat := m, unity := unity, herm := herm, inited := false, size := 0, fullDiag := true, tArr := none
    external := false, ds := none, xs := none
    timeDep := (List.finRange S).any fun i => (List.finRange S).any fun j => (m i j).any Elem.timeDep }

/-- Models the completion of the matrix (src/qdlib/OMultistate.cpp:122-132): in hermitian mode the element above the
diagonal is used for both places, the one below if there is none above. -/
def complete {S N : Nat} (herm : Bool) (m : Fin S → Fin S → Option (Elem N)) (i j : Fin S) : Option (Elem N) :=
  if herm then
    if i < j then (m i j).orElse fun _ => m j i
    else if j < i then (m j i).orElse fun _ => m i j
    else m i j
  else m i j

/-- The state of the loop over the elements (src/qdlib/ODMultistate.cpp:53-55). -/
structure Scan (S N : Nat) where
  external : Bool
  fullDiag : Bool
  cells : Fin S → Cell N

/-- Models the check of one element (src/qdlib/ODMultistate.cpp:61-74); `none` if it throws. -/
def checkElem {S N : Nat} (m : Fin S → Fin S → Option (Elem N)) (s : Scan S N) (i j : Fin S) : Option (Scan S N) :=
  match m i j with
  | none => some s
  | some e =>
    if !e.od then none
    else
      match e.trans with
      | some T =>
        if i ≠ j then none
        else some ⟨true, false, Function.update s.cells i (.at T)⟩
      | none => if i ≠ j then some ⟨s.external, false, s.cells⟩ else some s

/-- The pairs of indices in the order of the loops (src/qdlib/ODMultistate.cpp:59-60). -/
def pairs (S : Nat) : List (Fin S × Fin S) :=
  (List.finRange S).flatMap fun i => (List.finRange S).map fun j => (i, j)

/-- Models the loops over the elements; on the left the state at an exception
(src/qdlib/ODMultistate.cpp:59-76). -/
def scan {S N : Nat} (m : Fin S → Fin S → Option (Elem N)) : List (Fin S × Fin S) → Scan S N → Sum (Scan S N) (Scan S N)
  | [], s => .inr s
  | (i, j) :: l, s =>
    match checkElem m s i j with
    | none => .inl (match m i j with
        | some e => if e.od then ⟨true, false, s.cells⟩ else s
        | none => s)
    | some s' => scan m l s'

/-- Models `ODMultistate::Init` (src/qdlib/ODMultistate.cpp:35-82, src/qdlib/OMultistate.cpp:99-142). -/
def Op.init {S N : Nat} (o : Op S N) : Out (Op S N) :=
  if o.size ≠ 0 then .ok o
  else if S = 0 then .threw o
  else
    let m := if o.inited then o.mat else complete o.herm o.mat
    match scan m (pairs S) ⟨false, true, fun _ => .unset⟩ with
    | .inl s => .threw { o with mat := m, inited := true, size := N, fullDiag := s.fullDiag, tArr := some s.cells }
    | .inr s =>
      if s.external then
        .ok { o with mat := m, inited := true, size := N, fullDiag := s.fullDiag, tArr := some s.cells, external := true }
      else .ok { o with mat := m, inited := true, size := N, fullDiag := s.fullDiag, tArr := none }

/-- The matrix at a grid point (src/qdlib/ODMultistate.cpp:143-151). -/
def gridMat {S N : Nat} (m : Fin S → Fin S → Option (Elem N)) (x : Fin N) : RMat S := fun k l =>
  match m k l with
  | some e => e.base x
  | none => 0

/-- `Dspace()` of the diagonal elements; a missing element is a null pointer
(src/qdlib/ODMultistate.cpp:123-128, 161-164). -/
def diagRep {S N : Nat} (m : Fin S → Fin S → Option (Elem N)) : Option (Fin S → Fin N → ℝ) :=
  if (List.finRange S).all fun k => (m k k).any Elem.od then
    some fun k x => match m k k with | some e => e.base x | none => 0
  else none

/-- Models `InitDspace` (src/qdlib/ODMultistate.cpp:115-167). -/
def Op.initDspace {S N : Nat} (L : Lapack S) (o : Op S N) : Ans (Op S N) :=
  if o.fullDiag || o.tArr.isSome then
    match diagRep o.mat with
    | some d => .val { o with ds := some d }
    | none => .ub
  else
    .val { o with
      ds := some fun k x => L.vals (gridMat o.mat x) k
      xs := some fun x => L.vecs (gridMat o.mat x) }

/-- Models `InitExponential` (src/qdlib/ODMultistate.cpp:169-182, src/qdlib/ODSpace.h:65-69): the exponentials and the
operator after the call. -/
noncomputable def Op.expo {S N : Nat} (L : Lapack S) (o : Op S N) (t : Nat) (c : ℂ) :
    Ans ((Fin S → Fin N → ℂ) × Op S N) :=
  match o.tArr with
  | none =>
    match (if o.ds.isNone then o.initDspace L else .val o) with
    | .val o' =>
      match o'.ds with
      | some d => .val (fun s x => Complex.exp ((d s x : ℂ) * c), o')
      | none => .ub
    | .threw => .threw
    | .ub => .ub
  | some _ =>
    if (List.finRange S).all fun k => (o.mat k k).any Elem.od then
      .val (fun s x => match o.mat s s with
        | some e => Complex.exp ((e.base x : ℂ) * (c * (e.fac t : ℂ)))
        | none => 0, o)
    else .ub

/-- All values of a family, undefined if one of them is. -/
def allVal {S : Nat} {A : Type} (f : Fin S → Option A) : Option (Fin S → A) :=
  if h : ∀ i, (f i).isSome then some fun i => (f i).get (h i) else none

/-- An entry of `_T`, none if it has never been written. -/
def Cell.get {N : Nat} : Cell N → Option (Trf N)
  | .unset => none
  | .at T => some T

/-- Models `Forward` and `Backward` of the transformation (src/qdlib/TransformMSD.cpp:31-100). -/
noncomputable def Op.transform {S N : Nat} (o : Op S N) (forward : Bool) (ψ : Fin S → Fin N → ℂ) :
    Ans (Fin S → Fin N → ℂ) :=
  if o.external then
    match o.tArr with
    | some a =>
      match allVal fun i => (a i).get with
      | some T => .val fun i => if forward then (T i).fwd (ψ i) else (T i).bwd (ψ i)
      | none => .ub
    | none => .ub
  else
    match o.xs with
    | some X => .val fun s x => matVec (X x) forward (fun s => ψ s x) s
    | none => .ub

/-- Models `Normalization` (src/qdlib/TransformMSD.cpp:22-26); the member `_norm` is one without external
transformations. -/
def Op.norm {S N : Nat} (o : Op S N) : Option ℝ :=
  if o.external then
    match o.tArr with
    | some a => if h : 0 < S then (a ⟨0, h⟩).get.map Trf.norm else none
    | none => none
  else some 1

/-- Models the part the operator has in a step of the split operator propagator at the time step `t`
(src/qdlib/OGSPO.cpp:37-41, 131-137, src/qdlib/ODMultistate.h:65). -/
noncomputable def Op.part {S N : Nat} (L : Lapack S) (o : Op S N) (t : Nat) (c : ℂ) (ψ : Fin S → Fin N → ℂ) :
    Ans ((Fin S → Fin N → ℂ) × Op S N) :=
  match o.expo L t c with
  | .val (e, o') =>
    if o'.fullDiag then .val (fun s x => ψ s x * e s x, o')
    else
      match o'.norm, o'.transform true ψ with
      | some ν, .val φ =>
        match o'.transform false fun s x => φ s x * (e s x * (ν : ℂ)) with
        | .val χ => .val (χ, o')
        | .threw => .threw
        | .ub => .ub
      | _, _ => .ub
  | .threw => .threw
  | .ub => .ub

/-- Models `Apply` (src/qdlib/OMultistate.cpp:206-231). -/
noncomputable def Op.apply {S N : Nat} (o : Op S N) (t : Nat) (ψ : Fin S → Fin N → ℂ) : Fin S → Fin N → ℂ :=
  fun i x => ∑ j, match o.mat i j with
    | some e => e.act t (ψ j) x
    | none => if i = j ∧ o.unity = true then ψ j x else 0

/-- A history of steps: the operator after steps with the given times, factors and states. -/
noncomputable def Op.steps {S N : Nat} (L : Lapack S) (o : Op S N) : List (Nat × ℂ × (Fin S → Fin N → ℂ)) → Ans (Op S N)
  | [] => .val o
  | (t, c, ψ) :: l =>
    match o.part L t c ψ with
    | .val (_, o') => o'.steps L l
    | .threw => .threw
    | .ub => .ub

/-- Models `Copy` to a new operator (src/qdlib/ODMultistate.cpp:84-113, src/qdlib/OMultistate.cpp:279-320). -/
def Op.copy {S N : Nat} (L : Lapack S) (o : Op S N) : Ans (Op S N) :=
  if !o.inited then .ub
  else
    let m : Fin S → Fin S → Option (Elem N) := fun i j => if o.herm ∧ i < j then o.mat j i else o.mat i j
    let r : Op S N :=
      { mat := m, unity := false, herm := o.herm, inited := true, size := o.size, fullDiag := o.fullDiag
        tArr := if o.tArr.isSome then
            some fun i => match (m i i).bind Elem.trans with | some T => .at T | none => .unset
          else none
        external := o.tArr.isSome, ds := none, xs := none, timeDep := false }
    if o.ds.isSome then r.initDspace L else .val r

/-! ### Energy bounds -/

/-- The matrix of the energy bounds of the elements (src/qdlib/OMultistate.cpp:168-177, 189-198). -/
def boundMat {S : Nat} (e : Fin S → Fin S → Option ℝ) : RMat S := fun i j =>
  match e i j with
  | some v => |v|
  | none => 0

/-- Models `Emax` (src/qdlib/OMultistate.cpp:163-182); `e` are the upper bounds of the elements. -/
noncomputable def msEmax {S : Nat} (L : Lapack (S + 1)) (e : Fin (S + 1) → Fin (S + 1) → Option ℝ) : ℝ :=
  vecMax (L.vals (boundMat e) 0) (List.ofFn fun i : Fin S => L.vals (boundMat e) i.succ)

/-- Models `Emin` (src/qdlib/OMultistate.cpp:184-203); `e` are the lower bounds of the elements. -/
noncomputable def msEmin {S : Nat} (L : Lapack (S + 1)) (e : Fin (S + 1) → Fin (S + 1) → Option ℝ) : ℝ :=
  vecMin (L.vals (boundMat e) 0) (List.ofFn fun i : Fin S => L.vals (boundMat e) i.succ)

end QDng.Dms
