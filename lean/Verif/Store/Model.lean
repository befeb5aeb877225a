import Verif.Common.Outcome

/-
Model of the storage of vectors and wave functions: who owns which block of memory, strides that are linked to another
vector, storage that is given back and taken again, and the second buffer of a wave function (src/math/Vector.h,
src/qdlib/WaveFunction.h, src/qdlib/WFMultistate.cpp).

Objects and blocks of memory have numbers.  A wave function is a vector, so both have the same number.  The number of a
block is never used twice; that the memory pool does not hand out a block that is in use is C07.  Giving back a block
that is not in use is undefined behaviour here: the pool would then hand it out to two owners (src/tools/Memory.cpp:253-262).

Simplifications: sizes are natural numbers; `new` of the small arrays of pointers does not fail; one process; elements
of any type.
-/

namespace QDng.Store

/-- What an entry of the array `v_` holds (src/math/Vector.h:73, 111, 118-124): the null pointer, a block, or whatever
was in the memory before. -/
inductive Ptr
  | null
  | blk (k : Nat)
  | junk
  deriving DecidableEq, Repr

/-- What the entries of `_StrideRefObj` and `_SourceStride` hold (src/math/Vector.h:76-77, 112-113, 125-126). -/
inductive Ref
  | own
  | to (vec source : Nat)
  | junk
  deriving DecidableEq, Repr

/-- `class Vector` (src/math/Vector.h:73-86): `n_`, `stride_size_`, `v_`, the two arrays of links, `isRef_` and
`_StorageLocked`.  `nstrides_` is the length of the arrays. -/
structure Vec where
  size : Nat
  ssize : Nat
  ptrs : List Ptr
  refs : List Ref
  isRef : Bool
  locked : Bool
  deriving DecidableEq, Repr

/-- The part of `class WaveFunction` besides the vector: `_spacebuffer` and `_IsKspace`
(src/qdlib/WaveFunction.h:37-38). -/
structure Wf where
  buf : Option Nat
  kspace : Bool
  deriving DecidableEq, Repr

/-- Memory: blocks in use, their size and content, the number of the next request, vectors, wave functions, and which
requests for memory fail (src/tools/Memory.cpp:205-240). -/
structure World (V : Type) where
  live : Nat → Bool
  cap : Nat → Nat
  mem : Nat → Nat → V
  nextB : Nat
  vecs : Nat → Option Vec
  nextV : Nat
  wfs : Nat → Option Wf
  oom : Nat → Bool

/-- Outcome of a call: return with a value, exception, undefined behaviour (src/math/Vector.h:99-128). -/
inductive Res (V A : Type)
  | ok (w : World V) (a : A)
  | threw (w : World V)
  | ub

/-- Sequence of two statements (src/math/Vector.h:551-552). -/
def Res.bind {V A B : Type} : Res V A → (World V → A → Res V B) → Res V B
  | .ok w a, f => f w a
  | .threw w, _ => .threw w
  | .ub, _ => .ub

/-- The value of a table changed at one place (src/math/Vector.h:118). -/
def upd {A : Type} (f : Nat → A) (k : Nat) (x : A) : Nat → A := fun j => if j = k then x else f j

/-- Replace the vector with a number (src/math/Vector.h:99-128). -/
def World.setVec {V : Type} (w : World V) (o : Nat) (v : Option Vec) : World V := { w with vecs := upd w.vecs o v }

/-- Replace the members of a wave function (src/qdlib/WaveFunction.h:126, 137). -/
def World.setWf {V : Type} (w : World V) (o : Nat) (x : Option Wf) : World V := { w with wfs := upd w.wfs o x }

/-- `Memory::Align` (src/tools/Memory.cpp:205-240): a new block, or an exception (`none`).  The content of the block is
whatever was there. -/
def World.alloc {V : Type} (w : World V) (n : Nat) : World V × Option Nat :=
  if w.oom w.nextB then ({ w with nextB := w.nextB + 1 }, none)
  else ({ w with live := upd w.live w.nextB true, cap := upd w.cap w.nextB n, nextB := w.nextB + 1 }, some w.nextB)

/-- `Memory::Free` (src/tools/Memory.cpp:245-263); the null pointer is not in the index and ignored. -/
def World.free {V : Type} (w : World V) : Ptr → Res V Unit
  | .null => .ok w ()
  | .blk k => if w.live k then .ok { w with live := upd w.live k false } () else .ub
  | .junk => .ub

/-! ### Vector -/

/-- The loop of `initialize` over the strides (src/math/Vector.h:118-127): the pointers, and whether it ended with an
exception.  After an exception the entries that were not reached hold anything. -/
def allocStrides {V : Type} (ssize : Nat) : Nat → World V → World V × List Ptr × Bool
  | 0, w => (w, [], false)
  | k + 1, w =>
    if ssize = 0 then
      let r := allocStrides ssize k w
      (r.1, .null :: r.2.1, r.2.2)
    else
      match w.alloc ssize with
      | (w', none) => (w', List.replicate (k + 1) .junk, true)
      | (w', some b) =>
        let r := allocStrides ssize k w'
        (r.1, .blk b :: r.2.1, r.2.2)

/-- The entry of `_StrideRefObj` belonging to an entry of `v_` in `initialize` (src/math/Vector.h:125-126). -/
def refOf : Ptr → Ref
  | .junk => .junk
  | _ => .own

/-- `initialize(N, strides)` (src/math/Vector.h:99-128). -/
def initVec {V : Type} (o n strides : Nat) (w : World V) : Res V Unit :=
  if strides = 0 then .ub
  else
    let r := allocStrides (n / strides) strides w
    let v : Vec := ⟨n, n / strides, r.2.1, r.2.1.map refOf, false, false⟩
    if r.2.2 then .threw (r.1.setVec o (some v)) else .ok (r.1.setVec o (some v)) ()

/-- The loop of `destroy` (src/math/Vector.h:184-189). -/
def freeAll {V : Type} : List Ptr → World V → Res V Unit
  | [], w => .ok w ()
  | p :: ps, w => (w.free p).bind fun w _ => freeAll ps w

/-- `destroy()` (src/math/Vector.h:180-201): the arrays are gone afterwards. -/
def destroyVec {V : Type} (o : Nat) (w : World V) : Res V Unit :=
  match w.vecs o with
  | none => .ub
  | some v =>
    (if v.isRef then .ok w () else freeAll v.ptrs w).bind fun w _ =>
      .ok (w.setVec o (some { v with ptrs := [], refs := [] })) ()

/-- `newsize(N, s)` (src/math/Vector.h:545-555). -/
def newsize {V : Type} (o n s : Nat) (w : World V) : Res V Unit :=
  match w.vecs o with
  | none => .ub
  | some v =>
    if v.size = n ∧ v.ptrs.length = s then .ok w ()
    else (destroyVec o w).bind fun w _ => initVec o n s w

/-- `new cVec(N, s)` (src/math/Vector.h:452-463): if the constructor throws there is no object. -/
def newVec {V : Type} (n s : Nat) (w : World V) : Res V Nat :=
  match initVec w.nextV n s { w with nextV := w.nextV + 1 } with
  | .ok w' _ => .ok w' w.nextV
  | .threw w' => .threw (w'.setVec w.nextV none)
  | .ub => .ub

/-- `delete` of a vector (src/math/Vector.h:404-407). -/
def deleteVec {V : Type} (o : Nat) (w : World V) : Res V Unit :=
  (destroyVec o w).bind fun w _ => .ok (w.setVec o none) ()

/-- `StrideRef(vec, source, dest)` (src/math/Vector.h:216-241).  With `isRef_` set the number of the stride is not
compared with the length of the arrays. -/
def strideRef {V : Type} (o q source dest : Nat) (w : World V) : Res V Bool :=
  match w.vecs o, w.vecs q with
  | some v, some u =>
    if v.isRef ∧ u.ssize ≠ v.ssize then .ok w false
    else if ¬ v.isRef ∧ dest ≥ v.ptrs.length then .ok w false
    else
      (if v.isRef then .ok w ()
       else
        ((if v.ssize > 0 then destroyVec o w else .ok w ()).bind fun w _ => initVec o 0 v.ptrs.length w).bind fun w _ =>
          match w.vecs o with
          | none => .ub
          | some v => .ok (w.setVec o (some { v with ssize := u.ssize, isRef := true })) ()).bind fun w _ =>
      match w.vecs o, w.vecs q with
      | some v, some u =>
        if dest ≥ v.ptrs.length then .ub
        else
          match u.ptrs[source]? with
          | none => .ub
          | some p =>
            .ok (w.setVec o (some { v with size := v.ptrs.length * v.ssize
                                           ptrs := v.ptrs.set dest p
                                           refs := v.refs.set dest (.to q source) })) true
      | _, _ => .ub
  | _, _ => .ub

/-- A loop over the numbers below `n` (src/math/Vector.h:270). -/
def forUpTo {V : Type} (body : Nat → World V → Res V Unit) : Nat → Nat → World V → Res V Unit
  | _, 0, w => .ok w ()
  | s, n + 1, w => (body s w).bind fun w _ => forUpTo body (s + 1) n w

/-- `v_[s] = p` (src/math/Vector.h:276, 289, 292). -/
def setPtr {V : Type} (o s : Nat) (p : Ptr) (w : World V) : Res V Unit :=
  match w.vecs o with
  | none => .ub
  | some v => if s < v.ptrs.length then .ok (w.setVec o (some { v with ptrs := v.ptrs.set s p })) () else .ub

/-- The body of the loop of `RetireStorage` (src/math/Vector.h:271-276); `rec` is `RetireStorage` of another vector. -/
def retireStep {V : Type} (rec : Nat → World V → Res V Unit) (o s : Nat) (w : World V) : Res V Unit :=
  match w.vecs o with
  | none => .ub
  | some v =>
    match v.refs[s]?, v.ptrs[s]? with
    | some .own, some p => (w.free p).bind fun w _ => setPtr o s .null w
    | some (.to q _), some _ => (rec q w).bind fun w _ => setPtr o s .null w
    | _, _ => .ub

/-- `RetireStorage()` (src/math/Vector.h:267-278); the first argument bounds the depth of the calls: links that form a
circle exhaust the stack. -/
def retire {V : Type} : Nat → Nat → World V → Res V Unit
  | 0, _, _ => .ub
  | d + 1, o, w =>
    match w.vecs o with
    | none => .ub
    | some v => if v.locked then .ok w () else forUpTo (retireStep (retire d) o) 0 v.ptrs.length w

/-- The body of the loop of `ReaquireStorage` (src/math/Vector.h:287-294). -/
def reaquireStep {V : Type} (rec : Nat → World V → Res V Unit) (o s : Nat) (w : World V) : Res V Unit :=
  match w.vecs o with
  | none => .ub
  | some v =>
    match v.ptrs[s]?, v.refs[s]? with
    | some (.blk _), some _ => .ok w ()
    | some .null, some .own =>
      match w.alloc v.ssize with
      | (w', none) => .threw w'
      | (w', some b) => setPtr o s (.blk b) w'
    | some .null, some (.to q source) =>
      (rec q w).bind fun w _ =>
        match w.vecs q with
        | none => .ub
        | some u =>
          match u.ptrs[source]? with
          | none => .ub
          | some p => setPtr o s p w
    | _, _ => .ub

/-- `ReaquireStorage()` (src/math/Vector.h:283-297). -/
def reaquire {V : Type} : Nat → Nat → World V → Res V Unit
  | 0, _, _ => .ub
  | d + 1, o, w =>
    match w.vecs o with
    | none => .ub
    | some v => if v.locked then .ok w () else forUpTo (reaquireStep (reaquire d) o) 0 v.ptrs.length w

/-- How deep calls may be nested (src/math/Vector.h:274, 291). -/
def stack : Nat := 1000

/-- `LockStorage()` and `UnLockStorage()` (src/math/Vector.h:258-259). -/
def lock {V : Type} (o : Nat) (b : Bool) (w : World V) : Res V Unit :=
  match w.vecs o with
  | none => .ub
  | some v => .ok (w.setVec o (some { v with locked := b })) ()

/-- `swap(A)` (src/math/Vector.h:364-376): the total sizes are compared, the pointers of all strides of the first vector
are exchanged. -/
def swapVec {V : Type} (o q : Nat) (w : World V) : Res V Bool :=
  match w.vecs o, w.vecs q with
  | some v, some u =>
    if v.size ≠ u.size then .ok w false
    else if u.ptrs.length < v.ptrs.length then .ub
    else
      .ok ((w.setVec o (some { v with ptrs := u.ptrs.take v.ptrs.length })).setVec q
        (some { u with ptrs := v.ptrs ++ u.ptrs.drop v.ptrs.length })) true
  | _, _ => .ub

/-- Copying `n` elements from one pointer to another (src/math/Vector.h:138-148). -/
def copyBlock {V : Type} (n : Nat) (dst src : Ptr) (w : World V) : Res V Unit :=
  if n = 0 then .ok w ()
  else
    match dst, src with
    | .blk d, .blk s =>
      if w.live d ∧ w.live s ∧ n ≤ w.cap d ∧ n ≤ w.cap s then
        .ok { w with mem := upd w.mem d (fun i => if i < n then w.mem s i else w.mem d i) } ()
      else .ub
    | _, _ => .ub

/-- `copy(v)`: all strides one after the other (src/math/Vector.h:138-148). -/
def copyAll {V : Type} (n : Nat) : List Ptr → List Ptr → World V → Res V Unit
  | [], _, w => .ok w ()
  | d :: ds, s :: ss, w => (copyBlock n d s w).bind fun w _ => copyAll n ds ss w
  | _ :: _, [], _ => .ub

/-- `copy(A.v_)` into the own strides (src/math/Vector.h:581, 585). -/
def copyFrom {V : Type} (o q : Nat) (w : World V) : Res V Unit :=
  match w.vecs o, w.vecs q with
  | some v, some u => copyAll v.ssize v.ptrs u.ptrs w
  | _, _ => .ub

/-- `operator=(const Vector&)` (src/math/Vector.h:573-588). -/
def assign {V : Type} (o q : Nat) (w : World V) : Res V Unit :=
  if o = q then .ok w ()
  else
    match w.vecs o, w.vecs q with
    | some v, some u =>
      if v.size = u.size ∧ v.ptrs.length = u.ptrs.length then copyFrom o q w
      else
        ((if v.isRef then .ok w () else destroyVec o w).bind fun w _ => initVec o u.size u.ptrs.length w).bind fun w _ =>
          copyFrom o q w
    | _, _ => .ub

/-- Reading `v_[s][i]` (src/math/Vector.h:344, 684). -/
def readAt {V : Type} (o s i : Nat) (w : World V) : Res V V :=
  match w.vecs o with
  | none => .ub
  | some v =>
    match v.ptrs[s]? with
    | some (.blk k) => if w.live k ∧ i < w.cap k then .ok w (w.mem k i) else .ub
    | _ => .ub

/-- Writing `v_[s][i] = x` (src/math/Vector.h:344, 684). -/
def writeAt {V : Type} (o s i : Nat) (x : V) (w : World V) : Res V Unit :=
  match w.vecs o with
  | none => .ub
  | some v =>
    match v.ptrs[s]? with
    | some (.blk k) =>
      if w.live k ∧ i < w.cap k then .ok { w with mem := upd w.mem k (upd (w.mem k) i x) } () else .ub
    | _ => .ub

/-! ### Wave functions -/

/-- A new wave function with `n` elements in one stride (src/qdlib/WaveFunction.h:43, src/math/Vector.h:439-450). -/
def newWf {V : Type} (n : Nat) (w : World V) : Res V Nat :=
  (newVec n 1 w).bind fun w o => .ok (w.setWf o (some ⟨none, false⟩)) o

/-- `GetSpaceBuffer()` (src/qdlib/WaveFunction.h:135-139). -/
def getBuf {V : Type} (o : Nat) (w : World V) : Res V Nat :=
  match w.wfs o, w.vecs o with
  | some x, some v =>
    match x.buf with
    | some b => .ok w b
    | none => (newVec v.size v.ptrs.length w).bind fun w b => .ok (w.setWf o (some { x with buf := some b })) b
  | _, _ => .ub

/-- `IsKspace(is)` of the base class (src/qdlib/WaveFunction.h:118-128); the answer of `swap` is not looked at. -/
def wfKspace {V : Type} (o : Nat) (b : Bool) (w : World V) : Res V Unit :=
  (getBuf o w).bind fun w q =>
    match w.vecs o, w.vecs q with
    | some v, some u =>
      (if u.size ≠ v.size ∨ u.ptrs.length ≠ v.ptrs.length then newsize q v.size v.ptrs.length w else .ok w ()).bind
        fun w _ =>
          match w.wfs o with
          | none => .ub
          | some x =>
            if x.kspace = b then .ok w ()
            else (swapVec o q w).bind fun w _ => .ok (w.setWf o (some { x with kspace := b })) ()
    | _, _ => .ub

/-- `Retire()` of the base class (src/qdlib/WaveFunction.h:169-174). -/
def wfRetire {V : Type} (o : Nat) (w : World V) : Res V Unit :=
  match w.wfs o with
  | none => .ub
  | some x =>
    (retire stack o w).bind fun w _ =>
      match x.buf with
      | none => .ok w ()
      | some b => retire stack b w

/-- `Reaquire()` of the base class (src/qdlib/WaveFunction.h:179-183). -/
def wfReaquire {V : Type} (o : Nat) (w : World V) : Res V Unit :=
  match w.wfs o with
  | none => .ub
  | some x =>
    (reaquire stack o w).bind fun w _ =>
      match x.buf with
      | none => .ok w ()
      | some b => reaquire stack b w

/-- `if (_spacebuffer != NULL) delete _spacebuffer` (src/qdlib/WaveFunction.h:49). -/
def deleteBuf {V : Type} (x : Wf) (w : World V) : Res V Unit :=
  match x.buf with
  | none => .ok w ()
  | some b => deleteVec b w

/-- `delete` of a wave function: destructor of `WaveFunction`, then of the vector (src/qdlib/WaveFunction.h:49,
src/math/Vector.h:404-407).  The registry of objects is left out (see C11, C42). -/
def wfDelete {V : Type} (o : Nat) (w : World V) : Res V Unit :=
  match w.wfs o with
  | none => .ub
  | some x =>
    ((deleteBuf x w).bind fun w _ => deleteVec o w).bind fun w _ => .ok (w.setWf o none) ()

/-! ### Multistate wave functions -/

/-- `class WFMultistate` (src/qdlib/WFMultistate.h:22-25): the wave function it is itself, and its states.
Simplification: the states are not multistate wave functions. -/
structure Multi where
  self : Nat
  states : List Nat
  deriving DecidableEq, Repr

/-- The loop linking the states (src/qdlib/WFMultistate.cpp:133-136). -/
def linkLoop {V : Type} (o : Nat) : Nat → List Nat → World V → Res V Unit
  | _, [], w => .ok w ()
  | i, a :: as, w =>
    (strideRef o a 0 i w).bind fun w r => if r then linkLoop o (i + 1) as w else .threw w

/-- The last part of `Init(reqsize)` (src/qdlib/WFMultistate.cpp:131-136).  How missing states are filled in is C71. -/
def multiLink {V : Type} (m : Multi) (w : World V) : Res V Unit :=
  (newsize m.self 0 m.states.length w).bind fun w _ => linkLoop m.self 0 m.states w

/-- The same call for every state (src/qdlib/WFMultistate.cpp:30-32, 264-265, 272-273). -/
def forStates {V : Type} (f : Nat → World V → Res V Unit) : List Nat → World V → Res V Unit
  | [], w => .ok w ()
  | a :: as, w => (f a w).bind fun w _ => forStates f as w

/-- `Retire()` (src/qdlib/WFMultistate.cpp:262-268). -/
def multiRetire {V : Type} (m : Multi) (w : World V) : Res V Unit :=
  (forStates wfRetire m.states w).bind fun w _ => retire stack m.self w

/-- `Reaquire()` (src/qdlib/WFMultistate.cpp:270-276). -/
def multiReaquire {V : Type} (m : Multi) (w : World V) : Res V Unit :=
  (forStates wfReaquire m.states w).bind fun w _ => reaquire stack m.self w

/-- The loop of `IsKspace` (src/qdlib/WFMultistate.cpp:233-236). -/
def kspaceLoop {V : Type} (o : Nat) (b : Bool) : Nat → List Nat → World V → Res V Unit
  | _, [], w => .ok w ()
  | i, a :: as, w =>
    (wfKspace a b w).bind fun w _ =>
      match w.vecs a with
      | none => .ub
      | some v =>
        match v.ptrs[0]? with
        | none => .ub
        | some p => (setPtr o i p w).bind fun w _ => kspaceLoop o b (i + 1) as w

/-- `IsKspace(is)` of `WFMultistate` (src/qdlib/WFMultistate.cpp:228-239).  It hides the function of the base class,
which is not virtual; a call through a pointer to `WaveFunction` is `wfKspace m.self`. -/
def multiKspace {V : Type} (m : Multi) (b : Bool) (w : World V) : Res V Unit :=
  match w.wfs m.self with
  | none => .ub
  | some x =>
    if x.kspace = b then .ok w ()
    else
      (kspaceLoop m.self b 0 m.states w).bind fun w _ =>
        match w.wfs m.self with
        | none => .ub
        | some x => .ok (w.setWf m.self (some { x with kspace := b })) ()

/-- `delete` of a multistate wave function: the states, then the base classes (src/qdlib/WFMultistate.cpp:20-34,
src/qdlib/WaveFunction.h:49, src/math/Vector.h:404-407). -/
def multiDelete {V : Type} (m : Multi) (w : World V) : Res V Unit :=
  (forStates wfDelete m.states w).bind fun w _ => wfDelete m.self w

end QDng.Store
