import Verif.Deriv.Model
import Verif.Absorb.Model
import Verif.Stencil.Model
import Verif.Stencil.Spec
import Verif.Stencil.Table
import Verif.Common.Outcome
import Mathlib.Data.Real.Basic

/-
Model of the kinetic energy with a G-matrix (src/qdlib/OGridGMat.cpp) where it uses the chain rule or
absorbing layers, of its set-up and of its copies.  The operator without both is modelled in
`Verif.Deriv.Model`.  Double precision numbers are modelled as real numbers, a vector over the grid
as a function of the grid point.  The finite difference derivative of the elements is taken from the
result of C35 (the stencil with zeros outside of the grid), the factors of a layer from C58.
-/

namespace QDng.Gmc

open QDng.Grid QDng.Deriv QDng.Common QDng.Stencil QDng.Absorb

/-- A pointer: never assigned, `NULL` or to an object (src/qdlib/OGridGMat.h:39). -/
inductive Ptr (A : Type) where
  | junk
  | null
  | at (a : A)

/-- The pointer `_Gmat[i][j]` after `Init(params)` (src/qdlib/OGridGMat.cpp:163-169, 225-242): the
lower triangle is set to `NULL`, the upper one is only set together with a loaded element. -/
def ptr {s : Space} (o : GMat s) (i j : Fin s.d) : Ptr (s.Pt → ℝ) :=
  if j ≤ i then
    match o.low i j with
    | .grid g => if i = j ∨ o.coup = true then .at g else .null
    | _ => .null
  else
    match o.low j i with
    | .grid g => if i = j ∨ o.coup = true then .at g else .junk
    | _ => .junk

/-- The row of coefficients of the first derivative (src/qdlib/HOFD.h:202, cfd_table_1.h:5-354). -/
noncomputable def cf (order : ℕ) : List ℝ :=
  (table1.getD (order / 2 - 1) []).map (fun x => ((dec x : ℚ) : ℝ))

/-- The values of a function along the line through `p` in dimension `i`
(src/qdlib/HOFD.h:207-214). -/
noncomputable def line {s : Space} (i : Fin s.d) (g : s.Pt → ℝ) (p : s.Pt) (y : ℕ) : ℝ :=
  if h : y < (s.axes i).n then g (Function.update p i ⟨y, h⟩) else 0

/-- The derivative of an element along dimension `i` with the factor of `OGridGMat::Init`
(src/qdlib/OGridGMat.cpp:120-123, 132, src/qdlib/HOFD.h:188-216); not periodic. -/
noncomputable def diffG {s : Space} (order : ℕ) (i : Fin s.d) (g : s.Pt → ℝ) : s.Pt → ℝ := fun p =>
  1 / (s.axes i).dx * (-0.5) *
    central (order / 2) (fun m => (cf order).getD (order / 2 - m) 0) (-1)
      (extend false (s.axes i).n (line i g p)) ((p i : ℕ) : ℤ)

/-- Models the body of the loops over `_GmatDiff[i][j]` (src/qdlib/OGridGMat.cpp:129-134): `none` is
the empty vector.  On a line with fewer points than the width of the stencil the array is left
(C35). -/
noncomputable def diffElem {s : Space} (o : GMat s) (order : ℕ) (i j : Fin s.d) :
    Ans (Option (s.Pt → ℝ)) :=
  match ptr o i j with
  | .junk => .ub
  | .at g => if (s.axes i).n < order then .ub else .val (some (diffG order i g))
  | .null =>
    match ptr o j i with
    | .junk => .ub
    | .at _ => .ub
    | .null => .val none

/-- The value of an answer, `none` if there is none: the vector that is left in `_GmatDiff[i][j]`
(src/qdlib/OGridGMat.cpp:126-134). -/
def valOf {A : Type} : Ans (Option A) → Option A
  | .val a => a
  | _ => none

open Classical in
/-- Models the set-up of the derivatives of the elements (src/qdlib/OGridGMat.cpp:114-136) for the
parameter `order` (8 if it is not given); the constructor of the differences checks the order. -/
noncomputable def initDiff {s : Space} (o : GMat s) (order : ℤ) :
    Ans (Fin s.d → Fin s.d → Option (s.Pt → ℝ)) :=
  if checkSetup 1 order = false then .threw
  else if ∃ i j, diffElem o order.toNat i j = .ub then .ub
  else .val (fun i j => valOf (diffElem o order.toNat i j))

/-- The operator after `Init(Psi)`: the matrix, the flag `_ChainRule`, the derivatives of the
elements and the layers (src/qdlib/OGridGMat.h:37-54). -/
structure Op (s : Space) where
  g : GMat s
  chain : Bool
  gd : Fin s.d → Fin s.d → Option (s.Pt → ℝ)
  pml : Option (Fin s.d → Layer)

/-- Models `_pml[i].ApplyTransform(wf)` (src/qdlib/OGridGMat.cpp:352-353, 367). -/
noncomputable def transform {s : Space} (l : Fin s.d → Layer) (i : Fin s.d) (ψ : s.Wf) : s.Wf :=
  fun x => ψ x * (l i).factor false (s.axes i).n (x i)

/-- Models the branch with the chain rule (src/qdlib/OGridGMat.cpp:335-341). -/
noncomputable def Op.chainTerm {s : Space} (o : Op s) (i : Fin s.d) (w dest : s.Wf) (j : Fin s.d) :
    Ans s.Wf :=
  match o.gd j i with
  | none => .ub
  | some dg =>
    let dest : s.Wf := fun p => dest p + w p * (dg p : ℂ)
    if j ≤ i then
      match ptr o.g i j with
      | .at g =>
        let buf := dnDxn s j w (if i = j then -0.5 else -1)
        .val (fun p => dest p + buf p * (g p : ℂ))
      | _ => .ub
    else .val dest

/-- Models the branch without the chain rule but with layers (src/qdlib/OGridGMat.cpp:342-373). -/
noncomputable def Op.layerTerm {s : Space} (o : Op s) (l : Fin s.d → Layer) (i : Fin s.d)
    (w dest : s.Wf) (j : Fin s.d) : s.Wf :=
  match o.g.elem i j with
  | .none => dest
  | .const g => dest + transform l j (transform l i (dnDxn s j w (-0.5 * g)))
  | .grid g => dest + transform l j (dnDxn s j (fun p => w p * (g p : ℂ)) (-0.5))

/-- Models the body of the inner loop of `OGridGMat::ApplyAdd` (src/qdlib/OGridGMat.cpp:332-375). -/
noncomputable def Op.term {s : Space} (o : Op s) (i : Fin s.d) (w dest : s.Wf) (j : Fin s.d) :
    Ans s.Wf :=
  if i = j ∨ o.g.coup = true then
    if o.chain then o.chainTerm i w dest j
    else
      match o.pml with
      | some l => .val (o.layerTerm l i w dest j)
      | none => .val (o.g.term i w dest j)
  else .val dest

/-- A loop that ends at the first undefined behaviour or exception
(src/qdlib/OGridGMat.cpp:325, 332). -/
def loopA {A I : Type} (f : A → I → Ans A) : List I → A → Ans A
  | [], a => .val a
  | i :: is, a =>
    match f a i with
    | .val b => loopA f is b
    | .threw => .threw
    | .ub => .ub

/-- Models the body of the outer loop of `OGridGMat::ApplyAdd` (src/qdlib/OGridGMat.cpp:325-376). -/
noncomputable def Op.row {s : Space} (o : Op s) (ψ dest : s.Wf) (i : Fin s.d) : Ans s.Wf :=
  loopA (o.term i (dnDxn s i ψ 1)) (List.finRange s.d) dest

/-- Models `OGridGMat::Apply(destPsi, sourcePsi)` with `ApplyAdd`
(src/qdlib/OGridGMat.cpp:307-385). -/
noncomputable def Op.apply {s : Space} (o : Op s) (ψ : s.Wf) : Ans s.Wf :=
  loopA (o.row ψ) (List.finRange s.d) 0

/-! ### The set-up -/

/-- The members of an operator `OGridGMat::Init(Psi)` decides on: the flag `_ChainRule`, whether
there are buffers and whether there are layers (src/qdlib/OGridGMat.h:37-54). -/
structure St where
  chain : Bool
  buf : Bool
  pml : Bool
  deriving DecidableEq, Repr

/-- A new operator (src/qdlib/OGridGMat.cpp:16-19). -/
def St.new : St := { chain := false, buf := false, pml := false }

/-- The places where `OGridGMat::Init(Psi)` may end with an exception besides the check of the
combination: elements that do not fit, parameters of a layer, the difference operator, the order of
the finite differences (src/qdlib/OGridGMat.cpp:67-74, 87-90, 109-110, 120). -/
inductive Fail where
  | elements
  | layer
  | diff
  | order
  deriving DecidableEq, Repr

/-- The input of `OGridGMat::Init(Psi)`: the parameters `pml` and `chainrule`, and which of its other
checks fails, if any (src/qdlib/OGridGMat.cpp:56-137). -/
structure Ask where
  pml : Bool
  chain : Bool
  fail : Option Fail
  deriving DecidableEq, Repr

/-- How `OGridGMat::Init(Psi)` ends: it returns, it refuses the combination of chain rule and
layers, or it throws another exception (src/qdlib/OGridGMat.cpp:56-137). -/
inductive Res where
  | ok (s : St)
  | refused (s : St)
  | threw (s : St)
  deriving DecidableEq, Repr

/-- The operator as the call left it (src/qdlib/OGridGMat.cpp:56-137). -/
def Res.st : Res → St
  | .ok s => s
  | .refused s => s
  | .threw s => s

/-- Models `OGridGMat::Init(Psi)` (src/qdlib/OGridGMat.cpp:56-137). -/
def St.init (st : St) (a : Ask) : Res :=
  if st.buf then .ok st
  else if a.fail = some .elements then .threw st
  else if a.pml ∧ st.chain then .refused st
  else
    let st := if a.pml then { st with pml := true } else st
    if a.pml ∧ a.fail = some .layer then .threw st
    else
      let st := { st with buf := true }
      if a.fail = some .diff then .threw st
      else
        let st := { st with chain := a.chain }
        if a.chain ∧ a.fail = some .order then .threw st
        else .ok st

/-- The operator after a series of calls of `OGridGMat::Init(Psi)`, with or without exceptions
(src/qdlib/OGridGMat.cpp:56-137). -/
def St.run (st : St) : List Ask → St
  | [] => st
  | a :: as => ((st.init a).st).run as

/-! ### Copies -/

/-- The pointers an operator works with: the number of dimensions, and whether `_wfbuf[i]`, `buf` and
`buf1` are set (src/qdlib/OGridGMat.h:38-48). -/
structure Obj where
  size : ℕ
  wf : Bool
  buf : Bool
  buf1 : Bool
  deriving DecidableEq, Repr

/-- An operator after `Init(params)` (src/qdlib/OGridGMat.cpp:142-170). -/
def Obj.new (n : ℕ) : Obj := { size := n, wf := false, buf := false, buf1 := false }

/-- Models a successful call of `OGridGMat::Init(Psi)` (src/qdlib/OGridGMat.cpp:63, 93-102). -/
def Obj.init (o : Obj) : Obj := if o.buf then o else { o with wf := true, buf := true, buf1 := true }

/-- Models `OGridGMat::Copy` into a new operator (src/qdlib/OGridGMat.cpp:408-443): `buf1` keeps the
`NULL` of the constructor. -/
def Obj.copy (o : Obj) : Common.Ans Obj :=
  if o.size = 0 then .val { size := 0, wf := false, buf := false, buf1 := false }
  else if o.wf then .val { size := o.size, wf := true, buf := true, buf1 := false }
  else .ub

/-- Models the use of the pointers in `OGridGMat::ApplyAdd` (src/qdlib/OGridGMat.cpp:315-322); the
answer `()` stands for a call that works with proper buffers. -/
def Obj.apply (o : Obj) : Common.Ans Unit :=
  if (o.size = 0 ∨ o.wf = true) ∧ o.buf = true ∧ o.buf1 = true then .val () else .ub

end QDng.Gmc
