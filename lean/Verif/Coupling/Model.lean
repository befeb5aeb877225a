import Mathlib.Algebra.Algebra.Basic
import Mathlib.Data.Real.Basic
import Verif.Common.Outcome

/-
Model of the search for the laser operators in a Hamiltonian by the optimal control program: `FindOperatorType` in
src/ChainLoader.h, its use in src/ProgOCT.cpp, and the functions `Apply` and `ApplyParent` of the operators it builds
(src/qdlib/OSum.cpp, src/qdlib/OProduct.cpp, src/qdlib/OMultistate.cpp).

A laser operator (`OLaser` and the classes derived from it) is known by a number, which stands for its address.
Simplifications: the conjugation flag, the time dependence flag and the limit of 128 operators in a list are left out
(a list the search builds has no more than 16); freeing the packages that are not used is left out; lists other than
sums and products are taken for sums or products of their parts; a laser operator is linear in its field (not so
`OGridRaman`, see C76); the unity on the diagonal of a matrix is not written down; a sum on a grid is taken for the sum
of its members with the present field values, although with two or more members the code reads behind them (C26).
-/

namespace QDng.Coupling

/-! ### Operators -/

mutual
/-- The operators the search tells apart (src/ChainLoader.h:56, 71, 103).  A list is a sum or a product.
`grid`: a sum of operators on a grid, which is no list (src/qdlib/OGridSum.h:24). -/
inductive Op where
  | laser (id : Nat)
  | other (id : Nat)
  | list (product : Bool) (parts : Ops)
  | multi (diag : Ops) (pairs : Pairs)
  | grid (parts : Ops)
/-- The parts of a list, or the elements on the diagonal of a matrix (at the row given). -/
inductive Ops where
  | nil
  | cons (row : Nat) (head : Op) (tail : Ops)
/-- The elements of a matrix (src/qdlib/OMultistate.h:36) at `(i, j)` (`low`) and `(j, i)` (`up`), for `j < i` in the order
of the loops (src/ChainLoader.h:108-109). -/
inductive Pairs where
  | nil
  | cons (i j : Nat) (low : Entry) (up : Upper) (tail : Pairs)
/-- An element of the matrix, which may be missing. -/
inductive Entry where
  | none
  | some (o : Op)
/-- An element of the upper triangle: missing, the same object as below the diagonal, or another one. -/
inductive Upper where
  | none
  | same
  | other (o : Op)
end

/-- An array of pointers with elements that may not have a value yet. -/
abbrev Arr := Nat → Option Nat

/-- Assignment to an element. -/
def Arr.put (a : Arr) (p : Nat) (x : Option Nat) : Arr := fun k => if k = p then x else a k

/-- The result of the search: a null pointer or an operator with the value of `n`, and the content of `found`. -/
inductive Res where
  | null (n : Nat) (found : Arr)
  | got (pkg : Op) (n : Nat) (found : Arr)
  | ub

/-- The result of the loop over a list: the package, the number found and the array. -/
inductive LRes where
  | done (pkg : Ops) (nops : Nat) (found : Arr)
  | ub

/-- The result of the loop over a matrix. -/
inductive PRes where
  | done (pkg : Pairs) (nops : Nat) (found : Arr)
  | ub

/-- Copying what was found (src/ChainLoader.h:80-87, 115-121, 131-137), elements `p`, …, `p + m - 1` of arrays with
`cap` elements.  The test for the limit behind the assignment can only be true behind an access outside of the
arrays, so it is left out. -/
def copyFound (cap : Nat) (sop : Arr) : Nat → Nat → Arr → Option Arr
  | 0, _, found => some found
  | m + 1, p, found =>
    if p < cap then
      match sop p with
      | none => none
      | some x => copyFound cap sop m (p + 1) (found.put p (some x))
    else none

/-- `label`: with it only operators that carry the label match (src/ChainLoader.h:59-62). -/
def hit (sel : Option (Nat → Bool)) (id : Nat) : Bool :=
  match sel with
  | none => true
  | some m => m id

/-- The end of the search in a list (src/ChainLoader.h:91-98). -/
def endList (product : Bool) (found : Arr) : LRes → Res
  | .ub => .ub
  | .done pkg nops found' => if nops = 0 then .null 0 found else .got (.list product pkg) nops found'

/-- The end of the search in a matrix (src/ChainLoader.h:156-163). -/
def endMulti (found : Arr) : PRes → Res
  | .ub => .ub
  | .done pkg nops found' => if nops = 0 then .null 0 found else .got (.multi .nil pkg) nops found'

/-- Putting a part in front of the package (src/ChainLoader.h:79). -/
def LRes.add (row : Nat) (o : Op) : LRes → LRes
  | .ub => .ub
  | .done pkg n f => .done (.cons row o pkg) n f

/-- Putting elements into the package (src/ChainLoader.h:114, 130). -/
def PRes.add (i j : Nat) (o : Op) (up : Upper) : PRes → PRes
  | .ub => .ub
  | .done pkg n f => .done (.cons i j (.some o) up pkg) n f

mutual
/-- `FindOperatorType(O, found, n, label, index)` with `n = cap` (src/ChainLoader.h:48-168).  The arrays `found` and
`sop` have `cap` elements on all levels. -/
def find (sel : Option (Nat → Bool)) (cap : Nat) : Op → Arr → Nat → Res
  | .laser id, found, index =>
    if hit sel id = false then .null cap found
    else if index < cap then .got (.laser id) 1 (found.put index (some id)) else .ub
  | .other _, found, _ => .null 0 found
  | .list product parts, found, index => endList product found (findList sel cap parts (fun _ => none) found index 0)
  | .grid _, found, _ => .null 0 found
  | .multi _ pairs, found, index => endMulti found (findPairs sel cap pairs (fun _ => none) found index 0)

/-- The loop over the parts of a list (src/ChainLoader.h:75-90). -/
def findList (sel : Option (Nat → Bool)) (cap : Nat) : Ops → Arr → Arr → Nat → Nat → LRes
  | .nil, _, found, _, nops => .done .nil nops found
  | .cons row o rest, sop, found, index, nops =>
    match find sel cap o sop (index + nops) with
    | .ub => .ub
    | .null _ sop => findList sel cap rest sop found index nops
    | .got res max sop =>
      match copyFound cap sop max (index + nops) found with
      | none => .ub
      | some found => (findList sel cap rest sop found index (nops + max)).add row res

/-- The loops over the matrix (src/ChainLoader.h:108-155).  Without a label line 125 uses a null pointer. -/
def findPairs (sel : Option (Nat → Bool)) (cap : Nat) : Pairs → Arr → Arr → Nat → Nat → PRes
  | .nil, _, found, _, nops => .done .nil nops found
  | .cons _ _ .none _ rest, sop, found, index, nops => findPairs sel cap rest sop found index nops
  | .cons i j (.some low) .none rest, sop, found, index, nops =>
    match find sel cap low sop (index + nops) with
    | .ub => .ub
    | .null _ sop => findPairs sel cap rest sop found index nops
    | .got res max sop =>
      match copyFound cap sop max (index + nops) found with
      | none => .ub
      | some found => (findPairs sel cap rest sop found index (nops + max)).add i j res .none
  | .cons i j (.some low) .same rest, sop, found, index, nops =>
    match find sel cap low sop (index + nops) with
    | .ub => .ub
    | .null _ sop => findPairs sel cap rest sop found index nops
    | .got res max sop =>
      match copyFound cap sop max (index + nops) found with
      | none => .ub
      | some found => (findPairs sel cap rest sop found index (nops + max)).add i j res .none
  | .cons i j (.some low) (.other u) rest, sop, found, index, nops =>
    match find sel cap low sop (index + nops) with
    | .ub => .ub
    | .null _ sop => findPairs sel cap rest sop found index nops
    | .got res max sop =>
      match copyFound cap sop max (index + nops) found with
      | none => .ub
      | some found =>
        if sel.isNone then .ub
        else match find sel cap u sop (index + (nops + max)) with
          | .ub => .ub
          | .null _ sop => (findPairs sel cap rest sop found index (nops + max)).add i j res .none
          | .got res2 max2 sop =>
            match copyFound cap sop max2 (index + (nops + max)) found with
            | none => .ub
            | some found => (findPairs sel cap rest sop found index (nops + max + max2)).add i j res (.other res2)
end

/-! ### What the operators do -/

/-- No row has elements at both sides of the diagonal, so the matrix counts as symmetric (src/qdlib/OMultistate.cpp:52-53). -/
def Pairs.oneSided : Pairs → Bool
  | .nil => true
  | .cons _ _ (.some _) .none rest => rest.oneSided
  | .cons _ _ .none _ rest => rest.oneSided
  | .cons _ _ (.some _) _ _ => false

/-- `Init(Psi)` of the package: the elements are copied to the other side (src/qdlib/OMultistate.cpp:122-132). -/
def Pairs.mirror : Pairs → Pairs
  | .nil => .nil
  | .cons i j (.some o) .none rest => .cons i j (.some o) .same rest.mirror
  | .cons i j low up rest => .cons i j low up rest.mirror

/-- The matrix of the package behind `Init(Psi)` (src/ProgOCT.cpp:963). -/
def Pairs.ready (p : Pairs) : Pairs := if p.oneSided then p.mirror else p

section
variable {A : Type} [Ring A] [Algebra ℝ A]

/-- What operators are made of: the dipole operators of the laser operators (`ApplyParent`), the other operators, and
an operator at a place of a matrix. -/
structure World (A : Type) [Ring A] [Algebra ℝ A] where
  mu : Nat → A
  oth : Nat → A
  emb : Nat → Nat → A →ₗ[ℝ] A

mutual
/-- `Apply` with the field values `E` (src/qdlib/OGridDipole.cpp:47-50, src/qdlib/OSum.cpp:53-60,
src/qdlib/OProduct.cpp:54-61, src/qdlib/OMultistate.cpp:206-231). -/
def value (w : World A) (E : Nat → ℝ) : Op → A
  | .laser id => -(E id • w.mu id)
  | .other id => w.oth id
  | .list false parts => valueSum w E parts
  | .list true parts => valueProd w E parts
  | .grid parts => valueSum w E parts
  | .multi diag pairs => valueDiag w E diag + valuePairs w E pairs
/-- The sum of the parts (src/qdlib/OSum.cpp:53-60). -/
def valueSum (w : World A) (E : Nat → ℝ) : Ops → A
  | .nil => 0
  | .cons _ o rest => value w E o + valueSum w E rest
/-- The product of the parts, the last one is applied first (src/qdlib/OProduct.cpp:54-61). -/
def valueProd (w : World A) (E : Nat → ℝ) : Ops → A
  | .nil => 1
  | .cons _ o rest => value w E o * valueProd w E rest
/-- The elements on the diagonal (src/qdlib/OMultistate.cpp:222-227). -/
def valueDiag (w : World A) (E : Nat → ℝ) : Ops → A
  | .nil => 0
  | .cons row o rest => w.emb row row (value w E o) + valueDiag w E rest
/-- The elements off the diagonal (src/qdlib/OMultistate.cpp:222-227). -/
def valuePairs (w : World A) (E : Nat → ℝ) : Pairs → A
  | .nil => 0
  | .cons i j low up rest =>
    w.emb i j (valueEntry w E low) + valueUpper w E i j (valueEntry w E low) up + valuePairs w E rest
/-- An element (src/qdlib/OMultistate.cpp:222-227). -/
def valueEntry (w : World A) (E : Nat → ℝ) : Entry → A
  | .none => 0
  | .some o => value w E o
/-- An element at the other side (src/qdlib/OMultistate.cpp:222-227). -/
def valueUpper (w : World A) (E : Nat → ℝ) (i j : Nat) (low : A) : Upper → A
  | .none => 0
  | .same => w.emb j i low
  | .other o => w.emb j i (value w E o)
end

mutual
/-- `ApplyParent` (src/qdlib/OSum.cpp:78-92, src/qdlib/OProduct.cpp:69-76, src/qdlib/OMultistate.cpp:244-270), for an
operator behind `Init(Psi)`.  Operators without an `ApplyParent` of their own, among them sums on a grid, have the one of
src/qdlib/Operator.h:297-300; the search puts none of them into the operator it builds. -/
def parent (w : World A) : Op → A
  | .laser id => w.mu id
  | .other id => w.oth id
  | .list false parts => parentSum w parts
  | .list true parts => parentProd w parts
  | .grid parts => parentSum w parts
  | .multi diag pairs => parentDiag w diag + parentPairs w pairs
/-- The sum (src/qdlib/OSum.cpp:83-89). -/
def parentSum (w : World A) : Ops → A
  | .nil => 0
  | .cons _ o rest => parent w o + parentSum w rest
/-- The product (src/qdlib/OProduct.cpp:71-74). -/
def parentProd (w : World A) : Ops → A
  | .nil => 1
  | .cons _ o rest => parent w o * parentProd w rest
/-- The diagonal (src/qdlib/OMultistate.cpp:258-265). -/
def parentDiag (w : World A) : Ops → A
  | .nil => 0
  | .cons row o rest => w.emb row row (parent w o) + parentDiag w rest
/-- Off the diagonal (src/qdlib/OMultistate.cpp:258-265). -/
def parentPairs (w : World A) : Pairs → A
  | .nil => 0
  | .cons i j low up rest =>
    w.emb i j (parentEntry w low) + parentUpper w i j (parentEntry w low) up + parentPairs w rest
/-- An element (src/qdlib/OMultistate.cpp:258-265). -/
def parentEntry (w : World A) : Entry → A
  | .none => 0
  | .some o => parent w o
/-- An element at the other side (src/qdlib/OMultistate.cpp:258-265). -/
def parentUpper (w : World A) (i j : Nat) (low : A) : Upper → A
  | .none => 0
  | .same => w.emb j i low
  | .other o => w.emb j i (parent w o)
end

end

/-! ### The program -/

mutual
/-- `_Coup->Init(PsiI[0])` (src/ProgOCT.cpp:963, src/qdlib/OList.cpp:170-175, src/qdlib/OMultistate.cpp:99-142). -/
def initOp : Op → Op
  | .laser id => .laser id
  | .other id => .other id
  | .list p parts => .list p (initOps parts)
  | .grid parts => .grid (initOps parts)
  | .multi diag pairs => .multi (initOps diag) (initPairs pairs).ready
/-- The parts of a list (src/qdlib/OList.cpp:170-175). -/
def initOps : Ops → Ops
  | .nil => .nil
  | .cons row o rest => .cons row (initOp o) (initOps rest)
/-- The elements of a matrix (src/qdlib/OMultistate.cpp:122-141). -/
def initPairs : Pairs → Pairs
  | .nil => .nil
  | .cons i j low up rest => .cons i j (initEntry low) (initUpper up) (initPairs rest)
/-- An element (src/qdlib/OMultistate.cpp:128). -/
def initEntry : Entry → Entry
  | .none => .none
  | .some o => .some (initOp o)
/-- An element of the upper triangle (src/qdlib/OMultistate.cpp:138). -/
def initUpper : Upper → Upper
  | .none => .none
  | .same => .same
  | .other o => .other (initOp o)
end

/-- `MAX_LASERS` (src/ProgOCT.h:20). -/
def maxLasers : Nat := 16

/-- How the search for the lasers ends: the coupling operator and the lasers, an exception, or undefined behaviour. -/
inductive Outcome where
  | lasers (coup : Op) (ids : List Nat)
  | threw
  | ub

/-- Reading the first `n` pointers (src/ProgOCT.cpp:936-940). -/
def readFound (found : Arr) : Nat → Nat → Option (List Nat)
  | 0, _ => some []
  | n + 1, p =>
    match found p with
    | none => none
    | some x => (readFound found n (p + 1)).map (x :: ·)

/-- Using the lasers found (src/ProgOCT.cpp:934-942, 955-963). -/
def useFound (coup : Op) (n : Nat) (found : Arr) : Outcome :=
  match readFound found n 0 with
  | none => .ub
  | some ids => .lasers (initOp coup) ids

/-- The second search, without label (src/ProgOCT.cpp:926-930, 935, 948-949). -/
def searchAll (H : Op) : Outcome :=
  match find none maxLasers H (fun _ => none) 0 with
  | .ub => .ub
  | .null n _ => if n = 0 then .threw else .ub
  | .got coup n found => useFound coup n found

/-- The search for the laser operators of a Hamiltonian (src/ProgOCT.cpp:915-963); `marked` are the operators with the
label OptLaser. -/
def search (marked : Nat → Bool) (H : Op) : Outcome :=
  match find (some marked) maxLasers H (fun _ => none) 0 with
  | .ub => .ub
  | .null n _ => if n = 0 then searchAll H else .ub
  | .got coup n found => useFound coup n found

end QDng.Coupling
