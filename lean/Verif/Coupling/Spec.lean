import Verif.Coupling.Model

/-
What the search for laser operators is compared with: all laser operators of a Hamiltonian, and the Hamiltonians the
search is made for.
-/

namespace QDng.Coupling.Spec

mutual
/-- The laser operators in an operator, in the order of the input.  An object that is at both sides of the diagonal
counts once. -/
def lasers : Op → List Nat
  | .laser id => [id]
  | .other _ => []
  | .list _ parts => lasersIn parts
  | .grid parts => lasersIn parts
  | .multi diag pairs => lasersIn diag ++ lasersOff pairs
def lasersIn : Ops → List Nat
  | .nil => []
  | .cons _ o rest => lasers o ++ lasersIn rest
def lasersOff : Pairs → List Nat
  | .nil => []
  | .cons _ _ low up rest => lasersLow low ++ lasersUp up ++ lasersOff rest
def lasersLow : Entry → List Nat
  | .none => []
  | .some o => lasers o
def lasersUp : Upper → List Nat
  | .none => []
  | .same => []
  | .other o => lasers o
end

mutual
/-- Matrices are symmetric and have no lasers on the diagonal; there are no lasers in sums on a grid. -/
def Regular : Op → Prop
  | .laser _ => True
  | .other _ => True
  | .list _ parts => RegularIn parts
  | .grid parts => lasersIn parts = []
  | .multi diag pairs => lasersIn diag = [] ∧ RegularOff pairs
def RegularIn : Ops → Prop
  | .nil => True
  | .cons _ o rest => Regular o ∧ RegularIn rest
def RegularOff : Pairs → Prop
  | .nil => True
  | .cons _ _ low up rest => RegularPair low up ∧ RegularOff rest
def RegularPair : Entry → Upper → Prop
  | .none, .none => True
  | .some o, .same => Regular o
  | _, _ => False
end

mutual
/-- No laser operator is a factor of a product. -/
def NoFactor : Op → Prop
  | .laser _ => True
  | .other _ => True
  | .list true parts => lasersIn parts = []
  | .list false parts => NoFactorIn parts
  | .grid _ => True
  | .multi _ pairs => NoFactorOff pairs
def NoFactorIn : Ops → Prop
  | .nil => True
  | .cons _ o rest => NoFactor o ∧ NoFactorIn rest
def NoFactorOff : Pairs → Prop
  | .nil => True
  | .cons _ _ low _ rest => NoFactorLow low ∧ NoFactorOff rest
def NoFactorLow : Entry → Prop
  | .none => True
  | .some o => NoFactor o
end

/-- The lasers that are to be optimised: the ones with the label if there are any, otherwise all. -/
def chosen (marked : Nat → Bool) (H : Op) : List Nat :=
  if (lasers H).filter marked = [] then lasers H else (lasers H).filter marked

/-- Field values: the same value `e` for all lasers of a list, the others are as given. -/
def withField (ids : List Nat) (E : Nat → ℝ) (e : ℝ) : Nat → ℝ := fun id => if id ∈ ids then e else E id

end QDng.Coupling.Spec
