import Verif.Grid.Spec

/-
Specification side of the finite difference and absorbing layer properties, independent of the
model.
-/

namespace QDng.Stencil

open QDng.Grid

/-- The values of a line of `n` points continued beyond both ends: with zeros, or periodically. -/
def extend {K : Type} [Zero K] (pbc : Bool) (n : Nat) (line : Nat → K) (x : Int) : K :=
  if 0 ≤ x ∧ x < n then line x.toNat
  else if pbc then line (x % n).toNat
  else 0

/-- A central difference stencil of half width `w` at the point `i`: `c 0` is the coefficient of the
point itself, `c m` belongs to the neighbours at distance `m`; `sgn` is the sign of the right
neighbours relative to the left ones. -/
def central {K : Type} [CommRing K] (w : Nat) (c : Nat → K) (sgn : K) (f : Int → K) (i : Int) : K :=
  c 0 * f i + sumTo (fun k => c (k + 1) * (f (i - (k + 1)) + sgn * f (i + (k + 1)))) w

/-- The factor of the absorbing layer at position `x` of a line of `n` points: with `b` the layer at
the begin and with `e` the layer at the end is active. -/
def layerFactor {K : Type} [CommMonoid K] (thick n : Nat) (f : Nat → K) (b e : Bool) (x : Nat) : K :=
  (if b = true ∧ x < thick then f x else 1) * (if e = true ∧ n - 1 - x < thick then f (n - 1 - x) else 1)

end QDng.Stencil
