import Verif.Gmc.Props

/-
Concrete cases for the hypotheses of C261-C264.
-/

namespace QDng.Gmc

open QDng.Grid QDng.Deriv QDng.Common QDng.Stencil QDng.Absorb

/-- A square grid of eight by eight points. -/
@[reducible] noncomputable def square : Space := { d := 2, axes := fun _ => { n := 8, xmin := 0, xmax := 7 } }

theorem square_ok : square.Ok := fun _ => ⟨by show 2 ≤ 8; decide, by show (0 : ℝ) < 7; norm_num⟩

/-- A constant diagonal matrix given on the grid. -/
noncomputable def diagonal : GMat square :=
  { low := fun i j => .grid (fun _ => if i = j then 2 else 0), coup := true }

/-- The plane wave along the first dimension. -/
noncomputable def moving : square.Pt := fun (i : Fin 2) => if i = (0 : Fin 2) then (1 : Fin 8) else (0 : Fin 8)

/-- A point at the edge of the grid. -/
noncomputable def corner : square.Pt := fun _ => (0 : Fin 8)

/-- A point inside of the grid. -/
noncomputable def inside : square.Pt := fun _ => (3 : Fin 8)

/-- C261: the formula applies with the default order of the differences. -/
example : ∃ gd, initDiff diagonal 8 = .val gd ∧ ∀ (l : Option (Fin square.d → Layer)) (ψ : square.Wf),
    ∃ r, (Op.mk diagonal true gd l).apply ψ = .val r ∧ ∀ p, r p =
      -(1 / 2) * ∑ i, ∑ j, (((fdDeriv 8 j (sym diagonal.low i j) p : ℝ) : ℂ) * D square i ψ p +
        (sym diagonal.low i j p : ℂ) * D square j (D square i ψ) p) :=
  C261_formula_partial square_ok diagonal rfl (fun i j _ => if i = j then 2 else 0) (fun _ _ _ => rfl) 8
    (by decide) (fun _ => le_refl 8) (fun i => D square i) (fun i => D_isDerivative square_ok i)

/-- C261: both forms agree inside of the grid, for all wave functions. -/
example (ψ : square.Wf) : ∃ gd, initDiff diagonal 4 = .val gd ∧
    ∃ r, (Op.mk diagonal true gd none).apply ψ = .val r ∧ r inside = diagonal.apply ψ inside :=
  C261_interior_partial square_ok diagonal rfl (fun i j => if i = j then 2 else 0)
    (fun i j => by simp only [eq_comm]) (fun _ _ => rfl)
    4 (by decide) (by decide) ψ inside (fun _ => by show 4 / 2 ≤ 3 ∧ 3 + 4 / 2 < 8; decide)

/-- C261: also for higher orders up to the rounding of the table. -/
example (ψ : square.Wf) : ∃ gd, initDiff diagonal 6 = .val gd ∧
    ∃ r, (Op.mk diagonal true gd none).apply ψ = .val r ∧
      ‖r inside - diagonal.apply ψ inside‖ ≤ 1 / 10 ^ 19 * ∑ i : Fin square.d, ∑ j : Fin square.d,
        |if i = j then (2 : ℝ) else 0| / spacing square j * ‖D square i ψ inside‖ :=
  C261_interior_near_partial square_ok diagonal rfl (fun i j => if i = j then 2 else 0)
    (fun i j => by simp only [eq_comm]) (fun _ _ => rfl)
    6 (by decide) (fun i => D square i) (fun i => D_isDerivative square_ok i) ψ inside
    (fun _ => by show 6 / 2 ≤ 3 ∧ 3 + 6 / 2 < 8; decide)

/-- C261: the results differ at the edge. -/
example : ∃ gd, initDiff diagonal 8 = .val gd ∧
    ∃ r, (Op.mk diagonal true gd none).apply (wave square moving) = .val r ∧
      r corner ≠ diagonal.apply (wave square moving) corner :=
  C261_violated_edge square_ok diagonal rfl 2 (by norm_num) (fun _ _ => rfl) 8 (by decide)
    (fun _ => le_refl 8) (0 : Fin 2) moving corner (by decide)
    (fun i hi => by
      show ((if (show Fin 2 from i) = (0 : Fin 2) then (1 : Fin 8) else (0 : Fin 8) : Fin 8) : ℕ) = 0
      rw [if_neg hi]; rfl) rfl

/-- C261: a diagonal matrix of constants, with the element outside of the diagonal not used. -/
example : initDiff (s := square)
    { low := fun i j => if i = j then .const 1 else .none, coup := true } 8 = .ub :=
  C261_violated_mixed _ (1 : Fin 2) (0 : Fin 2) (by decide)
    (Or.inr (fun g => by
      show (if (1 : Fin 2) = 0 then (.const 1 : Elem square) else .none) ≠ _
      simp)) 8 (by decide)

/-- A grid of one dimension. -/
@[reducible] noncomputable def segment : Space := { d := 1, axes := fun _ => { n := 8, xmin := 0, xmax := 7 } }

/-- C261: a constant in one dimension; the set-up works, the operator does not. -/
example : ∃ gd, initDiff (s := segment) { low := fun _ _ => .const 1, coup := true } 8 = .val gd ∧
    ∀ l ψ, (Op.mk { low := fun _ _ => .const 1, coup := true } true gd l).apply ψ = .ub :=
  C261_violated_constant_single (fun i j => Subsingleton.elim (α := Fin 1) i j) (0 : Fin 1) _
    (fun g => by simp) 8 (by decide)

/-- Layers of one point at the left edges. -/
noncomputable def thin : Fin square.d → Layer := fun _ => { thick := 1, side := 1, f1 := fun _ => 1 / 2 }

theorem thin_factor : (thin (0 : Fin 2)).factor false (square.axes (0 : Fin 2)).n (corner (0 : Fin 2)) = 1 / 2 := by
  simp [Layer.factor, thin, corner]

/-- C263: the results differ in the layer. -/
example : ∃ r r',
    (Op.mk (single (s := square) (0 : Fin 2) (.const 1) true) false (fun _ _ => none) (some thin)).apply
      (wave square moving) = .val r ∧
    (Op.mk (single (s := square) (0 : Fin 2) (.grid fun _ => 1) true) false (fun _ _ => none)
      (some thin)).apply (wave square moving) = .val r' ∧ r corner ≠ r' corner :=
  C263_violated_layer square_ok (0 : Fin 2) 1 one_ne_zero true _ _ thin moving corner (by decide)
    (by rw [thin_factor]; norm_num) (by rw [thin_factor]; norm_num)

/-- C263: without layers a number and a function give the same operator. -/
example (ψ : square.Wf) :
    (Op.mk (single (s := square) (0 : Fin 2) (.const 1) true) false (fun _ _ => none) none).apply ψ =
      (Op.mk (single (s := square) (0 : Fin 2) (.grid fun _ => 1) true) false (fun _ _ => none) none).apply ψ :=
  C263_same_partial square_ok (single (s := square) (0 : Fin 2) (.const 1) true)
    (single (s := square) (0 : Fin 2) (.grid fun _ => 1) true) rfl
    (fun i j p _ => by unfold single; dsimp only; split_ifs <;> rfl) _ _ ψ

/-- C264: copying an initialised operator in two dimensions works, applying the copy does not. -/
example : ∃ c, (Obj.new 2).init.copy = .val c ∧ c.init.apply = .ub :=
  ⟨{ size := 2, wf := true, buf := true, buf1 := false }, by decide, by decide⟩

end QDng.Gmc
