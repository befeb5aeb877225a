import Verif.GridFn.Lemmas
import Verif.Deriv.KinProps

/-
Properties of the position operator and of the potential.
-/

namespace QDng.GridFn

open QDng.Common QDng.Deriv

/-! ### Position -/

/-- The coordinate of the dimension with number `dim`, or the sum of all coordinates. -/
noncomputable def chosen (s : Space) (dim : Option Int) (p : s.Pt) : ℝ :=
  match dim with
  | none => ∑ i, coord s p i
  | some n => ∑ i : Fin s.d, if ((i : Nat) : Int) = n then coord s p i else 0

/-- **C155.**  The position operator multiplies with the coordinate of the chosen dimension, or with
the sum of all coordinates, times the scale. -/
theorem C155_position {s : Space} (dim : Option Int) (scale : Option ℝ)
    (hdim : ∀ n, dim = some n → 0 ≤ n ∧ n < s.d) :
    ∃ o o' v, (Position.new s).params dim scale = .ok o ∧ o.init = .ok o' ∧ o'.vals = some v ∧
      ∀ (ψ : s.Wf) p, applyReal v ψ p =
        ((scale.getD 1 * chosen s dim p : ℝ) : ℂ) * ψ p := by
  rcases dim with _ | n
  · have hi : ({ dim := -1, scale := scale.getD 1, vals := none } : Position s).init =
        .ok { dim := -1, scale := scale.getD 1, vals := some ((List.finRange s.d).foldl (fun v i => addCoord s (scale.getD 1) i v) (fun _ => 0)) } := by
      unfold Position.init
      simp only []
      rw [dif_neg (by omega), dif_pos (by decide)]
    refine ⟨_, _, _, rfl, hi, rfl, fun ψ p => ?_⟩
    · unfold applyReal
      rw [addCoord_fold, zero_add, ← Fin.sum_univ_def, ← Finset.mul_sum, mul_comm]
      rfl
  · obtain ⟨h0, h1⟩ := hdim n rfl
    have hp : (Position.new s).params (some n) scale
        = .ok { dim := n, scale := scale.getD 1, vals := none } := by
      unfold Position.params
      simp only [if_neg (not_lt.2 h0)]
      rfl
    rw [hp]
    have hi : ({ dim := n, scale := scale.getD 1, vals := none } : Position s).init =
        .ok { dim := n, scale := scale.getD 1, vals := some (addCoord s (scale.getD 1) ⟨n.toNat, by omega⟩ (fun _ => 0)) } := by
      unfold Position.init
      simp only []
      rw [dif_neg (by omega), dif_neg (by omega)]
    refine ⟨_, _, _, rfl, hi, rfl, fun ψ p => ?_⟩
    · unfold applyReal
      rw [addCoord_eq, zero_add, mul_comm]
      congr 3
      unfold chosen
      simp only []
      rw [Finset.sum_eq_single (⟨n.toNat, by omega⟩ : Fin s.d)]
      · rw [if_pos (by show ((n.toNat : Nat) : Int) = n; omega)]
      · intro b _ hb
        rw [if_neg]
        intro hbn
        apply hb
        apply Fin.ext
        show (b : Nat) = n.toNat
        omega
      · intro h; exact absurd (Finset.mem_univ _) h

/-- The hypothesis holds for the second of two dimensions. -/
example : ∀ n, some (1 : Int) = some n → 0 ≤ n ∧ n < square.d := by
  intro n h
  have : n = 1 := by simpa using h.symm
  rw [this]
  show (0 : Int) ≤ 1 ∧ (1 : Int) < ((2 : Nat) : Int)
  omega

theorem coord_range {s : Space} (h : s.Ok) (i : Fin s.d) (p : s.Pt) :
    (s.axes i).xmin ≤ coord s p i ∧ coord s p i ≤ (s.axes i).xmax := by
  have hsp := spacing_pos h i
  have hn : (2 : ℝ) ≤ (s.axes i).n := by exact_mod_cast (h i).1
  have hx : ((s.axes i).n - 1 : ℝ) * spacing s i = (s.axes i).xmax - (s.axes i).xmin := by
    unfold spacing
    have : ((s.axes i).n : ℝ) - 1 ≠ 0 := by linarith
    field_simp
  have hp : (((p i : Fin _) : Nat) : ℝ) ≤ (s.axes i).n - 1 := by
    have := (p i).2
    have h2 : (((p i : Fin _) : Nat) : ℝ) + 1 ≤ (s.axes i).n := by exact_mod_cast this
    linarith
  unfold coord
  constructor
  · have : 0 ≤ (((p i : Fin _) : Nat) : ℝ) * spacing s i := by positivity
    linarith
  · have : (((p i : Fin _) : Nat) : ℝ) * spacing s i ≤ ((s.axes i).n - 1) * spacing s i :=
      mul_le_mul_of_nonneg_right hp hsp.le
    linarith

/-- **C156.**  With a dimension and without scale `Emin` and `Emax` bound the values of the position
operator.  Missing: other scales (`C156_scale_violated`), all dimensions (`C156_sum_violated`) and
copies (`C156_copy_violated`). -/
theorem C156_bounds_partial {s : Space} (h : s.Ok) (n : Int) (h0 : 0 ≤ n) (h1 : n < s.d) :
    ∃ o o' v a b, (Position.new s).params (some n) none = .ok o ∧ o.init = .ok o' ∧
      o'.vals = some v ∧ o'.emin = .val a ∧ o'.emax = .val b ∧ ∀ p, a ≤ v p ∧ v p ≤ b := by
  have hp : (Position.new s).params (some n) none = .ok { dim := n, scale := 1, vals := none } := by
    unfold Position.params
    simp only [if_neg (not_lt.2 h0)]
    rfl
  have hi : ({ dim := n, scale := 1, vals := none } : Position s).init =
      .ok { dim := n, scale := 1, vals := some (addCoord s 1 ⟨n.toNat, by omega⟩ (fun _ => 0)) } := by
    unfold Position.init
    simp only []
    rw [dif_neg (by omega), dif_neg (by omega)]
  refine ⟨_, _, _, (s.axes ⟨n.toNat, by omega⟩).xmin, (s.axes ⟨n.toNat, by omega⟩).xmax, hp, hi, rfl,
    ?_, ?_, fun p => ?_⟩
  · unfold Position.emin axisAt
    simp only [dif_pos (show 0 ≤ n ∧ n < s.d from ⟨h0, h1⟩)]
  · unfold Position.emax axisAt
    simp only [dif_pos (show 0 ≤ n ∧ n < s.d from ⟨h0, h1⟩)]
  · rw [addCoord_eq, zero_add, one_mul]
    exact coord_range h _ p

/-- The hypotheses hold for the second of two dimensions. -/
example : square.Ok ∧ (1 : Int) < square.d := by
  refine ⟨square_ok, ?_⟩
  show (1 : Int) < ((2 : Nat) : Int)
  omega

/-- **C156.**  With a scale the operator has values above `Emax`. -/
theorem C156_scale_violated : ∃ o o' v b, (Position.new square).params (some 0) (some 2) = .ok o ∧
    o.init = .ok o' ∧ o'.vals = some v ∧ o'.emax = .val b ∧ ∃ p, b < v p := by
  refine ⟨_, ⟨0, 2, some (addCoord square 2 0 (fun _ => 0))⟩, _, 3, rfl, rfl, rfl, rfl, fun _ => 3, ?_⟩
  rw [addCoord_eq]
  have : spacing square 0 = 1 := by
    unfold spacing; show ((3 : ℝ) - 0) / ((4 : Nat) - 1) = 1; norm_num
  unfold coord
  rw [this]
  show (3 : ℝ) < 0 + 2 * (0 + ((3 : Nat) : ℝ) * 1)
  norm_num

/-- **C156.**  Without a dimension, the default, `Emax` and `Emin` access a dimension that does not
exist. -/
theorem C156_sum_violated {s : Space} (scale : Option ℝ) :
    ∃ o o', (Position.new s).params none scale = .ok o ∧ o.init = .ok o' ∧ o'.emax = .ub ∧
      o'.emin = .ub := by
  have hi : ({ dim := -1, scale := scale.getD 1, vals := none } : Position s).init =
      .ok { dim := -1, scale := scale.getD 1, vals := some ((List.finRange s.d).foldl (fun v i => addCoord s (scale.getD 1) i v) (fun _ => 0)) } := by
    unfold Position.init
    simp only []
    rw [dif_neg (by omega), dif_pos (by decide)]
  refine ⟨_, _, rfl, hi, ?_, ?_⟩
  · unfold Position.emax axisAt
    simp
  · unfold Position.emin axisAt
    simp

/-- **C156.**  A copy of a position operator acts like the original, but its bounds are undefined. -/
theorem C156_copy_violated {s : Space} (o : Position s) :
    ((Position.new s).copy o).vals = o.vals ∧ ((Position.new s).copy o).emax = .ub := by
  refine ⟨rfl, ?_⟩
  unfold Position.emax Position.copy Position.new axisAt
  rcases o.vals with _ | v <;> simp

/-- **C152.**  A dimension outside of the grid is refused, but the second attempt to initialise the
same operator succeeds and leaves the zero operator. -/
theorem C152_position_violated {s : Space} (n : Int) (hn : s.d ≤ n) :
    ∃ o o', (Position.new s).params (some n) none = .ok o ∧ o.init = .threw o' ∧ o'.init = .ok o' ∧
      ∃ v, o'.vals = some v ∧ ∀ (ψ : s.Wf) p, applyReal v ψ p = 0 := by
  have hp : (Position.new s).params (some n) none = .ok { dim := n, scale := 1, vals := none } := by
    unfold Position.params
    simp only [if_neg (show ¬ n < 0 by omega)]
    rfl
  refine ⟨_, { dim := n, scale := 1, vals := some (fun _ => 0) }, hp, ?_, rfl, _, rfl, fun ψ p => ?_⟩
  · unfold Position.init
    simp only []
    rw [dif_pos (by omega)]
  · unfold applyReal
    simp

/-- The hypothesis holds for the third of two dimensions. -/
example : (square.d : Int) ≤ 2 := by
  show ((2 : Nat) : Int) ≤ 2
  omega

/-! ### Potential -/

/-- The smallest value. -/
def IsMin {s : Space} (v : s.Pt → ℝ) (m : ℝ) : Prop := (∃ p, v p = m) ∧ ∀ p, m ≤ v p

/-- The largest value. -/
def IsMax {s : Space} (v : s.Pt → ℝ) (m : ℝ) : Prop := (∃ p, v p = m) ∧ ∀ p, v p ≤ m

/-- **C157.**  The modifiers of a potential are carried out in the documented order: the minimum is
set to zero, then the offset is added, then the result is scaled. -/
theorem C157_modifiers {s : Space} (setzero : Bool) (offset scale : ℝ) (v : s.Pt → ℝ) (m : ℝ)
    (hm : IsMin v m) (p : s.Pt) :
    potModify setzero offset scale v p = ((v p - if setzero then m else 0) + offset) * scale := by
  have hmin : vecMin v = m := by
    obtain ⟨⟨q, hq⟩, hall⟩ := hm
    apply le_antisymm
    · rw [← hq]; exact vecMin_le v q
    · have : Nonempty s.Pt := ⟨q⟩
      exact le_ciInf hall
  unfold potModify
  rw [hmin]
  by_cases h1 : setzero = true <;> by_cases h2 : offset = 0 <;> by_cases h3 : scale = 1 <;>
    simp [h1, h2, h3]

/-- **C157.**  With `setzero` and nothing else the smallest value of the potential is zero. -/
theorem C157_setzero {s : Space} (v : s.Pt → ℝ) (m : ℝ) (hm : IsMin v m) :
    IsMin (potModify true 0 1 v) 0 := by
  obtain ⟨⟨q, hq⟩, hall⟩ := hm
  refine ⟨⟨q, ?_⟩, fun p => ?_⟩
  · rw [C157_modifiers true 0 1 v m ⟨⟨q, hq⟩, hall⟩]; simp [hq]
  · rw [C157_modifiers true 0 1 v m ⟨⟨q, hq⟩, hall⟩]
    have := hall p
    simp only [if_true]
    linarith

/-- Each potential on a grid has a smallest value. -/
example (v : square.Pt → ℝ) : ∃ m, IsMin v m :=
  ⟨_, vecMin_mem square_ok v, vecMin_le v⟩

/-- **C158.**  `Emin` and `Emax` of a potential are its smallest and largest value, and every expectation
value of a normalised wave function lies between them. -/
theorem C158_bounds {s : Space} (h : s.Ok) (v : s.Pt → ℝ) :
    IsMin v (potEmin v) ∧ IsMax v (potEmax v) ∧
      (∀ ψ : s.Wf, scal s ψ ψ = 1 →
        potEmin v ≤ (scal s ψ (potApply v ψ)).re ∧ (scal s ψ (potApply v ψ)).re ≤ potEmax v ∧
          (scal s ψ (potApply v ψ)).im = 0) ∧
      (∀ φ ψ : s.Wf, scal s φ (potApply v ψ) = scal s (potApply v φ) ψ) ∧
      ∀ out ψ : s.Wf, potApplyAdd v out ψ = out + potApply v ψ := by
  refine ⟨⟨vecMin_mem h v, vecMin_le v⟩, ⟨vecMax_mem h v, le_vecMax v⟩, fun ψ hψ => ?_,
    fun φ ψ => ?_, fun _ _ => rfl⟩
  · have h1 : scal s ψ (potApply v ψ) = ((cell s * ∑ p, v p * ‖ψ p‖ ^ 2 : ℝ) : ℂ) := by
      unfold scal cell
      rw [Complex.ofReal_mul, Complex.ofReal_sum]
      congr 1
      refine Finset.sum_congr rfl (fun p _ => ?_)
      unfold potApply
      rw [Complex.ofReal_mul, Complex.ofReal_pow, ← Complex.conj_mul']
      ring
    have h2 : cell s * ∑ p, ‖ψ p‖ ^ 2 = 1 := by
      have : scal s ψ ψ = ((cell s * ∑ p, ‖ψ p‖ ^ 2 : ℝ) : ℂ) := by
        unfold scal cell
        rw [Complex.ofReal_mul, Complex.ofReal_sum]
        congr 1
        refine Finset.sum_congr rfl (fun p _ => ?_)
        rw [Complex.ofReal_pow, ← Complex.conj_mul']
      rw [hψ] at this
      exact_mod_cast this.symm
    have hc := cell_pos h
    rw [h1, Complex.ofReal_re, Complex.ofReal_im]
    refine ⟨?_, ?_, rfl⟩
    · calc potEmin v = potEmin v * (cell s * ∑ p, ‖ψ p‖ ^ 2) := by rw [h2, mul_one]
        _ = cell s * ∑ p, potEmin v * ‖ψ p‖ ^ 2 := by rw [Finset.mul_sum, Finset.mul_sum, Finset.mul_sum]; exact Finset.sum_congr rfl (fun p _ => by ring)
        _ ≤ _ := mul_le_mul_of_nonneg_left (Finset.sum_le_sum fun p _ =>
            mul_le_mul_of_nonneg_right (vecMin_le v p) (by positivity)) hc.le
    · calc cell s * ∑ p, v p * ‖ψ p‖ ^ 2 ≤ cell s * ∑ p, potEmax v * ‖ψ p‖ ^ 2 :=
            mul_le_mul_of_nonneg_left (Finset.sum_le_sum fun p _ =>
              mul_le_mul_of_nonneg_right (le_vecMax v p) (by positivity)) hc.le
        _ = potEmax v * (cell s * ∑ p, ‖ψ p‖ ^ 2) := by rw [Finset.mul_sum, Finset.mul_sum, Finset.mul_sum]; exact Finset.sum_congr rfl (fun p _ => by ring)
        _ = potEmax v := by rw [h2, mul_one]
  · unfold scal potApply
    congr 1
    refine Finset.sum_congr rfl (fun p _ => ?_)
    rw [map_mul, Complex.conj_ofReal]
    ring

/-- The hypotheses hold: there is a normalised wave function on a grid. -/
example : square.Ok ∧ ∃ ψ : square.Wf, scal square ψ ψ = 1 := by
  refine ⟨square_ok, fun p => if p = (fun _ => 0) then 1 else 0, ?_⟩
  unfold scal
  have hs : (∏ i, spacing square i) = 1 := by
    refine Finset.prod_eq_one (fun i _ => ?_)
    unfold spacing; show ((3 : ℝ) - 0) / ((4 : Nat) - 1) = 1; norm_num
  rw [hs]
  simp

end QDng.GridFn
