import Verif.Gmc.Model
import Verif.Gmc.Spec
import Verif.Deriv.GProps
import Mathlib.Tactic.FinCases
import Mathlib.Tactic.NormNum

namespace QDng.Gmc

open QDng.Grid QDng.Deriv QDng.Common QDng.Stencil QDng.Absorb

/-! ### Loops -/

theorem loopA_add {s : Space} {I : Type} (f : s.Wf → I → Ans s.Wf) (g : I → s.Wf)
    (hf : ∀ a i, f a i = .val (a + g i)) (l : List I) (a : s.Wf) :
    loopA f l a = .val (a + (l.map g).sum) := by
  induction l generalizing a with
  | nil => simp [loopA]
  | cons x xs ih =>
    rw [loopA, hf]
    dsimp only
    rw [ih, List.map_cons, List.sum_cons, add_assoc]

theorem loopA_fin {s : Space} {n : ℕ} (f : s.Wf → Fin n → Ans s.Wf) (g : Fin n → s.Wf)
    (hf : ∀ a i, f a i = .val (a + g i)) (a : s.Wf) :
    loopA f (List.finRange n) a = .val (a + ∑ i, g i) := by
  rw [loopA_add _ _ hf, ← List.ofFn_eq_map, List.sum_ofFn]

theorem loopA_ub {A I : Type} (f : A → I → Ans A) (x : I) (hx : ∀ a, f a x = .ub)
    (hf : ∀ a i, f a i ≠ .threw) (l : List I) (hl : x ∈ l) (a : A) : loopA f l a = .ub := by
  induction l generalizing a with
  | nil => simp at hl
  | cons y ys ih =>
    rw [loopA]
    by_cases e : x = y
    · subst e
      rw [hx]
    · have hm : x ∈ ys := by
        rcases List.mem_cons.1 hl with h | h
        · exact absurd h e
        · exact h
      cases hy : f a y with
      | val b => exact ih hm b
      | threw => exact absurd hy (hf a y)
      | ub => rfl

theorem loopA_not_threw {A I : Type} (f : A → I → Ans A) (hf : ∀ a i, f a i ≠ .threw) (l : List I)
    (a : A) : loopA f l a ≠ .threw := by
  induction l generalizing a with
  | nil => simp [loopA]
  | cons y ys ih =>
    rw [loopA]
    cases hy : f a y with
    | val b => exact ih b
    | threw => exact absurd hy (hf a y)
    | ub =>
      intro e
      cases e

/-! ### The derivative of the elements -/

theorem sumTo_range (f : ℕ → ℝ) (n : ℕ) : sumTo f n = ∑ k ∈ Finset.range n, f k := by
  induction n with
  | zero => rfl
  | succ n ih => rw [sumTo, ih, Finset.sum_range_succ]

theorem cf_weight (order m : ℕ) : (cf order).getD (order / 2 - m) 0 = weight order m := by
  unfold cf weight
  rw [List.getD_eq_getElem?_getD, List.getElem?_map]
  cases (table1.getD (order / 2 - 1) [])[order / 2 - m]? with
  | none => simp
  | some x => rfl

theorem extend_shifted {s : Space} (i : Fin s.d) (g : s.Pt → ℝ) (p : s.Pt) (m : ℤ) :
    extend false (s.axes i).n (line i g p) (((p i : ℕ) : ℤ) + m) = shifted g i p m := by
  unfold extend shifted
  by_cases h : 0 ≤ ((p i : ℕ) : ℤ) + m ∧ ((p i : ℕ) : ℤ) + m < (s.axes i).n
  · rw [if_pos h, dif_pos h]
    unfold line
    rw [dif_pos (by omega)]
  · rw [if_neg h, dif_neg h]
    rfl

theorem shifted_zero {s : Space} (i : Fin s.d) (g : s.Pt → ℝ) (p : s.Pt) : shifted g i p 0 = g p := by
  unfold shifted
  rw [dif_pos (by have := (p i).2; omega)]
  congr 1
  funext j
  by_cases hj : j = i
  · subst hj
    rw [Function.update_self]
    apply Fin.ext
    simp
  · rw [Function.update_of_ne hj]

theorem dx_spacing (s : Space) (i : Fin s.d) : (s.axes i).dx = spacing s i := rfl

theorem diffG_eq {s : Space} (order : ℕ) (i : Fin s.d) (g : s.Pt → ℝ) (p : s.Pt) :
    diffG order i g p = -(1 / 2) * fdDeriv order i g p := by
  unfold diffG fdDeriv central
  simp only [cf_weight, sumTo_range, dx_spacing]
  have h0 : extend false (s.axes i).n (line i g p) ((p i : ℕ) : ℤ) = g p := by
    have := extend_shifted i g p 0
    rw [add_zero] at this
    rw [this, shifted_zero]
  rw [h0]
  have h1 : ∀ m : ℕ, weight order (m + 1) *
      (extend false (s.axes i).n (line i g p) (((p i : ℕ) : ℤ) - ((m : ℤ) + 1)) +
        -1 * extend false (s.axes i).n (line i g p) (((p i : ℕ) : ℤ) + ((m : ℤ) + 1))) =
      weight order (m + 1) * (shifted g i p (-((m : ℤ) + 1)) - shifted g i p ((m : ℤ) + 1)) := by
    intro m
    rw [sub_eq_add_neg (((p i : ℕ) : ℤ)), extend_shifted, extend_shifted]
    ring
  rw [Finset.sum_congr rfl (fun m _ => h1 m)]
  ring

theorem fdDeriv_zero {s : Space} (order : ℕ) (i : Fin s.d) (p : s.Pt) :
    fdDeriv order i (fun _ => 0) p = 0 := by
  unfold fdDeriv shifted
  simp

/-! ### The set-up -/

theorem ptr_all {s : Space} (o : GMat s) (G : Fin s.d → Fin s.d → s.Pt → ℝ)
    (hG : ∀ i j, j ≤ i → o.low i j = .grid (G i j)) (hc : o.coup = true) (i j : Fin s.d) :
    ptr o i j = .at (sym o.low i j) := by
  unfold ptr
  by_cases h : j ≤ i
  · rw [if_pos h, hG i j h]
    dsimp only
    rw [if_pos (Or.inr hc)]
    congr 1
    funext p
    unfold sym
    rw [if_pos h, hG i j h]
    rfl
  · have h' : i ≤ j := le_of_not_ge h
    rw [if_neg h, hG j i h']
    dsimp only
    rw [if_pos (Or.inr hc)]
    congr 1
    funext p
    unfold sym
    rw [if_neg h, hG j i h']
    rfl

theorem initDiff_all {s : Space} (o : GMat s) (G : Fin s.d → Fin s.d → s.Pt → ℝ)
    (hG : ∀ i j, j ≤ i → o.low i j = .grid (G i j)) (hc : o.coup = true) (order : ℕ)
    (ho : checkSetup 1 (order : ℤ) = true) (hw : ∀ i, order ≤ (s.axes i).n) :
    initDiff o (order : ℤ) = .val (fun i j => some (diffG order i (sym o.low i j))) := by
  have he : ∀ i j, diffElem o ((order : ℤ).toNat) i j = .val (some (diffG order i (sym o.low i j))) := by
    intro i j
    unfold diffElem
    rw [ptr_all o G hG hc]
    dsimp only
    rw [Int.toNat_natCast, if_neg (by have := hw i; omega)]
  unfold initDiff
  rw [if_neg (by rw [ho]; simp), if_neg]
  · congr 1
    funext i j
    rw [he]
    rfl
  · rintro ⟨i, j, h⟩
    rw [he] at h
    cases h

/-! ### Sums over the lower triangle -/

theorem sum_lower {n : ℕ} (t : Fin n → Fin n → ℂ) (hs : ∀ i j, t i j = t j i) :
    (∑ i, ∑ j, if j ≤ i then (if i = j then t i i else 2 * t i j) else 0) = ∑ i, ∑ j, t i j := by
  have h1 : ∀ i j, t i j = (if j < i then t i j else 0) + (if i = j then t i i else 0) +
      (if i < j then t i j else 0) := by
    intro i j
    rcases lt_trichotomy i j with h | h | h
    · rw [if_neg (not_lt.2 h.le), if_neg h.ne, if_pos h]
      ring
    · subst h
      simp
    · rw [if_pos h, if_neg h.ne', if_neg (not_lt.2 h.le)]
      ring
  have h2 : ∀ i j, (if j ≤ i then (if i = j then t i i else 2 * t i j) else 0) =
      (if j < i then t i j else 0) + (if i = j then t i i else 0) + (if j < i then t i j else 0) := by
    intro i j
    rcases lt_trichotomy i j with h | h | h
    · simp [h.ne, not_lt.2 h.le, not_le.2 h]
    · subst h
      simp
    · simp only [if_pos h, if_neg h.ne', if_pos h.le]
      ring
  rw [Finset.sum_congr rfl (fun i _ => Finset.sum_congr rfl (fun j _ => h2 i j))]
  symm
  rw [Finset.sum_congr rfl (fun i _ => Finset.sum_congr rfl (fun j _ => h1 i j))]
  simp only [Finset.sum_add_distrib]
  congr 1
  rw [Finset.sum_comm]
  exact Finset.sum_congr rfl (fun i _ => Finset.sum_congr rfl (fun j _ => by rw [hs]))

theorem D_comm {s : Space} (h : s.Ok) (i j : Fin s.d) (ψ : s.Wf) : D s j (D s i ψ) = D s i (D s j ψ) := by
  refine Lin.ext h (A := fun ψ => D s j (D s i ψ)) (B := fun ψ => D s i (D s j ψ)) ?_ ?_ ?_ ψ
  · intro c φ χ
    simp only [lin_D s i c φ χ, lin_D s j c]
  · intro c φ χ
    simp only [lin_D s j c φ χ, lin_D s i c]
  · intro q
    simp only [D_E h, (lin_D s j).map_smul, (lin_D s i).map_smul, smul_smul]
    rw [mul_comm]

theorem sym_symm {s : Space} (low : Fin s.d → Fin s.d → Elem s) (i j : Fin s.d) :
    sym low i j = sym low j i := by
  funext p
  unfold sym
  by_cases h1 : j ≤ i
  · by_cases h2 : i ≤ j
    · rw [le_antisymm h1 h2]
    · rw [if_pos h1, if_neg h2]
  · rw [if_neg h1, if_pos (le_of_not_ge h1)]

/-! ### The operator with the chain rule -/

/-- The contribution of `i` and `j` to the operator with the chain rule. -/
noncomputable def chainPart {s : Space} (low : Fin s.d → Fin s.d → Elem s) (order : ℕ) (ψ : s.Wf)
    (i j : Fin s.d) : s.Wf := fun p =>
  (-(1 / 2) : ℂ) * ((fdDeriv order j (sym low i j) p : ℝ) : ℂ) * D s i ψ p +
    (if j ≤ i then (if i = j then (-(1 / 2) : ℂ) else -1) * (sym low i j p : ℂ) * D s j (D s i ψ) p
      else 0)

theorem chainTerm_eq {s : Space} (h : s.Ok) (o : GMat s) (G : Fin s.d → Fin s.d → s.Pt → ℝ)
    (hG : ∀ i j, j ≤ i → o.low i j = .grid (G i j)) (hc : o.coup = true) (order : ℕ)
    (l : Option (Fin s.d → Layer)) (ψ dest : s.Wf) (i j : Fin s.d) :
    (Op.mk o true (fun i j => some (diffG order i (sym o.low i j))) l).term i (dnDxn s i ψ 1) dest j =
      .val (dest + chainPart o.low order ψ i j) := by
  have hD : dnDxn s i ψ 1 = D s i ψ := rfl
  unfold Op.term
  rw [if_pos (Or.inr hc), if_pos rfl]
  unfold Op.chainTerm
  dsimp only
  by_cases hj : j ≤ i
  · rw [if_pos hj, ptr_all o G hG hc, hD, dnDxn_smul h]
    dsimp only
    congr 1
    funext p
    simp only [Pi.add_apply, Pi.smul_apply, smul_eq_mul, chainPart, if_pos hj]
    rw [diffG_eq, sym_symm o.low j i]
    by_cases e : i = j
    · rw [if_pos e, if_pos e]
      push_cast
      ring
    · rw [if_neg e, if_neg e]
      push_cast
      ring
  · rw [if_neg hj, hD]
    congr 1
    funext p
    simp only [Pi.add_apply, chainPart, if_neg hj]
    rw [diffG_eq, sym_symm o.low j i]
    push_cast
    ring

theorem chain_apply {s : Space} (h : s.Ok) (o : GMat s) (G : Fin s.d → Fin s.d → s.Pt → ℝ)
    (hG : ∀ i j, j ≤ i → o.low i j = .grid (G i j)) (hc : o.coup = true) (order : ℕ)
    (l : Option (Fin s.d → Layer)) (ψ : s.Wf) :
    (Op.mk o true (fun i j => some (diffG order i (sym o.low i j))) l).apply ψ =
      .val (∑ i, ∑ j, chainPart o.low order ψ i j) := by
  unfold Op.apply
  rw [loopA_fin _ (fun i => ∑ j, chainPart o.low order ψ i j), zero_add]
  intro a i
  unfold Op.row
  exact loopA_fin _ _ (fun a j => chainTerm_eq h o G hG hc order l ψ a i j) a

theorem chain_sum {s : Space} (h : s.Ok) (low : Fin s.d → Fin s.d → Elem s) (order : ℕ) (ψ : s.Wf)
    (p : s.Pt) : (∑ i, ∑ j, chainPart low order ψ i j) p =
      -(1 / 2) * ∑ i, ∑ j, (((fdDeriv order j (sym low i j) p : ℝ) : ℂ) * D s i ψ p +
        (sym low i j p : ℂ) * D s j (D s i ψ) p) := by
  rw [Finset.sum_apply]
  simp only [Finset.sum_apply, chainPart, Finset.sum_add_distrib, mul_add]
  congr 1
  · rw [Finset.mul_sum]
    refine Finset.sum_congr rfl (fun i _ => ?_)
    rw [Finset.mul_sum]
    exact Finset.sum_congr rfl (fun j _ => by ring)
  · rw [← sum_lower (fun i j => (sym low i j p : ℂ) * D s j (D s i ψ) p)
      (fun i j => by rw [sym_symm, D_comm h]), Finset.mul_sum]
    refine Finset.sum_congr rfl (fun i _ => ?_)
    rw [Finset.mul_sum]
    refine Finset.sum_congr rfl (fun j _ => ?_)
    by_cases hj : j ≤ i
    · rw [if_pos hj, if_pos hj]
      by_cases e : i = j
      · subst e
        rw [if_pos rfl, if_pos rfl]
        ring
      · rw [if_neg e, if_neg e]
        ring
    · rw [if_neg hj, if_neg hj, mul_zero]

/-! ### The table -/

/-- The weights as rational numbers. -/
def weightQ (order m : ℕ) : ℚ := ((table1.getD (order / 2 - 1) [])[order / 2 - m]?.map dec).getD 0

theorem table_edge : ∀ r ∈ List.range 25,
    0 < weightQ (2 * (r + 1)) 0 - ∑ m ∈ Finset.range (r + 1), weightQ (2 * (r + 1)) (m + 1) := by
  decide +kernel

theorem order_range (order : ℕ) (ho : checkSetup 1 (order : ℤ) = true) :
    order % 2 = 0 ∧ 2 ≤ order ∧ order ≤ 50 := by
  simp only [checkSetup, Bool.and_eq_true, Bool.not_eq_true', Bool.or_eq_false_iff,
    decide_eq_false_iff_not] at ho
  obtain ⟨⟨⟨h1, h2⟩, h3⟩, _⟩ := ho
  have h2' : (order : Int).tmod 2 = 0 := by
    by_cases e : (order : Int).tmod 2 = 0
    · exact e
    · exact absurd e h2
  have e : (order : Int).tmod 2 = ((order % 2 : Nat) : Int) := rfl
  rw [e] at h2'
  omega

theorem table_centre : ∀ r ∈ List.range 2, (table1.getD r [])[r + 1]? = some (0, 0) := by
  decide +kernel

theorem weight_centre (order : ℕ) (ho : checkSetup 1 (order : ℤ) = true) (h4 : order ≤ 4) :
    weight order 0 = 0 := by
  obtain ⟨h1, h2, h3⟩ := order_range order ho
  have h := table_centre (order / 2 - 1) (List.mem_range.2 (by omega))
  have e1 : order / 2 - 1 + 1 = order / 2 := by omega
  rw [e1] at h
  unfold weight
  rw [Nat.sub_zero, h]
  simp [dec]

theorem table_small : ∀ r ∈ List.range 25, weightQ (2 * (r + 1)) 0 ≤ 1 / 10 ^ 19 ∧
    -(1 / 10 ^ 19) ≤ weightQ (2 * (r + 1)) 0 := by
  decide +kernel

theorem weight_small (order : ℕ) (ho : checkSetup 1 (order : ℤ) = true) :
    |weight order 0| ≤ 1 / 10 ^ 19 := by
  obtain ⟨h1, h2, h3⟩ := order_range order ho
  have h := table_small (order / 2 - 1) (List.mem_range.2 (by omega))
  have e1 : 2 * (order / 2 - 1 + 1) = order := by omega
  rw [e1] at h
  have hw : weight order 0 = ((weightQ order 0 : ℚ) : ℝ) := rfl
  rw [hw, abs_le]
  constructor
  · have := h.2
    have : ((-(1 / 10 ^ 19) : ℚ) : ℝ) ≤ ((weightQ order 0 : ℚ) : ℝ) := by exact_mod_cast this
    push_cast at this
    exact this
  · have := h.1
    have : ((weightQ order 0 : ℚ) : ℝ) ≤ ((1 / 10 ^ 19 : ℚ) : ℝ) := by exact_mod_cast this
    push_cast at this
    exact this

theorem weight_edge (order : ℕ) (ho : checkSetup 1 (order : ℤ) = true) :
    0 < weight order 0 - ∑ m ∈ Finset.range (order / 2), weight order (m + 1) := by
  obtain ⟨h1, h2, h3⟩ := order_range order ho
  have h := table_edge (order / 2 - 1) (List.mem_range.2 (by omega))
  have e1 : 2 * (order / 2 - 1 + 1) = order := by omega
  have e2 : order / 2 - 1 + 1 = order / 2 := by omega
  rw [e1, e2] at h
  have hw : ∀ m, weight order m = ((weightQ order m : ℚ) : ℝ) := fun _ => rfl
  simp only [hw]
  exact_mod_cast h

/-- At the left edge the derivative of a constant is not zero. -/
theorem fdDeriv_edge {s : Space} (h : s.Ok) (order : ℕ) (ho : checkSetup 1 (order : ℤ) = true)
    (i : Fin s.d) (hw : order ≤ (s.axes i).n) (g : ℝ) (hg : g ≠ 0) (p : s.Pt) (hp : (p i : ℕ) = 0) :
    fdDeriv order i (fun _ => g) p ≠ 0 := by
  have hs := spacing_pos h i
  have he := weight_edge order ho
  unfold fdDeriv
  have h1 : ∀ m ∈ Finset.range (order / 2), weight order (m + 1) *
      (shifted (fun _ => g) i p (-((m : ℤ) + 1)) - shifted (fun _ => g) i p ((m : ℤ) + 1)) =
      -(weight order (m + 1) * g) := by
    intro m hm
    have hm' := Finset.mem_range.1 hm
    unfold shifted
    rw [dif_neg (by omega), dif_pos (by omega)]
    ring
  rw [Finset.sum_congr rfl h1, Finset.sum_neg_distrib, ← Finset.sum_mul]
  have : weight order 0 * g + -((∑ m ∈ Finset.range (order / 2), weight order (m + 1)) * g) =
      (weight order 0 - ∑ m ∈ Finset.range (order / 2), weight order (m + 1)) * g := by ring
  rw [this]
  exact div_ne_zero (mul_ne_zero he.ne' hg) hs.ne'

end QDng.Gmc
