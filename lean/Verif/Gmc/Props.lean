import Verif.Gmc.Lemmas
import Verif.Absorb.Props

/-
Properties C261-C264: the kinetic energy with a G-matrix with the chain rule, with absorbing layers,
and its copies.
-/

namespace QDng.Gmc

open QDng.Grid QDng.Deriv QDng.Common QDng.Stencil QDng.Absorb

/-! ### C261: the chain rule -/

/-- **C261, partial.**  If all elements are functions on the grid, the kinetic coupling is on and the
order of the differences is allowed and not larger than the grid, then the set-up works and the
operator is `-1/2` times the sum of `(d_j G_ij) (d_i psi) + G_ij (d_j d_i psi)`, with the exact
derivative of the wave function and finite differences of the elements. -/
theorem C261_formula_partial {s : Space} (h : s.Ok) (o : GMat s) (hc : o.coup = true)
    (G : Fin s.d → Fin s.d → s.Pt → ℝ) (hG : ∀ i j, j ≤ i → o.low i j = .grid (G i j))
    (order : ℕ) (ho : checkSetup 1 (order : ℤ) = true) (hw : ∀ i, order ≤ (s.axes i).n)
    (Dx : Fin s.d → s.Wf → s.Wf) (hD : ∀ i, IsDerivative s i (Dx i)) :
    ∃ gd, initDiff o (order : ℤ) = .val gd ∧ ∀ (l : Option (Fin s.d → Layer)) (ψ : s.Wf),
      ∃ r, (Op.mk o true gd l).apply ψ = .val r ∧ ∀ p, r p =
        -(1 / 2) * ∑ i, ∑ j, (((fdDeriv order j (sym o.low i j) p : ℝ) : ℂ) * Dx i ψ p +
          (sym o.low i j p : ℂ) * Dx j (Dx i ψ) p) := by
  have hD' : ∀ i, Dx i = QDng.Deriv.D s i := fun i => isDerivative_eq h i (hD i)
  refine ⟨_, initDiff_all o G hG hc order ho hw, fun l ψ => ⟨_, chain_apply h o G hG hc order l ψ, ?_⟩⟩
  intro p
  rw [chain_sum h]
  simp only [hD']

/-- The operator without chain rule, point by point. -/
theorem direct_at {s : Space} (h : s.Ok) (o : GMat s) (hc : o.coup = true) (ψ : s.Wf) (p : s.Pt) :
    o.apply ψ p = -(1 / 2) * ∑ i, ∑ j, D s j (times (sym o.low i j) (D s i ψ)) p := by
  rw [o.apply_eq h]
  simp only [Finset.sum_apply, Pi.smul_apply, smul_eq_mul, Finset.mul_sum]
  refine Finset.sum_congr rfl (fun i _ => Finset.sum_congr rfl (fun j _ => ?_))
  rw [show o.mat i j = sym o.low i j from funext (fun p => by
    rw [o.mat_eq i j (Or.inr hc)])]

/-- **C261, partial.**  At every point where the derivatives that are used satisfy the product rule,
the operator with the chain rule gives the same value as the operator without it. -/
theorem C261_product_partial {s : Space} (h : s.Ok) (o : GMat s) (hc : o.coup = true)
    (G : Fin s.d → Fin s.d → s.Pt → ℝ) (hG : ∀ i j, j ≤ i → o.low i j = .grid (G i j))
    (order : ℕ) (ho : checkSetup 1 (order : ℤ) = true) (hw : ∀ i, order ≤ (s.axes i).n)
    (Dx : Fin s.d → s.Wf → s.Wf) (hD : ∀ i, IsDerivative s i (Dx i)) (ψ : s.Wf) (p : s.Pt)
    (hprod : ∀ i j, Dx j (times (sym o.low i j) (Dx i ψ)) p =
      ((fdDeriv order j (sym o.low i j) p : ℝ) : ℂ) * Dx i ψ p + (sym o.low i j p : ℂ) * Dx j (Dx i ψ) p) :
    ∃ gd, initDiff o (order : ℤ) = .val gd ∧ ∃ r, (Op.mk o true gd none).apply ψ = .val r ∧
      r p = o.apply ψ p := by
  obtain ⟨gd, h1, h2⟩ := C261_formula_partial h o hc G hG order ho hw Dx hD
  obtain ⟨r, h3, h4⟩ := h2 none ψ
  refine ⟨gd, h1, r, h3, ?_⟩
  have hD' : ∀ i, Dx i = QDng.Deriv.D s i := fun i => isDerivative_eq h i (hD i)
  rw [h4, direct_at h o hc]
  congr 1
  refine Finset.sum_congr rfl (fun i _ => Finset.sum_congr rfl (fun j _ => ?_))
  rw [← hprod i j]
  simp only [hD']

theorem times_const {s : Space} (c : ℝ) (ψ : s.Wf) : times (fun _ => c) ψ = (c : ℂ) • ψ := rfl

theorem fdDeriv_inner {s : Space} (order : ℕ) (i : Fin s.d)
    (g : ℝ) (p : s.Pt) (h1 : order / 2 ≤ (p i : ℕ)) (h2 : (p i : ℕ) + order / 2 < (s.axes i).n) :
    fdDeriv order i (fun _ => g) p = weight order 0 * g / spacing s i := by
  unfold fdDeriv
  rw [Finset.sum_eq_zero, add_zero]
  intro m hm
  have hm' := Finset.mem_range.1 hm
  unfold shifted
  rw [dif_pos (by omega), dif_pos (by omega)]
  ring

theorem sym_const {s : Space} (o : GMat s) (c : Fin s.d → Fin s.d → ℝ) (hs : ∀ i j, c i j = c j i)
    (hG : ∀ i j, o.low i j = .grid (fun _ => c i j)) (i j : Fin s.d) :
    sym o.low i j = fun _ => c i j := by
  funext p
  unfold sym
  by_cases hj : j ≤ i
  · rw [if_pos hj, hG]
    rfl
  · rw [if_neg hj, hG, hs i j]
    rfl

/-- **C261, partial.**  For constant elements and the orders 2 and 4 both forms agree for every wave
function at all points that are at least half the order away from the edges. -/
theorem C261_interior_partial {s : Space} (h : s.Ok) (o : GMat s) (hc : o.coup = true)
    (c : Fin s.d → Fin s.d → ℝ) (hs : ∀ i j, c i j = c j i)
    (hG : ∀ i j, o.low i j = .grid (fun _ => c i j))
    (order : ℕ) (ho : checkSetup 1 (order : ℤ) = true) (h4 : order ≤ 4) (ψ : s.Wf) (p : s.Pt)
    (hp : ∀ i, order / 2 ≤ (p i : ℕ) ∧ (p i : ℕ) + order / 2 < (s.axes i).n) :
    ∃ gd, initDiff o (order : ℤ) = .val gd ∧ ∃ r, (Op.mk o true gd none).apply ψ = .val r ∧
      r p = o.apply ψ p := by
  refine C261_product_partial h o hc (fun i j _ => c i j) (fun i j _ => hG i j) order ho
    (fun i => by have := hp i; have := (order_range order ho).1; omega) (fun i => D s i)
    (fun i => D_isDerivative h i) ψ p ?_
  intro i j
  rw [sym_const o c hs hG, fdDeriv_inner order j _ p (hp j).1 (hp j).2, weight_centre order ho h4,
    times_const, (lin_D s j).map_smul]
  simp

/-- **C261, partial.**  For constant elements and any allowed order both forms agree up to a very
small number at these points: the coefficients in the middle of the table are not exactly zero. -/
theorem C261_interior_near_partial {s : Space} (h : s.Ok) (o : GMat s) (hc : o.coup = true)
    (c : Fin s.d → Fin s.d → ℝ) (hs : ∀ i j, c i j = c j i)
    (hG : ∀ i j, o.low i j = .grid (fun _ => c i j))
    (order : ℕ) (ho : checkSetup 1 (order : ℤ) = true)
    (Dx : Fin s.d → s.Wf → s.Wf) (hD : ∀ i, IsDerivative s i (Dx i)) (ψ : s.Wf) (p : s.Pt)
    (hp : ∀ i, order / 2 ≤ (p i : ℕ) ∧ (p i : ℕ) + order / 2 < (s.axes i).n) :
    ∃ gd, initDiff o (order : ℤ) = .val gd ∧ ∃ r, (Op.mk o true gd none).apply ψ = .val r ∧
      ‖r p - o.apply ψ p‖ ≤ 1 / 10 ^ 19 * ∑ i, ∑ j, |c i j| / spacing s j * ‖Dx i ψ p‖ := by
  obtain ⟨gd, h1, h2⟩ := C261_formula_partial h o hc (fun i j _ => c i j) (fun i j _ => hG i j) order ho
    (fun i => by have := hp i; have := (order_range order ho).1; omega) (fun i => D s i)
    (fun i => D_isDerivative h i)
  obtain ⟨r, h3, h4⟩ := h2 none ψ
  refine ⟨gd, h1, r, h3, ?_⟩
  have hD' : ∀ i, Dx i = QDng.Deriv.D s i := fun i => isDerivative_eq h i (hD i)
  have hd : r p - o.apply ψ p = -(1 / 2) * ∑ i, ∑ j,
      (((weight order 0 * c i j / spacing s j : ℝ)) : ℂ) * D s i ψ p := by
    rw [h4, direct_at h o hc, ← mul_sub, ← Finset.sum_sub_distrib]
    congr 1
    refine Finset.sum_congr rfl (fun i _ => ?_)
    rw [← Finset.sum_sub_distrib]
    refine Finset.sum_congr rfl (fun j _ => ?_)
    rw [sym_const o c hs hG, fdDeriv_inner order j _ p (hp j).1 (hp j).2, times_const,
      (lin_D s j).map_smul]
    simp
  rw [hd, norm_mul]
  have hh : ‖(-(1 / 2) : ℂ)‖ ≤ 1 := by
    rw [norm_neg]
    norm_num
  have hb : ‖∑ i, ∑ j, (((weight order 0 * c i j / spacing s j : ℝ)) : ℂ) * D s i ψ p‖ ≤
      1 / 10 ^ 19 * ∑ i, ∑ j, |c i j| / spacing s j * ‖Dx i ψ p‖ := by
    rw [Finset.mul_sum]
    refine (norm_sum_le _ _).trans (Finset.sum_le_sum (fun i _ => ?_))
    rw [Finset.mul_sum]
    refine (norm_sum_le _ _).trans (Finset.sum_le_sum (fun j _ => ?_))
    rw [norm_mul, Complex.norm_real, Real.norm_eq_abs, abs_div, abs_mul,
      abs_of_pos (spacing_pos h j), hD' i, mul_div_assoc, mul_assoc]
    exact mul_le_mul_of_nonneg_right (weight_small order ho)
      (mul_nonneg (div_nonneg (abs_nonneg _) (spacing_pos h j).le) (norm_nonneg _))
  refine (mul_le_mul_of_nonneg_right hh (norm_nonneg _)).trans ?_
  rw [one_mul]
  exact hb

theorem wavenum_zero {s : Space} (q : s.Pt) (i : Fin s.d) (h : (q i : ℕ) = 0) : wavenum s q i = 0 := by
  have hn : 0 < (s.axes i).n := lt_of_le_of_lt (Nat.zero_le _) (q i).2
  have hf : freq (s.axes i).n 0 = 0 := by
    unfold freq
    split_ifs <;> omega
  unfold wavenum
  rw [h, hf]
  simp

theorem freq_ne (n j : ℕ) (hj : j < n) (h0 : j ≠ 0) : freq n j ≠ 0 := by
  unfold freq
  split_ifs <;> omega

theorem wavenum_ne {s : Space} (h : s.Ok) (q : s.Pt) (i : Fin s.d) (h0 : (q i : ℕ) ≠ 0) :
    wavenum s q i ≠ 0 := by
  unfold wavenum
  have h1 := freq_ne _ _ (q i).2 h0
  have h2 := spacing_pos h i
  have h3 : (0 : ℝ) < (s.axes i).n := by exact_mod_cast (by have := (h i).1; omega)
  have h4 := Real.pi_pos
  refine mul_ne_zero (by exact_mod_cast h1) ?_
  positivity

theorem D_wave {s : Space} (h : s.Ok) (i : Fin s.d) (q : s.Pt) :
    D s i (wave s q) = (Complex.I * (wavenum s q i : ℂ)) • wave s q := (D_isDerivative h i).2 q

theorem wave_ne {s : Space} (q p : s.Pt) : wave s q p ≠ 0 := by
  unfold wave planeWave
  exact Complex.exp_ne_zero _

/-- **C261, violated.**  For a constant diagonal G-matrix both forms are the same differential
operator.  But with the chain rule the elements are taken to be zero outside of the grid: for every
plane wave that moves along one dimension the results differ at the first points of the grid along
this dimension, whatever the order of the differences. -/
theorem C261_violated_edge {s : Space} (h : s.Ok) (o : GMat s) (hc : o.coup = true) (g : ℝ) (hg : g ≠ 0)
    (hG : ∀ i j, o.low i j = .grid (fun _ => if i = j then g else 0)) (order : ℕ)
    (ho : checkSetup 1 (order : ℤ) = true) (hw : ∀ i, order ≤ (s.axes i).n) (i0 : Fin s.d) (q p : s.Pt)
    (hq : (q i0 : ℕ) ≠ 0) (hq0 : ∀ i, i ≠ i0 → (q i : ℕ) = 0) (hp : (p i0 : ℕ) = 0) :
    ∃ gd, initDiff o (order : ℤ) = .val gd ∧ ∃ r, (Op.mk o true gd none).apply (wave s q) = .val r ∧
      r p ≠ o.apply (wave s q) p := by
  have hsym : ∀ i j, sym o.low i j = fun _ => if i = j then g else 0 := by
    intro i j
    funext p
    unfold sym
    by_cases hj : j ≤ i
    · rw [if_pos hj, hG]
      rfl
    · rw [if_neg hj, hG]
      show (if j = i then g else 0) = _
      simp only [eq_comm]
  obtain ⟨gd, h1, h2⟩ := C261_formula_partial h o hc (fun i j _ => if i = j then g else 0)
    (fun i j _ => hG i j) order ho hw (fun i => D s i) (fun i => D_isDerivative h i)
  obtain ⟨r, h3, h4⟩ := h2 none (wave s q)
  refine ⟨gd, h1, r, h3, ?_⟩
  rw [h4, direct_at h o hc]
  have hdir : ∀ i j, D s j (times (sym o.low i j) (D s i (wave s q))) p =
      (sym o.low i j p : ℂ) * D s j (D s i (wave s q)) p := by
    intro i j
    rw [hsym, times_const, (lin_D s j).map_smul]
    rfl
  have hsum : ∑ i, ∑ j, (((fdDeriv order j (sym o.low i j) p : ℝ) : ℂ) * D s i (wave s q) p +
      (sym o.low i j p : ℂ) * D s j (D s i (wave s q)) p) =
      ((fdDeriv order i0 (fun _ => g) p : ℝ) : ℂ) * D s i0 (wave s q) p +
        ∑ i, ∑ j, D s j (times (sym o.low i j) (D s i (wave s q))) p := by
    simp only [hdir, Finset.sum_add_distrib]
    congr 1
    rw [Finset.sum_eq_single i0]
    · rw [Finset.sum_eq_single i0]
      · rw [hsym]
        simp
      · intro j _ hj
        rw [hsym]
        simp only [if_neg (Ne.symm hj)]
        rw [fdDeriv_zero]
        simp
      · intro hi
        exact absurd (Finset.mem_univ _) hi
    · intro i _ hi
      refine Finset.sum_eq_zero (fun j _ => ?_)
      rw [D_wave h, wavenum_zero q i (hq0 i hi)]
      simp
    · intro hi
      exact absurd (Finset.mem_univ _) hi
  rw [hsum]
  have hne : ((fdDeriv order i0 (fun _ => g) p : ℝ) : ℂ) * D s i0 (wave s q) p ≠ 0 := by
    refine mul_ne_zero ?_ ?_
    · exact_mod_cast fdDeriv_edge h order ho i0 (hw i0) g hg p hp
    · rw [D_wave h]
      refine mul_ne_zero (mul_ne_zero Complex.I_ne_zero ?_) (wave_ne q p)
      exact_mod_cast wavenum_ne h q i0 hq
  intro hcon
  apply hne
  have h2 : (-(1 / 2) : ℂ) ≠ 0 := by norm_num
  have := mul_left_cancel₀ h2 hcon
  linear_combination this

/-- **C261, violated.**  If an element outside of the diagonal is not loaded from a file (it is
constant or not used, or the coupling is off), the set-up of the chain rule uses a pointer that was
never assigned. -/
theorem C261_violated_mixed {s : Space} (o : GMat s) (i j : Fin s.d) (hij : j < i)
    (hn : o.coup = false ∨ ∀ g, o.low i j ≠ .grid g) (order : ℤ) (ho : checkSetup 1 order = true) :
    initDiff o order = .ub := by
  have hj : ¬ i ≤ j := not_le.2 hij
  have hp : ptr o j i = .junk := by
    unfold ptr
    rw [if_neg hj]
    cases hl : o.low i j with
    | grid g =>
      dsimp only
      rcases hn with h | h
      · rw [if_neg]
        rintro (e | e)
        · exact hij.ne e
        · rw [h] at e
          cases e
      · exact absurd hl (h g)
    | none => rfl
    | const c => rfl
  unfold initDiff
  rw [if_neg (by rw [ho]; simp), if_pos]
  exact ⟨j, i, by unfold diffElem; rw [hp]⟩

/-- **C261, violated.**  With a constant or unused diagonal element the operator reads an empty
vector when it is applied, if its set-up works at all. -/
theorem C261_violated_constant {s : Space} (o : GMat s) (i : Fin s.d) (hn : ∀ g, o.low i i ≠ .grid g)
    (order : ℤ) (gd : Fin s.d → Fin s.d → Option (s.Pt → ℝ)) (hi : initDiff o order = .val gd)
    (l : Option (Fin s.d → Layer)) (ψ : s.Wf) : (Op.mk o true gd l).apply ψ = .ub := by
  have hp : ptr o i i = .null := by
    unfold ptr
    rw [if_pos le_rfl]
    cases hl : o.low i i with
    | grid g => exact absurd hl (hn g)
    | none => rfl
    | const c => rfl
  have hgd : gd i i = none := by
    unfold initDiff at hi
    split_ifs at hi
    rw [← Ans.val.inj hi]
    dsimp only
    unfold diffElem
    rw [hp]
    rfl
  have hterm : ∀ i' w (a : s.Wf) (j : Fin s.d), (Op.mk o true gd l).term i' w a j ≠ .threw := by
    intro i' w a j e
    unfold Op.term at e
    by_cases h1 : i' = j ∨ o.coup = true
    · rw [if_pos h1, if_pos rfl] at e
      unfold Op.chainTerm at e
      dsimp only at e
      cases hg : gd j i' with
      | none =>
        rw [hg] at e
        cases e
      | some dg =>
        rw [hg] at e
        dsimp only at e
        by_cases h3 : j ≤ i'
        · rw [if_pos h3] at e
          cases hp' : ptr o i' j <;> rw [hp'] at e <;> cases e
        · rw [if_neg h3] at e
          cases e
    · rw [if_neg h1] at e
      cases e
  unfold Op.apply
  refine loopA_ub _ i ?_ (fun a i' => loopA_not_threw _ (hterm i' _) _ a) _ (List.mem_finRange i) _
  intro a
  refine loopA_ub _ i ?_ (hterm i _) _ (List.mem_finRange i) a
  intro b
  unfold Op.term
  rw [if_pos (Or.inl rfl), if_pos rfl]
  unfold Op.chainTerm
  dsimp only
  rw [hgd]

/-- **C261, violated.**  In one dimension the set-up with a constant or unused element works, for every
allowed order, and every application of the operator is undefined. -/
theorem C261_violated_constant_single {s : Space} (h1 : ∀ i j : Fin s.d, i = j) (i : Fin s.d) (o : GMat s)
    (hn : ∀ g, o.low i i ≠ .grid g) (order : ℤ) (ho : checkSetup 1 order = true) :
    ∃ gd, initDiff o order = .val gd ∧ ∀ l ψ, (Op.mk o true gd l).apply ψ = .ub := by
  have hp : ∀ i' j', ptr o i' j' = .null := by
    intro i' j'
    rw [h1 i' i, h1 j' i]
    unfold ptr
    rw [if_pos le_rfl]
    cases hl : o.low i i with
    | grid g => exact absurd hl (hn g)
    | none => rfl
    | const c => rfl
  have hi : ∃ gd, initDiff o order = .val gd := by
    refine ⟨fun i j => valOf (diffElem o order.toNat i j), ?_⟩
    unfold initDiff
    rw [if_neg (by rw [ho]; simp), if_neg]
    rintro ⟨i, j, h⟩
    unfold diffElem at h
    rw [hp, hp] at h
    cases h
  obtain ⟨gd, hgd⟩ := hi
  exact ⟨gd, hgd, fun l ψ => C261_violated_constant o i hn order gd hgd l ψ⟩

/-! ### C262: chain rule together with absorbing layers -/

theorem init_inv (st : St) (a : Ask) (h : st.chain = true → st.buf = true) :
    ((st.init a).st.chain = true → (st.init a).st.buf = true) ∧ ∀ st', st.init a ≠ .refused st' := by
  obtain ⟨c, b, p⟩ := st
  obtain ⟨pm, ch, f⟩ := a
  revert h
  revert c b p pm ch f
  intro c b p pm ch f
  rcases f with _ | f
  · cases c <;> cases b <;> cases p <;> cases pm <;> cases ch <;> simp [St.init, Res.st]
  · cases f <;> cases c <;> cases b <;> cases p <;> cases pm <;> cases ch <;> simp [St.init, Res.st]

/-- **C262, violated.**  The combination of the chain rule with absorbing layers is never refused,
although there is a check for it: whatever is asked for, in any number of calls. -/
theorem C262_violated_refusal (as : List Ask) (a : Ask) (st' : St) :
    (St.new.run as).init a ≠ .refused st' := by
  have h : ∀ (as : List Ask) (st : St), (st.chain = true → st.buf = true) →
      ((st.run as).chain = true → (st.run as).buf = true) := by
    intro as
    induction as with
    | nil => exact fun st h => h
    | cons a as ih => exact fun st h => ih _ (init_inv st a h).1
  exact (init_inv _ a (h as St.new (by simp [St.new]))).2 st'

/-- **C262, violated.**  The combination is accepted by a new operator. -/
theorem C262_violated_accepted :
    St.new.init { pml := true, chain := true, fail := none } =
      .ok { chain := true, buf := true, pml := true } := by decide

/-- **C262, violated.**  With the chain rule the layers have no effect at all. -/
theorem C262_violated_ignored {s : Space} (o : GMat s) (gd : Fin s.d → Fin s.d → Option (s.Pt → ℝ))
    (l : Option (Fin s.d → Layer)) (ψ : s.Wf) :
    (Op.mk o true gd l).apply ψ = (Op.mk o true gd none).apply ψ := by
  have : (Op.mk o true gd l).row ψ = (Op.mk o true gd none).row ψ := by
    funext a i
    unfold Op.row
    congr 1
  unfold Op.apply
  rw [this]

/-- **C262, partial.**  Layers without the chain rule, and the chain rule without layers, are set up
as asked for. -/
theorem C262_single_partial (a : Ask) (hf : a.fail = none) (h : ¬ (a.pml = true ∧ a.chain = true)) :
    St.new.init a = .ok { chain := a.chain, buf := true, pml := a.pml } := by
  obtain ⟨pm, ch, f⟩ := a
  subst hf
  cases pm <;> cases ch <;> simp_all [St.new, St.init]

/-! ### C263: constant elements as numbers or as functions -/

theorem row_plain {s : Space} (o : GMat s) (gd : Fin s.d → Fin s.d → Option (s.Pt → ℝ)) (ψ : s.Wf)
    (h : s.Ok) : (Op.mk o false gd none).apply ψ = .val (o.apply ψ) := by
  have h0 : ∀ i w (a : s.Wf) (j : Fin s.d), (Op.mk o false gd none).term i w a j = .val (o.term i w a j) := by
    intro i w a j
    unfold Op.term
    by_cases hu : i = j ∨ o.coup = true
    · rw [if_pos hu]
      rfl
    · rw [if_neg hu]
      unfold GMat.term
      rw [if_neg hu]
  unfold Op.apply
  rw [o.apply_eq h, loopA_fin _ (fun i => ∑ j, (-(1 / 2) : ℂ) • D s j (times (o.mat i j) (D s i ψ))),
    zero_add]
  intro a i
  unfold Op.row
  exact loopA_fin _ _ (fun a j => by rw [h0, o.term_eq h]; rfl) a

/-- **C263, partial.**  Without chain rule and layers only the values of the elements matter: an
element that is given as a number may be given as a function on the grid with this value, an unused
element may be given as zero. -/
theorem C263_same_partial {s : Space} (h : s.Ok) (o o' : GMat s) (hc : o.coup = o'.coup)
    (hv : ∀ i j p, j ≤ i → (o.low i j).val p = (o'.low i j).val p)
    (gd gd' : Fin s.d → Fin s.d → Option (s.Pt → ℝ)) (ψ : s.Wf) :
    (Op.mk o false gd none).apply ψ = (Op.mk o' false gd' none).apply ψ := by
  rw [row_plain _ _ _ h, row_plain _ _ _ h, o.apply_eq h, o'.apply_eq h]
  have : ∀ i j, o.mat i j = o'.mat i j := by
    intro i j
    funext p
    have he : (o.elem i j).val p = (o'.elem i j).val p := by
      unfold GMat.elem
      by_cases hj : j ≤ i
      · rw [if_pos hj, if_pos hj, hv i j p hj]
      · rw [if_neg hj, if_neg hj, hv j i p (le_of_not_ge hj)]
    unfold GMat.mat GMat.used
    rw [hc, he]
  simp only [this]

/-- The matrix with one diagonal element. -/
def single {s : Space} (i0 : Fin s.d) (e : Elem s) (coup : Bool) : GMat s :=
  { low := fun i j => if i = i0 ∧ j = i0 then e else .none, coup := coup }

theorem single_elem {s : Space} (i0 : Fin s.d) (e : Elem s) (c : Bool) (i j : Fin s.d) :
    (single i0 e c).elem i j = if i = i0 ∧ j = i0 then e else .none := by
  unfold GMat.elem single
  by_cases hj : j ≤ i
  · rw [if_pos hj]
  · rw [if_neg hj]
    simp only [and_comm]

theorem single_apply {s : Space} (i0 : Fin s.d) (e : Elem s) (c : Bool)
    (gd : Fin s.d → Fin s.d → Option (s.Pt → ℝ)) (l : Fin s.d → Layer) (ψ r : s.Wf)
    (hr : ∀ a, (Op.mk (single i0 e c) false gd (some l)).layerTerm l i0 (dnDxn s i0 ψ 1) a i0 = a + r) :
    (Op.mk (single i0 e c) false gd (some l)).apply ψ = .val r := by
  have hrow : ∀ a i, (Op.mk (single i0 e c) false gd (some l)).row ψ a i =
      .val (a + if i = i0 then r else 0) := by
    intro a i
    unfold Op.row
    rw [loopA_fin _ (fun j => if i = i0 ∧ j = i0 then r else 0)]
    · congr 2
      by_cases hi : i = i0
      · simp [hi]
      · simp [hi]
    · intro a j
      unfold Op.term
      by_cases hb : i = i0 ∧ j = i0
      · obtain ⟨rfl, rfl⟩ := hb
        rw [if_pos (Or.inl rfl), if_pos (And.intro rfl rfl)]
        show Ans.val _ = _
        rw [hr]
      · have : (Op.mk (single i0 e c) false gd (some l)).layerTerm l i (dnDxn s i ψ 1) a j = a := by
          unfold Op.layerTerm
          rw [single_elem, if_neg hb]
        rw [if_neg hb, add_zero]
        split_ifs with h1 h2
        · exact absurd h2 (by simp)
        · show Ans.val _ = _
          rw [this]
        · rfl
  unfold Op.apply
  rw [loopA_fin _ _ hrow, zero_add, Finset.sum_ite_eq' Finset.univ i0 (fun _ => r),
    if_pos (Finset.mem_univ i0)]

/-- **C263, violated.**  With absorbing layers it matters whether a constant element is given as a
number or as a function on the grid: for a number the factor of the layer is applied twice, for a
function once.  For every plane wave that moves along the dimension the results differ at every point
where the factor is neither zero nor one. -/
theorem C263_violated_layer {s : Space} (h : s.Ok) (i0 : Fin s.d) (g : ℝ) (hg : g ≠ 0) (c : Bool)
    (gd gd' : Fin s.d → Fin s.d → Option (s.Pt → ℝ)) (l : Fin s.d → Layer) (q p : s.Pt)
    (hq : (q i0 : ℕ) ≠ 0) (hf0 : (l i0).factor false (s.axes i0).n (p i0) ≠ 0)
    (hf1 : (l i0).factor false (s.axes i0).n (p i0) ≠ 1) :
    ∃ r r', (Op.mk (single i0 (.const g) c) false gd (some l)).apply (wave s q) = .val r ∧
      (Op.mk (single i0 (.grid fun _ => g) c) false gd' (some l)).apply (wave s q) = .val r' ∧
      r p ≠ r' p := by
  have h1 : ∀ a, (Op.mk (single i0 (.const g) c) false gd (some l)).layerTerm l i0
      (dnDxn s i0 (wave s q) 1) a i0 =
      a + transform l i0 (transform l i0 (dnDxn s i0 (dnDxn s i0 (wave s q) 1) (-0.5 * g))) := by
    intro a
    unfold Op.layerTerm
    rw [single_elem, if_pos ⟨rfl, rfl⟩]
  have h2 : ∀ a, (Op.mk (single i0 (.grid fun _ => g) c) false gd' (some l)).layerTerm l i0
      (dnDxn s i0 (wave s q) 1) a i0 =
      a + transform l i0 (dnDxn s i0 (fun p => dnDxn s i0 (wave s q) 1 p * (g : ℂ)) (-0.5)) := by
    intro a
    unfold Op.layerTerm
    rw [single_elem, if_pos ⟨rfl, rfl⟩]
  refine ⟨_, _, single_apply i0 _ c gd l _ _ h1, single_apply i0 _ c gd' l _ _ h2, ?_⟩
  set f := (l i0).factor false (s.axes i0).n (p i0) with hf
  have e1 : D s i0 (D s i0 (wave s q)) p = -(wavenum s q i0 : ℂ) ^ 2 * wave s q p := by
    rw [D_wave h, (lin_D s i0).map_smul, D_wave h, smul_smul]
    simp only [Pi.smul_apply, smul_eq_mul]
    linear_combination (wavenum s q i0 : ℂ) ^ 2 * wave s q p * Complex.I_mul_I
  have e2 : (fun p => dnDxn s i0 (wave s q) 1 p * (g : ℂ)) = (g : ℂ) • D s i0 (wave s q) := by
    funext x
    exact mul_comm _ _
  have hD : dnDxn s i0 (wave s q) 1 = D s i0 (wave s q) := rfl
  have r1 : transform l i0 (transform l i0 (dnDxn s i0 (dnDxn s i0 (wave s q) 1) (-0.5 * g))) p =
      ((g : ℂ) / 2 * (wavenum s q i0 : ℂ) ^ 2 * wave s q p) * f * f := by
    unfold transform
    rw [← hf, hD, dnDxn_smul h]
    simp only [Pi.smul_apply, smul_eq_mul]
    rw [e1]
    push_cast
    ring
  have r2 : transform l i0 (dnDxn s i0 (fun p => dnDxn s i0 (wave s q) 1 p * (g : ℂ)) (-0.5)) p =
      ((g : ℂ) / 2 * (wavenum s q i0 : ℂ) ^ 2 * wave s q p) * f := by
    unfold transform
    rw [← hf, e2, dnDxn_smul h, (lin_D s i0).map_smul]
    simp only [Pi.smul_apply, smul_eq_mul]
    rw [e1]
    push_cast
    ring
  rw [r1, r2]
  have hk : (wavenum s q i0 : ℂ) ≠ 0 := by exact_mod_cast wavenum_ne h q i0 hq
  have hg' : (g : ℂ) ≠ 0 := by exact_mod_cast hg
  have hA : ((g : ℂ) / 2 * (wavenum s q i0 : ℂ) ^ 2 * wave s q p) * f ≠ 0 :=
    mul_ne_zero (mul_ne_zero (mul_ne_zero (div_ne_zero hg' two_ne_zero) (pow_ne_zero 2 hk))
      (wave_ne q p)) hf0
  intro hcon
  apply hf1
  have := mul_left_cancel₀ hA (show _ * f = _ * 1 by rw [mul_one]; exact hcon)
  exact this

/-! ### C264: copies -/

/-- **C264, violated.**  A copy of a G-matrix operator cannot be applied, whether the original was
initialised or not and however often the copy is initialised: one of its buffers is missing. -/
theorem C264_violated (o : Obj) (n : ℕ) (c : Obj) (hn : 0 < o.size) (hc : o.copy = .val c) :
    (Obj.init^[n] c).apply = .ub := by
  have h0 : c = { size := o.size, wf := true, buf := true, buf1 := false } := by
    unfold Obj.copy at hc
    rw [if_neg (by omega)] at hc
    split_ifs at hc
    exact (Ans.val.inj hc).symm
  have h1 : Obj.init^[n] c = c := by
    induction n with
    | zero => rfl
    | succ n ih =>
      rw [Function.iterate_succ_apply', ih, h0]
      rfl
  rw [h1, h0]
  unfold Obj.apply
  rw [if_neg (by simp)]

/-- **C264, violated.**  Copying an operator that has not seen a wave function uses a null pointer. -/
theorem C264_violated_uninitialised (n : ℕ) (hn : 0 < n) : (Obj.new n).copy = .ub := by
  unfold Obj.copy Obj.new
  rw [if_neg (by show ¬ n = 0; omega)]
  rfl

/-- **C264, partial.**  The original works after its initialisation. -/
theorem C264_original_partial (n : ℕ) : (Obj.new n).init.apply = .val () := by
  unfold Obj.new Obj.init Obj.apply
  simp

end QDng.Gmc
