import Verif.Deriv.GLemmas
import Verif.Deriv.KinProps

/-
Properties C141-C146: the kinetic energy with a G-matrix and the non adiabatic coupling.
-/

namespace QDng.Deriv

open QDng.Grid

/-! ### C141 -/

theorem scal_times_eq (s : Space) (g : s.Pt → ℝ) (φ ψ : s.Wf) :
    scal s φ (times g ψ) = ((∏ i, spacing s i : ℝ) : ℂ) * ip s φ (times g ψ) := rfl

/-- **C141.**  With kinetic coupling the operator is the kinetic energy of the G-matrix: its matrix
elements are half the sum of those of the elements `G_ij` between the derivatives. -/
theorem C141_coupled {s : Space} (h : s.Ok) (o : GMat s) (hc : o.coup = true)
    (D : Fin s.d → s.Wf → s.Wf) (hD : ∀ i, IsDerivative s i (D i)) (φ ψ : s.Wf) :
    scal s φ (o.apply ψ) =
      (1 / 2) * ∑ i, ∑ j, scal s (D j φ) (times (sym o.low i j) (D i ψ)) := by
  have hD' : ∀ i, D i = QDng.Deriv.D s i := fun i => isDerivative_eq h i (hD i)
  rw [scal_eq, o.ip_apply h]
  simp only [hD', scal_times_eq, ← Finset.mul_sum]
  rw [Finset.sum_congr rfl (fun i _ => Finset.sum_congr rfl (fun j _ => by
    rw [o.mat_eq i j (Or.inr hc)]))]
  ring

/-- **C141.**  Without kinetic coupling only the diagonal elements are used. -/
theorem C141_uncoupled {s : Space} (h : s.Ok) (o : GMat s) (hc : o.coup = false)
    (D : Fin s.d → s.Wf → s.Wf) (hD : ∀ i, IsDerivative s i (D i)) (φ ψ : s.Wf) :
    scal s φ (o.apply ψ) =
      (1 / 2) * ∑ i, scal s (D i φ) (times (sym o.low i i) (D i ψ)) := by
  have hD' : ∀ i, D i = QDng.Deriv.D s i := fun i => isDerivative_eq h i (hD i)
  rw [scal_eq, o.ip_apply h]
  simp only [hD', scal_times_eq, ← Finset.mul_sum]
  rw [mul_left_comm]
  congr 2
  refine Finset.sum_congr rfl (fun i _ => ?_)
  rw [Finset.sum_eq_single i]
  · rw [o.mat_eq i i (Or.inl rfl)]
  · intro j _ hj
    have hm : o.mat i j = fun _ => 0 := by
      funext p
      refine if_neg (fun hu => ?_)
      rcases hu with hu | hu
      · exact hj hu.symm
      · rw [hc] at hu
        exact absurd hu (by simp)
    rw [hm, times_zero]
    simp [ip]
  · intro hi
    exact absurd (Finset.mem_univ i) hi

/-- **C141.**  The operator is Hermitian. -/
theorem C141_hermitian {s : Space} (h : s.Ok) (o : GMat s) (φ ψ : s.Wf) :
    scal s φ (o.apply ψ) = scal s (o.apply φ) ψ := by
  rw [scal_eq, scal_eq]
  congr 1
  rw [← ip_conj s ψ (o.apply φ), o.ip_apply h, o.ip_apply h, map_mul, map_sum]
  rw [show (1 / 2 : ℂ) = ((1 / 2 : ℝ) : ℂ) by push_cast; rfl, Complex.conj_ofReal]
  refine congrArg (fun z => ((1 / 2 : ℝ) : ℂ) * z) ?_
  rw [Finset.sum_comm]
  refine Finset.sum_congr rfl (fun i _ => ?_)
  rw [map_sum]
  refine Finset.sum_congr rfl (fun j _ => ?_)
  rw [ip_times, o.mat_symm j i]

/-- **C141.**  If the G-matrix is positive semidefinite at each grid point, the kinetic energy is not
negative. -/
theorem C141_nonneg {s : Space} (h : s.Ok) (o : GMat s) (hc : o.coup = true)
    (hG : ∀ p (v : Fin s.d → ℝ), 0 ≤ ∑ i, ∑ j, v i * sym o.low i j p * v j) (ψ : s.Wf) :
    ∃ t : ℝ, scal s ψ (o.apply ψ) = (t : ℂ) ∧ 0 ≤ t := by
  have hv := vol_pos h
  have hre : (scal s ψ (o.apply ψ)).im = 0 := by
    have h1 := C141_hermitian h o ψ ψ
    have h2 : (starRingEnd ℂ) (scal s ψ (o.apply ψ)) = scal s (o.apply ψ) ψ := by
      rw [scal_eq, scal_eq, map_mul, ip_conj, Complex.conj_ofReal]
    rw [← h1] at h2
    exact Complex.conj_eq_iff_im.1 h2
  refine ⟨(scal s ψ (o.apply ψ)).re, Complex.ext rfl (by rw [hre, Complex.ofReal_im]), ?_⟩
  rw [scal_eq, o.ip_apply h, Complex.re_ofReal_mul]
  refine mul_nonneg hv.le ?_
  have h3 : ∑ i, ∑ j, ip s (D s j ψ) (times (o.mat i j) (D s i ψ)) =
      ∑ p, ∑ i, ∑ j, (starRingEnd ℂ) (D s j ψ p) * ((sym o.low i j p : ℂ) * D s i ψ p) := by
    rw [Finset.sum_comm]
    simp only [ip, times]
    rw [Finset.sum_congr rfl (fun i _ => Finset.sum_comm), Finset.sum_comm]
    refine Finset.sum_congr rfl (fun p _ => ?_)
    rw [Finset.sum_comm]
    refine Finset.sum_congr rfl (fun i _ => Finset.sum_congr rfl (fun j _ => ?_))
    rw [o.mat_eq i j (Or.inr hc)]
  rw [h3, show (1 / 2 : ℂ) = ((1 / 2 : ℝ) : ℂ) by push_cast; ring, Complex.re_ofReal_mul,
    Complex.re_sum]
  refine mul_nonneg (by norm_num) (Finset.sum_nonneg (fun p _ => ?_))
  have h4 : (∑ i, ∑ j, (starRingEnd ℂ) (D s j ψ p) * ((sym o.low i j p : ℂ) * D s i ψ p)).re =
      (∑ i, ∑ j, (D s i ψ p).re * sym o.low i j p * (D s j ψ p).re) +
        ∑ i, ∑ j, (D s i ψ p).im * sym o.low i j p * (D s j ψ p).im := by
    rw [Complex.re_sum, ← Finset.sum_add_distrib]
    refine Finset.sum_congr rfl (fun i _ => ?_)
    rw [Complex.re_sum, ← Finset.sum_add_distrib]
    refine Finset.sum_congr rfl (fun j _ => ?_)
    simp only [Complex.mul_re, Complex.conj_re, Complex.conj_im, Complex.ofReal_re,
      Complex.ofReal_im, Complex.mul_im]
    ring
  rw [h4]
  exact add_nonneg (hG p _) (hG p _)

/-- **C141.**  For a constant matrix a plane wave is multiplied with half the sum of
`G_ij k_i k_j`. -/
theorem C141_constant {s : Space} (h : s.Ok) (o : GMat s) (hc : o.coup = true)
    (G : Fin s.d → Fin s.d → ℝ) (hG : ∀ i j p, sym o.low i j p = G i j) (q : s.Pt) :
    o.apply (wave s q) =
      (((1 / 2) * ∑ i, ∑ j, G i j * wavenum s q i * wavenum s q j : ℝ) : ℂ) • wave s q := by
  rw [o.apply_eq h]
  have h1 : ∀ i j, (-(1 / 2) : ℂ) • D s j (times (o.mat i j) (D s i (wave s q))) =
      ((1 / 2 : ℂ) * ((G i j * wavenum s q i * wavenum s q j : ℝ) : ℂ)) • wave s q := by
    intro i j
    have hm : o.mat i j = fun _ => G i j := by
      rw [o.mat_eq i j (Or.inr hc)]
      exact funext (hG i j)
    have ht : ∀ χ : s.Wf, times (fun _ => G i j) χ = (G i j : ℂ) • χ := fun χ => rfl
    rw [hm, ht, (D_isDerivative h i).2, smul_smul, (lin_D s j).map_smul, (D_isDerivative h j).2,
      smul_smul, smul_smul]
    congr 1
    push_cast
    linear_combination (-(1 / 2) * (G i j : ℂ) * (wavenum s q i : ℂ) * (wavenum s q j : ℂ)) *
      Complex.I_sq
  simp only [h1, ← Finset.sum_smul]
  congr 1
  push_cast
  rw [Finset.mul_sum]
  refine Finset.sum_congr rfl (fun i _ => ?_)
  rw [Finset.mul_sum]

/-- A matrix with a coordinate dependent element on the square. -/
noncomputable def squareG : GMat square :=
  { low := fun i j => if i = j then .const 2 else .grid (fun p => ((p 0 : Nat) : ℝ) / 4)
    coup := true }

/-- The hypotheses hold for a coupled matrix with a coordinate dependent element. -/
example : square.Ok ∧ squareG.coup = true ∧
    ∀ p (v : Fin square.d → ℝ), 0 ≤ ∑ i, ∑ j, v i * sym squareG.low i j p * v j := by
  refine ⟨square_ok, rfl, fun p v => ?_⟩
  have h0 : sym squareG.low 0 0 p = 2 := rfl
  have h1 : sym squareG.low 1 1 p = 2 := rfl
  have h2 : sym squareG.low 0 1 p = ((p 0 : Nat) : ℝ) / 4 := rfl
  have h3 : sym squareG.low 1 0 p = ((p 0 : Nat) : ℝ) / 4 := rfl
  have h4 : (∑ i, ∑ j, v i * sym squareG.low i j p * v j) =
      ∑ i : Fin 2, ∑ j : Fin 2, v i * sym squareG.low i j p * v j := rfl
  rw [h4, Fin.sum_univ_two, Fin.sum_univ_two, Fin.sum_univ_two, h0, h1, h2, h3]
  have h5 : ((p 0 : Nat) : ℝ) ≤ 3 := by
    have : (p 0 : Nat) < 4 := (p 0).2
    exact_mod_cast (by omega : (p 0 : Nat) ≤ 3)
  have h6 : (0 : ℝ) ≤ ((p 0 : Nat) : ℝ) := by positivity
  set a := ((p 0 : Nat) : ℝ) / 4 with ha
  have h7 : a ≤ 1 := by rw [ha]; linarith
  have h8 : 0 ≤ a := by rw [ha]; linarith
  nlinarith [mul_nonneg h8 (sq_nonneg (v 0 + v 1)), mul_nonneg (sub_nonneg.2 h7) (sq_nonneg (v 0)),
    mul_nonneg (sub_nonneg.2 h7) (sq_nonneg (v 1)), sq_nonneg (v 0), sq_nonneg (v 1)]

/-! ### C142 -/

/-- **C142.**  A diagonal G-matrix with the inverse masses gives the same operator as the kinetic
energy in Cartesian coordinates, with and without the kinetic coupling. -/
theorem C142_same {s : Space} (h : s.Ok) (mass : Fin s.d → ℝ) (k : KinOp s)
    (hk : KinOp.create s mass = .ok k) (o : GMat s)
    (hG : ∀ i j, o.low i j = if i = j then .const (1 / mass i) else .none) (ψ : s.Wf) :
    k.init.apply ψ = some (o.apply ψ) := by
  rw [init_apply h hk]
  congr 1
  have hlin : Lin o.apply := by
    intro c φ ψ
    have hT : ∀ i j, Lin (fun ψ => (-(1 / 2) : ℂ) • D s j (times (o.mat i j) (D s i ψ))) := by
      intro i j
      refine Lin.smul _ ((lin_D s j).comp (B := fun ψ => times (o.mat i j) (D s i ψ)) ?_)
      refine Lin.comp (A := fun ψ => times (o.mat i j) ψ) ?_ (lin_D s i)
      intro c φ ψ
      funext p
      simp only [times, Pi.add_apply, Pi.smul_apply, smul_eq_mul]
      ring
    simp only [o.apply_eq h]
    have hT' := fun i j => hT i j c φ ψ
    simp only at hT'
    simp only [hT', Finset.sum_add_distrib, Finset.smul_sum]
  refine Lin.ext h (lin_kin s _) hlin (fun q => ?_) ψ
  rw [kin_E h, o.apply_eq h]
  have hm : ∀ i j p, o.mat i j p = if i = j then 1 / mass i else 0 := by
    intro i j p
    by_cases hij : i = j
    · subst hij
      rw [o.mat_eq i i (Or.inl rfl), if_pos rfl]
      unfold sym
      rw [if_pos le_rfl, hG, if_pos rfl]
      rfl
    · rw [if_neg hij]
      unfold GMat.mat GMat.elem
      split
      · split
        · rw [hG, if_neg hij]
          rfl
        · rw [hG, if_neg (Ne.symm hij)]
          rfl
      · rfl
  have h1 : ∀ i, ∑ j, (-(1 / 2) : ℂ) • D s j (times (o.mat i j) (D s i (E s q))) =
      (((wavenum s q i ^ 2 / (2 * mass i) : ℝ)) : ℂ) • E s q := by
    intro i
    rw [Finset.sum_eq_single i]
    · have ht : times (o.mat i i) (D s i (E s q)) = ((1 / mass i : ℝ) : ℂ) • D s i (E s q) := by
        funext p
        show ((o.mat i i p : ℝ) : ℂ) * _ = _
        rw [hm, if_pos rfl]
        rfl
      rw [ht, D_E h, smul_smul, (lin_D s i).map_smul, D_E h, smul_smul, smul_smul]
      congr 1
      push_cast
      have h2 := (create_ok hk).2.2.2.2 i
      have h3 : (mass i : ℂ) ≠ 0 := by exact_mod_cast h2
      field_simp
      linear_combination -(wavenum s q i : ℂ) ^ 2 * Complex.I_sq
    · intro j _ hj
      have ht : times (o.mat i j) (D s i (E s q)) = (0 : ℂ) • E s q := by
        funext p
        show ((o.mat i j p : ℝ) : ℂ) * _ = _
        rw [hm, if_neg (Ne.symm hj)]
        simp
      rw [ht, (lin_D s j).map_smul, zero_smul, smul_zero]
    · intro hi
      exact absurd (Finset.mem_univ i) hi
  simp only [h1]
  rw [← Finset.sum_smul, ← Complex.ofReal_sum]
  rfl

example : ∃ k, KinOp.create square (fun i => (i : ℝ) + 1) = .ok k :=
  square_create _ (fun i => by positivity) ⟨⟨0, by show 0 < 2; omega⟩, by positivity⟩

/-! ### C143 -/

/-- **C143.**  For elements on the grid (or unused off diagonal elements) that are not negative
everywhere, `Emax` is an upper bound of the kinetic energy. -/
theorem C143_upper_partial {s : Space} (h : s.Ok) (o : GMat s)
    (hd : ∀ i, ∃ p, 0 ≤ (o.low i i).val p)
    (ho : ∀ i j, j < i → o.low i j = .none ∨ ∃ g p, o.low i j = .grid g ∧ 0 ≤ g p) (ψ : s.Wf) :
    (scal s ψ (o.apply ψ)).re ≤ o.emax * (scal s ψ ψ).re := by
  have hv := vol_pos h
  have hN := nsq_nonneg s ψ
  rw [scal_eq, scal_eq, Complex.re_ofReal_mul, Complex.re_ofReal_mul, mul_left_comm, ip_self,
    Complex.ofReal_re]
  apply mul_le_mul_of_nonneg_left _ hv.le
  rw [o.ip_apply h, show (1 / 2 : ℂ) = ((1 / 2 : ℝ) : ℂ) by push_cast; ring, Complex.re_ofReal_mul,
    Complex.re_sum]
  simp only [Complex.re_sum]
  set t : Fin s.d → Fin s.d → ℝ := fun i j =>
    if i = j then o.emaxTerm i i
    else if j < i then o.emaxTerm i j / 2 else o.emaxTerm j i / 2 with ht
  have hsym : ∀ i j, t i j = t j i := by
    intro i j
    rcases lt_trichotomy i j with h1 | h1 | h1
    · simp only [ht, if_neg h1.ne, if_neg h1.ne', if_neg (not_lt.2 h1.le), if_pos h1]
    · subst h1
      rfl
    · simp only [ht, if_neg h1.ne, if_neg h1.ne', if_neg (not_lt.2 h1.le), if_pos h1]
  have hE : o.emax = (∑ i, ∑ j, t i j) * (Real.pi * Real.pi / 2) := by
    unfold GMat.emax
    rw [sum_lower t hsym]
    congr 1
    refine Finset.sum_congr rfl (fun i _ => Finset.sum_congr rfl (fun j _ => ?_))
    rcases lt_trichotomy i j with h1 | h1 | h1
    · rw [if_neg (not_le.2 h1), if_neg (not_le.2 h1)]
    · subst h1
      simp [ht]
    · rw [if_pos h1.le, if_pos h1.le, if_neg h1.ne']
      simp only [ht, if_neg h1.ne', if_pos h1]
      ring
  have hb : ∀ i j, (ip s (D s j ψ) (times (o.mat i j) (D s i ψ))).re ≤
      t i j * (Real.pi * Real.pi) * nsq s ψ := by
    have hoff : ∀ i j, j < i → ∀ a b : Fin s.d, (a = i ∧ b = j ∨ a = j ∧ b = i) →
        (ip s (D s b ψ) (times (o.mat a b) (D s a ψ))).re ≤
          o.emaxTerm i j / 2 * (Real.pi * Real.pi) * nsq s ψ := by
      intro i j hij a b hab
      have hmat : o.mat a b = o.mat i j := by
        rcases hab with ⟨h1, h2⟩ | ⟨h1, h2⟩
        · rw [h1, h2]
        · rw [h1, h2, o.mat_symm]
      rw [hmat]
      by_cases hz : o.mat i j = fun _ => 0
      · have h0 : (ip s (D s b ψ) (times (o.mat i j) (D s a ψ))).re = 0 := by
          rw [hz, times_zero]
          simp [ip]
        rw [h0]
        have : 0 ≤ o.emaxTerm i j := by
          unfold GMat.emaxTerm
          by_cases hc : o.coup = true
          · rw [if_pos ⟨hij.ne', hc⟩]
            rcases ho i j hij with h1 | ⟨g, p, h1, h2⟩
            · rw [h1]
              simp
            · have h3 := off_bound h o i j hij.ne' hc g h1 ⟨p, h2⟩ p
              unfold GMat.emaxTerm at h3
              rw [if_pos ⟨hij.ne', hc⟩] at h3
              have hh : 0 < spacing s i * spacing s j :=
                mul_pos (spacing_pos h i) (spacing_pos h j)
              have h4 := (abs_nonneg _).trans h3
              by_contra hneg
              push Not at hneg
              nlinarith
          · rw [if_neg (fun h1 => hc h1.2), if_neg hij.ne']
        have hpi := Real.pi_pos
        positivity
      · have hc : o.coup = true := by
          by_contra hc
          apply hz
          funext p
          refine if_neg (fun hu => ?_)
          rcases hu with hu | hu
          · exact hij.ne' hu
          · exact hc hu
        have hmat2 : o.mat i j = (o.low i j).val := by
          rw [o.mat_eq i j (Or.inr hc)]
          funext p
          unfold sym
          rw [if_pos hij.le]
        rcases ho i j hij with h1 | ⟨g, p, h1, h2⟩
        · exact absurd (by rw [hmat2, h1]; rfl) hz
        · have h3 := off_bound h o i j hij.ne' hc g h1 ⟨p, h2⟩
          have h4 : o.mat i j = g := by
            rw [hmat2, h1]
            rfl
          rw [h4]
          refine (Complex.re_le_norm _).trans ((ip_times_bound g _ h3 _ _).trans ?_)
          have hi := spacing_pos h i
          have hj := spacing_pos h j
          have hM : 0 ≤ o.emaxTerm i j / 2 * (spacing s i * spacing s j) :=
            (abs_nonneg _).trans (h3 p)
          have h5 := sqrt_D h a ψ
          have h6 := sqrt_D h b ψ
          have hpi := Real.pi_pos
          have hprod : spacing s a * spacing s b = spacing s i * spacing s j := by
            rcases hab with ⟨h1, h2⟩ | ⟨h1, h2⟩
            · rw [h1, h2]
            · rw [h1, h2, mul_comm]
          have ha := spacing_pos h a
          have hbp := spacing_pos h b
          calc o.emaxTerm i j / 2 * (spacing s i * spacing s j) *
                (Real.sqrt (nsq s (D s b ψ)) * Real.sqrt (nsq s (D s a ψ)))
              ≤ o.emaxTerm i j / 2 * (spacing s i * spacing s j) *
                ((Real.pi / spacing s b * Real.sqrt (nsq s ψ)) *
                  (Real.pi / spacing s a * Real.sqrt (nsq s ψ))) := by
                apply mul_le_mul_of_nonneg_left _ hM
                exact mul_le_mul h6 h5 (Real.sqrt_nonneg _) (by positivity)
            _ = o.emaxTerm i j / 2 * (Real.pi * Real.pi) * nsq s ψ := by
                rw [← hprod]
                have h7 : nsq s ψ = Real.sqrt (nsq s ψ) * Real.sqrt (nsq s ψ) :=
                  (Real.mul_self_sqrt hN).symm
                rw [h7, Real.sqrt_mul_self (Real.sqrt_nonneg _)]
                field_simp
    intro i j
    rcases lt_trichotomy i j with h1 | h1 | h1
    · have := hoff j i h1 i j (Or.inr ⟨rfl, rfl⟩)
      simpa only [ht, if_neg h1.ne, if_neg (not_lt.2 h1.le)] using this
    · subst h1
      simp only [ht, if_true]
      have hm : o.mat i i = (o.low i i).val := by
        rw [o.mat_eq i i (Or.inl rfl)]
        funext p
        unfold sym
        rw [if_pos le_rfl]
      rw [hm]
      have hs := spacing_pos h i
      have hterm : ∀ p, (o.low i i).val p ≤ o.emaxTerm i i * (spacing s i * spacing s i) := by
        intro p
        rw [← div_le_iff₀ (mul_pos hs hs)]
        unfold GMat.emaxTerm
        rw [if_neg (fun h1 => h1.1 rfl), if_pos rfl]
        cases o.low i i with
        | none => simp [Elem.val]
        | const g => exact le_rfl
        | grid g => exact div_le_div_of_nonneg_right (le_vecMax g p) (mul_pos hs hs).le
      have hM : 0 ≤ o.emaxTerm i i * (spacing s i * spacing s i) := by
        obtain ⟨p, hp⟩ := hd i
        exact hp.trans (hterm p)
      have h5 : (ip s (D s i ψ) (times (o.low i i).val (D s i ψ))).re =
          ∑ p, (o.low i i).val p * ‖D s i ψ p‖ ^ 2 := by
        unfold ip times
        rw [Complex.re_sum]
        refine Finset.sum_congr rfl (fun p _ => ?_)
        rw [mul_left_comm, Complex.conj_mul', ← Complex.ofReal_pow, ← Complex.ofReal_mul,
          Complex.ofReal_re]
      rw [h5]
      calc ∑ p, (o.low i i).val p * ‖D s i ψ p‖ ^ 2
          ≤ ∑ p, o.emaxTerm i i * (spacing s i * spacing s i) * ‖D s i ψ p‖ ^ 2 :=
            Finset.sum_le_sum (fun p _ => mul_le_mul_of_nonneg_right (hterm p) (by positivity))
        _ = o.emaxTerm i i * (spacing s i * spacing s i) * nsq s (D s i ψ) := by
            rw [← Finset.mul_sum]
            rfl
        _ ≤ o.emaxTerm i i * (spacing s i * spacing s i) *
              ((Real.pi / spacing s i) ^ 2 * nsq s ψ) :=
            mul_le_mul_of_nonneg_left (nsq_D h i ψ) hM
        _ = o.emaxTerm i i * (Real.pi * Real.pi) * nsq s ψ := by field_simp
    · have := hoff i j h1 i j (Or.inl ⟨rfl, rfl⟩)
      simpa only [ht, if_neg h1.ne', if_pos h1] using this
  have hsum : ∑ i, ∑ j, (ip s (D s j ψ) (times (o.mat i j) (D s i ψ))).re ≤
      ∑ i, ∑ j, t i j * (Real.pi * Real.pi) * nsq s ψ :=
    Finset.sum_le_sum (fun i _ => Finset.sum_le_sum (fun j _ => hb i j))
  simp only [← Finset.sum_mul] at hsum
  rw [hE]
  linarith

/-- **C143.**  For a positive semidefinite matrix `Emin` is a lower bound. -/
theorem C143_lower_partial {s : Space} (h : s.Ok) (o : GMat s) (hc : o.coup = true)
    (hG : ∀ p (v : Fin s.d → ℝ), 0 ≤ ∑ i, ∑ j, v i * sym o.low i j p * v j) (ψ : s.Wf) :
    o.emin * (scal s ψ ψ).re ≤ (scal s ψ (o.apply ψ)).re := by
  obtain ⟨t, h1, h2⟩ := C141_nonneg h o hc hG ψ
  rw [h1, Complex.ofReal_re]
  refine le_trans ?_ h2
  have hv := vol_pos h
  have hN := nsq_nonneg s ψ
  rw [scal_eq, ip_self, Complex.re_ofReal_mul, Complex.ofReal_re]
  refine mul_nonpos_of_nonpos_of_nonneg ?_ (mul_nonneg hv.le hN)
  unfold GMat.emin
  refine Finset.sum_nonpos (fun i _ => Finset.sum_nonpos (fun j _ => ?_))
  split
  · split
    · have hmin : ∀ x : ℝ, (if x < 0 then x else 0) ≤ 0 := by
        intro x
        split
        · rename_i hneg
          exact hneg.le
        · exact le_rfl
      exact hmin _
    · exact le_rfl
  · exact le_rfl

/-- Two dimensions with two points each and half the unit spacing. -/
noncomputable abbrev tiny : Space := { d := 2, axes := fun _ => { n := 2, xmin := 0, xmax := 1 / 2 } }

theorem tiny_ok : tiny.Ok := by
  intro i
  refine ⟨le_rfl, ?_⟩
  show (0 : ℝ) < 1 / 2
  norm_num

/-- A positive definite constant matrix. -/
noncomputable def tinyG : GMat tiny :=
  { low := fun i j => if i = j then .const 1 else .const (1 / 2), coup := true }

/-- **C143.**  With a constant off diagonal element `Emax` is not an upper bound, although the matrix
is positive definite: the grid spacings are left out. -/
theorem C143_constant_violated :
    (∀ p (v : Fin tiny.d → ℝ), v ≠ 0 → 0 < ∑ i, ∑ j, v i * sym tinyG.low i j p * v j) ∧
      ∃ ψ : tiny.Wf, tinyG.emax * (scal tiny ψ ψ).re < (scal tiny ψ (tinyG.apply ψ)).re := by
  have h00 : ∀ p, sym tinyG.low 0 0 p = 1 := fun p => rfl
  have h11 : ∀ p, sym tinyG.low 1 1 p = 1 := fun p => rfl
  have h01 : ∀ p, sym tinyG.low 0 1 p = 1 / 2 := fun p => rfl
  have h10 : ∀ p, sym tinyG.low 1 0 p = 1 / 2 := fun p => rfl
  constructor
  · intro p v hv
    have h4 : (∑ i, ∑ j, v i * sym tinyG.low i j p * v j) =
        ∑ i : Fin 2, ∑ j : Fin 2, v i * sym tinyG.low i j p * v j := rfl
    rw [h4, Fin.sum_univ_two, Fin.sum_univ_two, Fin.sum_univ_two, h00, h01, h10, h11]
    have hne : v 0 ≠ 0 ∨ v 1 ≠ 0 := by
      by_contra hc
      push Not at hc
      apply hv
      funext i
      have : ∀ i : Fin 2, v i = 0 := by
        intro i
        fin_cases i
        · exact hc.1
        · exact hc.2
      exact this i
    rcases hne with h1 | h1
    · have := sq_pos_of_ne_zero h1
      nlinarith [sq_nonneg (v 0 + v 1), sq_nonneg (v 1)]
    · have := sq_pos_of_ne_zero h1
      nlinarith [sq_nonneg (v 0 + v 1), sq_nonneg (v 0)]
  · refine ⟨wave tiny (fun _ => 1), ?_⟩
    have hsp : ∀ i, spacing tiny i = 1 / 2 := by
      intro i
      show ((1 / 2 : ℝ) - 0) / (((2 : Nat) : ℝ) - 1) = 1 / 2
      norm_num
    have hk : ∀ i, wavenum tiny (fun _ => 1) i = -(2 * Real.pi) := by
      intro i
      unfold wavenum freq
      rw [if_neg (by show ¬ (2 * 1 < 2); omega), hsp]
      show (((((1 : Nat) : ℤ) - ((2 : Nat) : ℤ)) : ℤ) : ℝ) * (2 * Real.pi / (((2 : Nat) : ℝ) * (1 / 2))) = _
      push_cast
      ring
    have hG : ∀ i j p, sym tinyG.low i j p = if i = j then 1 else 1 / 2 := by
      intro i j p
      have : ∀ i j : Fin 2, sym tinyG.low i j p = if i = j then 1 else 1 / 2 := by
        intro i j
        fin_cases i <;> fin_cases j
        · exact h00 p
        · exact h01 p
        · exact h10 p
        · exact h11 p
      exact this i j
    have hsm : ∀ (c : ℂ) (φ ψ : tiny.Wf), scal tiny φ (c • ψ) = c * scal tiny φ ψ := by
      intro c φ ψ
      rw [scal_eq, ip_smul_right, mul_left_comm, ← scal_eq]
    rw [C141_constant tiny_ok tinyG rfl _ hG, hsm, Complex.re_ofReal_mul]
    apply mul_lt_mul_of_pos_right _ (scal_wave_pos tiny_ok _)
    simp only [hk]
    have hE : tinyG.emax = 9 * (Real.pi * Real.pi / 2) := by
      unfold GMat.emax
      congr 1
      have h4 : (∑ i, ∑ j, if j ≤ i then tinyG.emaxTerm i j else 0) =
          ∑ i : Fin 2, ∑ j : Fin 2, if j ≤ i then tinyG.emaxTerm i j else 0 := rfl
      rw [h4, Fin.sum_univ_two, Fin.sum_univ_two, Fin.sum_univ_two]
      have e00 : tinyG.emaxTerm 0 0 = 4 := by
        unfold GMat.emaxTerm
        rw [if_neg (fun h1 => h1.1 rfl), if_pos rfl]
        show (1 : ℝ) / (spacing tiny 0 * spacing tiny 0) = 4
        rw [hsp]
        norm_num
      have e11 : tinyG.emaxTerm 1 1 = 4 := by
        unfold GMat.emaxTerm
        rw [if_neg (fun h1 => h1.1 rfl), if_pos rfl]
        show (1 : ℝ) / (spacing tiny 1 * spacing tiny 1) = 4
        rw [hsp]
        norm_num
      have e10 : tinyG.emaxTerm 1 0 = 1 := by
        unfold GMat.emaxTerm
        rw [if_pos ⟨by show ¬ ((1 : Fin 2) = 0); decide, rfl⟩]
        show (if (1 / 2 : ℝ) < 0 ∧ |(1 / 2 : ℝ)| > |(1 / 2 : ℝ)| then 2 * |(1 / 2 : ℝ)|
          else 2 * (1 / 2 : ℝ)) = 1
        norm_num
      rw [e00, e11, e10, if_pos (le_refl _), if_neg (by decide), if_pos (by decide),
        if_pos (le_refl _)]
      norm_num
    rw [hE]
    have h5 : (∑ i : Fin tiny.d, ∑ j : Fin tiny.d,
        (if i = j then (1 : ℝ) else 1 / 2) * -(2 * Real.pi) * -(2 * Real.pi)) =
        ∑ i : Fin 2, ∑ j : Fin 2,
        (if i = j then (1 : ℝ) else 1 / 2) * -(2 * Real.pi) * -(2 * Real.pi) := rfl
    rw [h5, Fin.sum_univ_two, Fin.sum_univ_two, Fin.sum_univ_two, if_pos rfl, if_neg (by decide),
      if_neg (by decide), if_pos rfl]
    have hpi : 0 < Real.pi * Real.pi := by
      have := Real.pi_pos
      positivity
    nlinarith

/-- The hypotheses of the upper bound hold for a matrix with a coordinate dependent element. -/
example : (∀ i, ∃ p, 0 ≤ (squareG.low i i).val p) ∧
    ∀ i j, j < i → squareG.low i j = .none ∨ ∃ g p, squareG.low i j = .grid g ∧ 0 ≤ g p := by
  refine ⟨fun i => ⟨fun _ => 0, ?_⟩, fun i j hij => Or.inr ⟨_, fun _ => 0, if_neg hij.ne', ?_⟩⟩
  · show 0 ≤ Elem.val (if i = i then .const 2 else _) _
    rw [if_pos rfl]
    show (0 : ℝ) ≤ 2
    norm_num
  · simp

/-! ### C144 -/

/-- **C144.**  The kinetic coupling cannot be turned off for elements from files: the initialisation
uses an element that was not loaded. -/
theorem C144_uncoupled_violated {s : Space} (o : GMat s) (hc : o.coup = false)
    (i j : Fin s.d) (hij : j < i) (g : s.Pt → ℝ) (hg : o.low i j = .grid g) : o.init = none := by
  unfold GMat.init
  rw [if_pos]
  refine ⟨i, j, hij.le, ⟨g, hg⟩, fun hl => ?_⟩
  rcases hl.2 with h1 | h1
  · exact hij.ne' h1
  · rw [hc] at h1
    exact absurd h1 (by simp)

/-- **C144.**  In all other cases, the initialisation succeeds for elements on the grid of the wave
function. -/
theorem C144_init_partial {s : Space} (o : GMat s)
    (ho : o.coup = true ∨ ∀ i j, j < i → ∀ g, o.low i j ≠ .grid g) : o.init = some () := by
  unfold GMat.init
  rw [if_neg]
  rintro ⟨i, j, hij, ⟨g, hg⟩, hl⟩
  apply hl
  refine ⟨⟨g, hg⟩, ?_⟩
  rcases ho with h1 | h1
  · exact Or.inr h1
  · rcases lt_or_eq_of_le hij with h2 | h2
    · exact absurd hg (h1 i j h2 g)
    · exact Or.inl h2.symm

example : (⟨squareG.low, false⟩ : GMat square).init = none :=
  C144_uncoupled_violated ⟨squareG.low, false⟩ rfl 1 0 (by decide)
    (fun p => ((p 0 : Nat) : ℝ) / 4) rfl

end QDng.Deriv
