import Verif.Deriv.GLemmas
import Verif.Deriv.KinProps

/-
Properties C145 and C146: the non adiabatic coupling.
-/

namespace QDng.Deriv

open QDng.Grid

/-! ### C145 -/

theorem Nac.nabla_apply {s : Space} (h : s.Ok) (o : Nac s) (i : Fin s.d) (ψ : s.Wf) :
    (o.nabla i).applyTo (o.nabla i).kspace ψ = ((o.sign / (2 * o.mass) : ℝ) : ℂ) • D s i ψ := by
  refine Lin.ext h ((o.nabla i).lin _) ((lin_D s i).smul _) (fun q => ?_) ψ
  simp only [(o.nabla i).applyTo_E h, D_E h, smul_smul]
  congr 1
  rw [(o.nabla i).kspace_eq h]
  unfold Nabla.eig Nabla.sgn Nac.nabla waveSum
  simp only [Bool.false_eq_true, if_false]
  push_cast
  rw [mul_comm (2 : ℂ) (o.mass : ℂ), ← div_div]
  ring

/-- The operator as a sum. -/
theorem Nac.apply_eq {s : Space} (h : s.Ok) (hd : 1 ≤ s.d) (o : Nac s) (dest ψ : s.Wf) :
    o.apply dest ψ = ∑ i, ((o.sign / (2 * o.mass) : ℝ) : ℂ) •
      (times (o.f i) (D s i ψ) + D s i (times (o.f i) ψ)) := by
  set c : ℂ := ((o.sign / (2 * o.mass) : ℝ) : ℂ) with hc
  have hstep : ∀ (a : s.Wf) (i : Fin s.d), o.step ψ a i =
      (if (i : Nat) = 0 then 0 else a) +
        c • (times (o.f i) (D s i ψ) + D s i (times (o.f i) ψ)) := by
    intro a i
    unfold Nac.step
    simp only
    rw [Nabla.applyIn_eq]
    have h1 : (fun p => ψ p * (o.f i p : ℂ) : s.Wf) = times (o.f i) ψ :=
      funext (fun p => mul_comm _ _)
    have h2 : (fun p => (o.nabla i).applyTo (o.nabla i).kspace ψ p * (o.f i p : ℂ) : s.Wf) =
        c • times (o.f i) (D s i ψ) := by
      funext p
      rw [o.nabla_apply h, Pi.smul_apply, Pi.smul_apply, smul_eq_mul, smul_eq_mul]
      unfold times
      ring
    rw [h1, h2, o.nabla_apply h, smul_add, ← add_assoc]
    split
    · rw [zero_add]
    · rfl
  obtain ⟨n, hn⟩ : ∃ n, s.d = n + 1 := ⟨s.d - 1, by omega⟩
  -- the first step forgets the destination
  have hfirst : o.apply dest ψ = o.apply 0 ψ := by
    unfold Nac.apply
    have hl : ∃ x xs, List.finRange s.d = x :: xs ∧ (x : Nat) = 0 := by
      cases hx : List.finRange s.d with
      | nil =>
        have := congrArg List.length hx
        rw [List.length_finRange] at this
        simp at this
        omega
      | cons x xs =>
        refine ⟨x, xs, rfl, ?_⟩
        have h0 : (List.finRange s.d)[0]? = some x := by rw [hx]; rfl
        rw [List.getElem?_eq_getElem (by rw [List.length_finRange]; omega)] at h0
        simp only [List.getElem_finRange, Option.some.injEq] at h0
        rw [← h0]
        rfl
    obtain ⟨x, xs, hx, hx0⟩ := hl
    rw [hx, List.foldl_cons, List.foldl_cons, hstep, hstep, if_pos hx0, if_pos hx0]
  rw [hfirst]
  unfold Nac.apply
  have hrest : ∀ (l : List (Fin s.d)) (a : s.Wf), (∀ i ∈ l, (i : Nat) = 0 → a = 0) → l.Nodup →
      l.Pairwise (fun i j : Fin s.d => i < j) →
      l.foldl (o.step ψ) a = a + (l.map (fun i => c •
        (times (o.f i) (D s i ψ) + D s i (times (o.f i) ψ)))).sum := by
    intro l
    induction l with
    | nil => intro a _ _ _; simp
    | cons x xs ih =>
      intro a ha hnd hpw
      rw [List.foldl_cons, hstep, List.map_cons, List.sum_cons]
      have hx : (if (x : Nat) = 0 then (0 : s.Wf) else a) = a := by
        by_cases h0 : (x : Nat) = 0
        · rw [if_pos h0, ha x (List.mem_cons_self) h0]
        · rw [if_neg h0]
      rw [hx, ih _ ?_ (List.nodup_cons.1 hnd).2 (List.pairwise_cons.1 hpw).2, add_assoc]
      intro i hi h0
      have : (x : Nat) < i := (List.pairwise_cons.1 hpw).1 i hi
      omega
  have hpw : (List.finRange s.d).Pairwise (fun i j : Fin s.d => i < j) :=
    List.pairwise_lt_finRange s.d
  rw [hrest _ 0 (fun _ _ _ => rfl) (List.nodup_finRange _) hpw, zero_add, ← List.ofFn_eq_map,
    List.sum_ofFn]

/-- **C145.**  The operator is the sum over the dimensions of half the anticommutator of the coupling
function and the derivative, over the mass; the previous content of the destination has no
influence. -/
theorem C145_formula {s : Space} (h : s.Ok) (hd : 1 ≤ s.d) (o : Nac s)
    (D : Fin s.d → s.Wf → s.Wf) (hD : ∀ i, IsDerivative s i (D i)) (dest ψ : s.Wf) :
    o.apply dest ψ = ∑ i, ((o.sign / (2 * o.mass) : ℝ) : ℂ) •
      (times (o.f i) (D i ψ) + D i (times (o.f i) ψ)) := by
  have hD' : ∀ i, D i = QDng.Deriv.D s i := fun i => isDerivative_eq h i (hD i)
  rw [o.apply_eq h hd]
  simp only [hD']

theorem Nac.ip_apply {s : Space} (h : s.Ok) (hd : 1 ≤ s.d) (o : Nac s) (dest φ ψ : s.Wf) :
    ip s φ (o.apply dest ψ) = ((o.sign / (2 * o.mass) : ℝ) : ℂ) *
      ∑ i, (ip s φ (times (o.f i) (D s i ψ)) - ip s (D s i φ) (times (o.f i) ψ)) := by
  rw [o.apply_eq h hd, ip_sum_right, Finset.mul_sum]
  refine Finset.sum_congr rfl (fun i _ => ?_)
  rw [ip_smul_right, ip_add_right, ip_D h]
  ring

/-- **C145.**  The two off diagonal elements of a coupling with opposite signs are adjoint to each
other, so that the coupled Hamiltonian is Hermitian. -/
theorem C145_pair {s : Space} (h : s.Ok) (hd : 1 ≤ s.d) (o o' : Nac s) (hf : o'.f = o.f)
    (hm : o'.mass = o.mass) (hs : o'.sign = -o.sign) (dest dest' φ ψ : s.Wf) :
    scal s φ (o.apply dest ψ) = scal s (o'.apply dest' φ) ψ := by
  rw [scal_eq, scal_eq]
  congr 1
  rw [← ip_conj s ψ, o.ip_apply h hd, o'.ip_apply h hd, map_mul, Complex.conj_ofReal, hm, hs, hf,
    map_sum, neg_div, Complex.ofReal_neg, neg_mul, ← mul_neg, ← Finset.sum_neg_distrib]
  congr 1
  refine Finset.sum_congr rfl (fun i _ => ?_)
  rw [map_sub, ip_times, ip_times]
  ring

/-- **C145.**  Each of them is anti-Hermitian. -/
theorem C145_anti {s : Space} (h : s.Ok) (hd : 1 ≤ s.d) (o : Nac s) (dest dest' φ ψ : s.Wf) :
    scal s φ (o.apply dest ψ) = -scal s (o.apply dest' φ) ψ := by
  rw [scal_eq, scal_eq, ← mul_neg]
  congr 1
  rw [← ip_conj s ψ, o.ip_apply h hd, o.ip_apply h hd, map_mul, Complex.conj_ofReal,
    map_sum, ← mul_neg, ← Finset.sum_neg_distrib]
  congr 1
  refine Finset.sum_congr rfl (fun i _ => ?_)
  rw [map_sub, ip_times, ip_times]
  ring

example : square.Ok ∧ 1 ≤ square.d := ⟨square_ok, by show 1 ≤ 2; omega⟩

/-! ### C146 -/

/-- **C146.**  If the coupling functions are nowhere negative, the mass is positive and the first
dimension has the smallest spacing, `Emax` bounds all matrix elements. -/
theorem C146_upper_partial {s : Space} (h : s.Ok) (hd : 1 ≤ s.d) (o : Nac s) (i0 : Fin s.d)
    (hf : ∀ i p, 0 ≤ o.f i p) (hm : 0 < o.mass) (hs : |o.sign| = 1)
    (hx : ∀ i, spacing s i0 ≤ spacing s i) (dest φ ψ : s.Wf) :
    ‖scal s φ (o.apply dest ψ)‖ ≤
      o.emax i0 * (Real.sqrt (scal s φ φ).re * Real.sqrt (scal s ψ ψ).re) := by
  have hv := vol_pos h
  have hpi := Real.pi_pos
  have hNφ := nsq_nonneg s φ
  have hNψ := nsq_nonneg s ψ
  have hx0 := spacing_pos h i0
  rw [scal_eq, scal_eq, scal_eq, ip_self, ip_self, norm_mul, Complex.norm_real, Real.norm_eq_abs,
    abs_of_pos hv, Complex.re_ofReal_mul, Complex.re_ofReal_mul, Complex.ofReal_re,
    Complex.ofReal_re, Real.sqrt_mul hv.le, Real.sqrt_mul hv.le]
  have hvv : Real.sqrt (∏ i, spacing s i) * Real.sqrt (∏ i, spacing s i) = ∏ i, spacing s i :=
    Real.mul_self_sqrt hv.le
  have hR : o.emax i0 * (Real.sqrt (∏ i, spacing s i) * Real.sqrt (nsq s φ) *
      (Real.sqrt (∏ i, spacing s i) * Real.sqrt (nsq s ψ))) =
      (∏ i, spacing s i) * (o.emax i0 * (Real.sqrt (nsq s φ) * Real.sqrt (nsq s ψ))) := by
    linear_combination o.emax i0 * Real.sqrt (nsq s φ) * Real.sqrt (nsq s ψ) * hvv
  rw [hR]
  apply mul_le_mul_of_nonneg_left _ hv.le
  rw [o.ip_apply h hd, norm_mul, Complex.norm_real, Real.norm_eq_abs, abs_div, hs,
    abs_of_pos (by positivity : 0 < 2 * o.mass)]
  set P := Real.sqrt (nsq s φ) * Real.sqrt (nsq s ψ) with hP
  have hPn : 0 ≤ P := by positivity
  have hb : ∀ i, ‖ip s φ (times (o.f i) (D s i ψ)) - ip s (D s i φ) (times (o.f i) ψ)‖ ≤
      2 * (vecMax (o.f i) * (Real.pi / spacing s i0) * P) := by
    intro i
    have hi := spacing_pos h i
    have hg : ∀ p, |o.f i p| ≤ vecMax (o.f i) := fun p => by
      rw [abs_of_nonneg (hf i p)]
      exact le_vecMax _ p
    have hM : 0 ≤ vecMax (o.f i) := by
      obtain ⟨p, hp⟩ := vecMax_mem h (o.f i)
      rw [← hp]
      exact hf i p
    have hk : Real.pi / spacing s i ≤ Real.pi / spacing s i0 :=
      div_le_div_of_nonneg_left hpi.le hx0 (hx i)
    have hk0 : 0 ≤ Real.pi / spacing s i := by positivity
    have h1 : ‖ip s φ (times (o.f i) (D s i ψ))‖ ≤
        vecMax (o.f i) * (Real.pi / spacing s i0) * P := by
      refine (ip_times_bound _ _ hg _ _).trans ?_
      rw [mul_assoc]
      apply mul_le_mul_of_nonneg_left _ hM
      calc Real.sqrt (nsq s φ) * Real.sqrt (nsq s (D s i ψ))
          ≤ Real.sqrt (nsq s φ) * (Real.pi / spacing s i * Real.sqrt (nsq s ψ)) :=
            mul_le_mul_of_nonneg_left (sqrt_D h i ψ) (Real.sqrt_nonneg _)
        _ = Real.pi / spacing s i * P := by rw [hP]; ring
        _ ≤ Real.pi / spacing s i0 * P := mul_le_mul_of_nonneg_right hk hPn
    have h2 : ‖ip s (D s i φ) (times (o.f i) ψ)‖ ≤
        vecMax (o.f i) * (Real.pi / spacing s i0) * P := by
      refine (ip_times_bound _ _ hg _ _).trans ?_
      rw [mul_assoc]
      apply mul_le_mul_of_nonneg_left _ hM
      calc Real.sqrt (nsq s (D s i φ)) * Real.sqrt (nsq s ψ)
          ≤ (Real.pi / spacing s i * Real.sqrt (nsq s φ)) * Real.sqrt (nsq s ψ) :=
            mul_le_mul_of_nonneg_right (sqrt_D h i φ) (Real.sqrt_nonneg _)
        _ = Real.pi / spacing s i * P := by rw [hP]; ring
        _ ≤ Real.pi / spacing s i0 * P := mul_le_mul_of_nonneg_right hk hPn
    calc _ ≤ ‖ip s φ (times (o.f i) (D s i ψ))‖ + ‖ip s (D s i φ) (times (o.f i) ψ)‖ :=
          norm_sub_le _ _
      _ ≤ _ := by linarith
  have hsum : ‖∑ i, (ip s φ (times (o.f i) (D s i ψ)) - ip s (D s i φ) (times (o.f i) ψ))‖ ≤
      ∑ i, 2 * (vecMax (o.f i) * (Real.pi / spacing s i0) * P) :=
    (norm_sum_le _ _).trans (Finset.sum_le_sum (fun i _ => hb i))
  calc 1 / (2 * o.mass) * ‖∑ i, (ip s φ (times (o.f i) (D s i ψ)) -
          ip s (D s i φ) (times (o.f i) ψ))‖
      ≤ 1 / (2 * o.mass) * ∑ i, 2 * (vecMax (o.f i) * (Real.pi / spacing s i0) * P) :=
        mul_le_mul_of_nonneg_left hsum (by positivity)
    _ = o.emax i0 * P := by
        unfold Nac.emax
        rw [dx_eq, ← Finset.mul_sum, ← Finset.sum_mul, ← Finset.sum_mul]
        field_simp

/-- A coupling that is negative everywhere. -/
noncomputable def squareNac : Nac square :=
  { f := fun i _ => if (i : Nat) = 0 then 0 else -1, sign := 1, mass := 1 }

/-- The plane wave along the second dimension. -/
def squareQ : square.Pt := fun i => ⟨i, by
  show (i : Nat) < 4
  have : (i : Nat) < 2 := i.2
  omega⟩

theorem squareQ_one : wavenum square squareQ 1 = Real.pi / 2 := by
  unfold wavenum freq
  rw [if_pos (by show 2 * 1 < 4; omega), square_spacing]
  show (((1 : Nat) : ℤ) : ℝ) * (2 * Real.pi / (((4 : Nat) : ℝ) * 1)) = _
  push_cast
  ring

theorem squareNac_wave (dest : square.Wf) :
    squareNac.apply dest (wave square squareQ) =
      (-(Complex.I * ((Real.pi / 2 : ℝ) : ℂ))) • wave square squareQ := by
  rw [Nac.apply_eq square_ok (by show 1 ≤ 2; omega)]
  have h4 : ∀ g : Fin square.d → square.Wf, (∑ i, g i) = ∑ i : Fin 2, g i := fun g => rfl
  rw [h4, Fin.sum_univ_two]
  have t0 : ∀ χ : square.Wf, times (squareNac.f 0) χ = (0 : ℂ) • χ := by
    intro χ
    funext p
    show (((0 : ℝ)) : ℂ) * χ p = _
    simp
  have t1 : ∀ χ : square.Wf, times (squareNac.f 1) χ = (-1 : ℂ) • χ := by
    intro χ
    funext p
    show (((-1 : ℝ)) : ℂ) * χ p = _
    simp
  rw [t0, t0, t1, t1, (lin_D square 0).map_smul, (lin_D square 1).map_smul, zero_smul,
    add_zero, smul_zero, zero_add, (D_isDerivative square_ok 1).2, squareQ_one, smul_smul,
    ← add_smul, smul_smul]
  congr 1
  show ((1 / (2 * 1) : ℝ) : ℂ) * _ = _
  push_cast
  ring

/-- **C146.**  In general `Emax` is not an upper bound: with a negative coupling function it is
negative. -/
theorem C146_upper_violated (dest : square.Wf) :
    squareNac.emax 0 < 0 ∧ ∃ φ ψ : square.Wf,
      squareNac.emax 0 * (Real.sqrt (scal square φ φ).re * Real.sqrt (scal square ψ ψ).re) <
        (scal square φ (squareNac.apply dest ψ)).re := by
  have hpi := Real.pi_pos
  have he : squareNac.emax 0 = -Real.pi := by
    unfold Nac.emax
    have h4 : (∑ i, vecMax (squareNac.f i)) = ∑ i : Fin 2, vecMax (squareNac.f i) := rfl
    have hne : Nonempty square.Pt := ⟨squareQ⟩
    rw [h4, Fin.sum_univ_two]
    have v0 : vecMax (squareNac.f 0) = 0 := by
      show (⨆ _ : square.Pt, (0 : ℝ)) = 0
      exact ciSup_const
    have v1 : vecMax (squareNac.f 1) = -1 := by
      show (⨆ _ : square.Pt, (-1 : ℝ)) = -1
      exact ciSup_const
    rw [v0, v1, dx_eq, square_spacing]
    show (0 + -1) * (Real.pi / 1 / 1) = _
    ring
  refine ⟨by rw [he]; linarith, Complex.I • wave square squareQ, wave square squareQ, ?_⟩
  have hsm : ∀ (c : ℂ) (φ ψ : square.Wf), scal square φ (c • ψ) = c * scal square φ ψ := by
    intro c φ ψ
    rw [scal_eq, ip_smul_right, mul_left_comm, ← scal_eq]
  have hsm2 : ∀ (c : ℂ) (φ ψ : square.Wf),
      scal square (c • φ) ψ = (starRingEnd ℂ) c * scal square φ ψ := by
    intro c φ ψ
    rw [scal_eq, scal_eq, ← ip_conj, ip_smul_right, map_mul, ip_conj]
    ring
  obtain ⟨n, hn⟩ : ∃ n : ℝ, scal square (wave square squareQ) (wave square squareQ) = (n : ℂ) := by
    refine ⟨(∏ i, spacing square i) * nsq square (wave square squareQ), ?_⟩
    rw [scal_eq, ip_self, Complex.ofReal_mul]
  have hn0 : 0 < n := by
    have := scal_wave_pos square_ok squareQ
    rwa [hn, Complex.ofReal_re] at this
  rw [squareNac_wave, hsm, hsm2, hsm, hsm2, hn, he]
  have h1 : ((starRingEnd ℂ) Complex.I * (n : ℂ)) * Complex.I = (n : ℂ) := by
    rw [Complex.conj_I]
    linear_combination -(n : ℂ) * Complex.I_sq
  have h2 : (Complex.I * ((starRingEnd ℂ) Complex.I * (n : ℂ))).re = n := by
    rw [mul_comm, h1, Complex.ofReal_re]
  have h3 : (-(Complex.I * ((Real.pi / 2 : ℝ) : ℂ)) * ((starRingEnd ℂ) Complex.I * (n : ℂ))).re =
      -(Real.pi / 2) * n := by
    have : -(Complex.I * ((Real.pi / 2 : ℝ) : ℂ)) * ((starRingEnd ℂ) Complex.I * (n : ℂ)) =
        ((-(Real.pi / 2) * n : ℝ) : ℂ) := by
      push_cast
      linear_combination -((Real.pi : ℂ) / 2) * h1
    rw [this, Complex.ofReal_re]
  rw [h2, h3, Complex.ofReal_re, Real.mul_self_sqrt hn0.le]
  nlinarith

/-- **C146.**  `Emin` is always zero, although the matrix elements have both signs. -/
theorem C146_lower_violated (dest : square.Wf) :
    squareNac.emin 0 = 0 ∧ ∃ φ ψ : square.Wf, (scal square φ (squareNac.apply dest ψ)).re < 0 := by
  refine ⟨by unfold Nac.emin; rw [zero_mul], Complex.I • wave square squareQ, wave square squareQ, ?_⟩
  have hsm : ∀ (c : ℂ) (φ ψ : square.Wf), scal square φ (c • ψ) = c * scal square φ ψ := by
    intro c φ ψ
    rw [scal_eq, ip_smul_right, mul_left_comm, ← scal_eq]
  have hsm2 : ∀ (c : ℂ) (φ ψ : square.Wf),
      scal square (c • φ) ψ = (starRingEnd ℂ) c * scal square φ ψ := by
    intro c φ ψ
    rw [scal_eq, scal_eq, ← ip_conj, ip_smul_right, map_mul, ip_conj]
    ring
  have hn0 := scal_wave_pos square_ok squareQ
  have hpi := Real.pi_pos
  rw [squareNac_wave, hsm, hsm2]
  have : -(Complex.I * ((Real.pi / 2 : ℝ) : ℂ)) * ((starRingEnd ℂ) Complex.I *
      scal square (wave square squareQ) (wave square squareQ)) =
      ((-(Real.pi / 2) : ℝ) : ℂ) * scal square (wave square squareQ) (wave square squareQ) := by
    rw [Complex.conj_I]
    push_cast
    linear_combination ((Real.pi : ℂ) / 2) * scal square (wave square squareQ) (wave square squareQ) *
      Complex.I_sq
  rw [this, Complex.re_ofReal_mul]
  nlinarith

/-- The hypotheses of the partial bound hold for a coordinate dependent coupling. -/
example : ∃ o : Nac square, (∀ i p, 0 ≤ o.f i p) ∧ 0 < o.mass ∧ |o.sign| = 1 ∧
    ∀ i, spacing square 0 ≤ spacing square i :=
  ⟨{ f := fun i p => ((p i : Nat) : ℝ), sign := -1, mass := 2 }, fun i p => Nat.cast_nonneg _,
    by norm_num, by norm_num, fun i => by rw [square_spacing, square_spacing]⟩

end QDng.Deriv
