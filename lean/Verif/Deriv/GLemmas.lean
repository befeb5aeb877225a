import Verif.Deriv.NablaLemmas
import Mathlib.Analysis.Real.Sqrt

namespace QDng.Deriv

open QDng.Grid

/-! ### The first derivative -/

/-- The derivative along one dimension. -/
noncomputable def D (s : Space) (i : Fin s.d) (ψ : s.Wf) : s.Wf := dnDxn s i ψ 1

theorem dnDxn_eq (s : Space) (i : Fin s.d) (ψ : s.Wf) (d : ℝ) :
    dnDxn s i ψ d = diagDim s i (fun p => ((ddx s i 1 (p i) : ℂ) * Complex.I) *
      ((d / ((s.axes i).n : ℝ) : ℝ) : ℂ)) ψ := by
  unfold dnDxn diagDim
  simp only [mul_assoc]

theorem n_ne {s : Space} (h : s.Ok) (i : Fin s.d) : ((s.axes i).n : ℂ) ≠ 0 := by
  have := (h i).1
  have h2 : (s.axes i).n ≠ 0 := by omega
  exact_mod_cast h2

theorem lin_dnDxn (s : Space) (i : Fin s.d) (d : ℝ) : Lin (fun ψ => dnDxn s i ψ d) := by
  intro c φ ψ
  simp only [dnDxn_eq]
  exact lin_diagDim s i _ c φ ψ

theorem lin_D (s : Space) (i : Fin s.d) : Lin (D s i) := lin_dnDxn s i 1

theorem dnDxn_E {s : Space} (h : s.Ok) (i : Fin s.d) (d : ℝ) (q : s.Pt) :
    dnDxn s i (E s q) d = ((d : ℂ) * (Complex.I * (wavenum s q i : ℂ))) • E s q := by
  have hn := n_ne h i
  rw [dnDxn_eq, diagDim_E s i (fun j => ((ddx s i 1 j : ℂ) * Complex.I) *
      ((d / ((s.axes i).n : ℝ) : ℝ) : ℂ)), ddx_eq h, mul_one]
  congr 1
  push_cast
  field_simp

theorem D_E {s : Space} (h : s.Ok) (i : Fin s.d) (q : s.Pt) :
    D s i (E s q) = (Complex.I * (wavenum s q i : ℂ)) • E s q := by
  unfold D
  rw [dnDxn_E h, Complex.ofReal_one, one_mul]

theorem dnDxn_smul {s : Space} (h : s.Ok) (i : Fin s.d) (ψ : s.Wf) (d : ℝ) :
    dnDxn s i ψ d = (d : ℂ) • D s i ψ := by
  refine Lin.ext h (lin_dnDxn s i d) ((lin_D s i).smul (d : ℂ)) (fun q => ?_) ψ
  simp only [dnDxn_E h, D_E h, smul_smul]

theorem dnDxnAdd_eq {s : Space} (h : s.Ok) (i : Fin s.d) (out ψ : s.Wf) (d : ℝ) :
    dnDxnAdd s i out ψ d = out + (d : ℂ) • D s i ψ := by
  rw [← dnDxn_smul h]
  unfold dnDxnAdd dnDxn
  simp only
  congr 2
  funext p
  ring

theorem D_isDerivative {s : Space} (h : s.Ok) (i : Fin s.d) : IsDerivative s i (D s i) :=
  ⟨lin_D s i, fun q => (scale_wave h (lin_D s i) q _).2 (D_E h i q)⟩

theorem isDerivative_eq {s : Space} (h : s.Ok) (i : Fin s.d) {A : s.Wf → s.Wf}
    (hA : IsDerivative s i A) : A = D s i :=
  Lin.ext_wave h hA.1 (lin_D s i) (fun q => by rw [hA.2, (D_isDerivative h i).2])

theorem ip_D {s : Space} (h : s.Ok) (i : Fin s.d) (φ ψ : s.Wf) :
    ip s φ (D s i ψ) = -ip s (D s i φ) ψ :=
  diag_anti h (lin_D s i) (fun q => wavenum s q i) (D_E h i) φ ψ

theorem ip_neg_right (s : Space) (φ ψ : s.Wf) : ip s φ (-ψ) = -ip s φ ψ := by
  have := ip_smul_right s φ ψ (-1)
  simpa using this

theorem Lin.map_smul {s : Space} {A : s.Wf → s.Wf} (hA : Lin A) (c : ℂ) (ψ : s.Wf) :
    A (c • ψ) = c • A ψ := by
  have := hA.map_sum (Finset.univ : Finset Unit) (fun _ => c) (fun _ => ψ)
  simpa using this

/-- The squared norm. -/
noncomputable def nsq (s : Space) (ψ : s.Wf) : ℝ := ∑ x, ‖ψ x‖ ^ 2

theorem ip_self (s : Space) (ψ : s.Wf) : ip s ψ ψ = (nsq s ψ : ℂ) := by
  unfold ip nsq
  rw [Complex.ofReal_sum]
  exact Finset.sum_congr rfl (fun x _ => by rw [Complex.conj_mul', Complex.ofReal_pow])

theorem nsq_nonneg (s : Space) (ψ : s.Wf) : 0 ≤ nsq s ψ :=
  Finset.sum_nonneg (fun x _ => by positivity)

theorem nsq_eq {s : Space} (h : s.Ok) (ψ : s.Wf) :
    nsq s ψ = (∑ q, ‖forward s ψ q‖ ^ 2) / (s.size : ℝ) := by
  have h1 := ip_self s ψ
  rw [norm_expec h] at h1
  exact_mod_cast h1.symm

theorem nsq_D {s : Space} (h : s.Ok) (i : Fin s.d) (ψ : s.Wf) :
    nsq s (D s i ψ) ≤ (Real.pi / spacing s i) ^ 2 * nsq s ψ := by
  have hs : (0 : ℝ) < s.size := by exact_mod_cast size_pos h
  have hA : Lin (fun ψ => (-1 : ℂ) • D s i (D s i ψ)) := ((lin_D s i).comp (lin_D s i)).smul (-1)
  have h1 := diag_expec h hA (fun q => wavenum s q i ^ 2) (fun q => by
    simp only [D_E h, (lin_D s i).map_smul, smul_smul]
    congr 1
    push_cast
    linear_combination -(wavenum s q i : ℂ) ^ 2 * Complex.I_sq) ψ
  have h2 : ip s ψ ((-1 : ℂ) • D s i (D s i ψ)) = ip s (D s i ψ) (D s i ψ) := by
    rw [ip_smul_right, ip_D h]
    ring
  rw [h2, ip_self] at h1
  have h3 : nsq s (D s i ψ) =
      (∑ q, wavenum s q i ^ 2 * ‖forward s ψ q‖ ^ 2) / (s.size : ℝ) := by exact_mod_cast h1
  rw [h3, nsq_eq h, ← mul_div_assoc, Finset.mul_sum]
  apply div_le_div_of_nonneg_right _ hs.le
  refine Finset.sum_le_sum (fun q _ => ?_)
  apply mul_le_mul_of_nonneg_right _ (by positivity)
  rw [← sq_abs (wavenum s q i)]
  exact pow_le_pow_left₀ (abs_nonneg _) (wavenum_le h q i) 2

theorem sum_le (s : Space) (φ ψ : s.Wf) :
    ∑ x, ‖φ x‖ * ‖ψ x‖ ≤ Real.sqrt (nsq s φ) * Real.sqrt (nsq s ψ) :=
  Real.sum_mul_le_sqrt_mul_sqrt _ _ _

theorem sqrt_D {s : Space} (h : s.Ok) (i : Fin s.d) (ψ : s.Wf) :
    Real.sqrt (nsq s (D s i ψ)) ≤ Real.pi / spacing s i * Real.sqrt (nsq s ψ) := by
  have hk : 0 ≤ Real.pi / spacing s i := div_nonneg Real.pi_pos.le (spacing_pos h i).le
  calc Real.sqrt (nsq s (D s i ψ)) ≤ Real.sqrt ((Real.pi / spacing s i) ^ 2 * nsq s ψ) :=
        Real.sqrt_le_sqrt (nsq_D h i ψ)
    _ = Real.pi / spacing s i * Real.sqrt (nsq s ψ) := by
        rw [Real.sqrt_mul (by positivity), Real.sqrt_sq hk]

/-! ### The G-matrix operator -/

theorem foldl_add {s : Space} {ι : Type} (l : List ι) (f : s.Wf → ι → s.Wf) (g : ι → s.Wf)
    (hf : ∀ a i, f a i = a + g i) (a : s.Wf) : l.foldl f a = a + (l.map g).sum := by
  induction l generalizing a with
  | nil => simp
  | cons x xs ih =>
    rw [List.foldl_cons, ih, hf, List.map_cons, List.sum_cons, add_assoc]

theorem foldl_fin {s : Space} {n : Nat} (f : s.Wf → Fin n → s.Wf) (g : Fin n → s.Wf)
    (hf : ∀ a i, f a i = a + g i) (a : s.Wf) : (List.finRange n).foldl f a = a + ∑ i, g i := by
  rw [foldl_add _ _ _ hf, ← List.ofFn_eq_map, List.sum_ofFn]

/-- Whether an element of the matrix is used. -/
def GMat.used {s : Space} (o : GMat s) (i j : Fin s.d) : Prop := i = j ∨ o.coup = true

open Classical in
/-- The matrix the operator uses. -/
noncomputable def GMat.mat {s : Space} (o : GMat s) (i j : Fin s.d) (p : s.Pt) : ℝ :=
  if o.used i j then (o.elem i j).val p else 0

theorem times_zero {s : Space} (ψ : s.Wf) : times (fun _ => 0) ψ = 0 := by
  funext p
  simp [times]

theorem GMat.term_eq {s : Space} (h : s.Ok) (o : GMat s) (i : Fin s.d) (w dest : s.Wf)
    (j : Fin s.d) :
    o.term i w dest j = dest + (-(1 / 2) : ℂ) • D s j (times (o.mat i j) w) := by
  have hD0 : D s j 0 = 0 := by
    have := (lin_D s j).map_smul 0 0
    simpa using this
  unfold GMat.term
  by_cases hu : i = j ∨ o.coup = true
  · have hm : o.mat i j = (o.elem i j).val := by
      funext p
      exact if_pos hu
    rw [if_pos hu, hm]
    cases he : o.elem i j with
    | none =>
      have : times (Elem.val (.none : Elem s)) w = 0 := times_zero w
      rw [this, hD0]
      simp
    | const g =>
      have : times (Elem.val (.const g : Elem s)) w = (g : ℂ) • w := rfl
      simp only
      rw [dnDxnAdd_eq h, this, (lin_D s j).map_smul, smul_smul]
      congr 2
      push_cast
      ring
    | grid g =>
      have : times (Elem.val (.grid g : Elem s)) w = fun p => w p * (g p : ℂ) := by
        funext p
        exact mul_comm _ _
      simp only
      rw [dnDxnAdd_eq h, this]
      congr 2
      push_cast
      ring
  · have hm : o.mat i j = fun _ => 0 := by
      funext p
      exact if_neg hu
    rw [if_neg hu, hm, times_zero, hD0]
    simp

theorem GMat.apply_eq {s : Space} (h : s.Ok) (o : GMat s) (ψ : s.Wf) :
    o.apply ψ = ∑ i, ∑ j, (-(1 / 2) : ℂ) • D s j (times (o.mat i j) (D s i ψ)) := by
  unfold GMat.apply GMat.applyAdd
  rw [foldl_fin _ (fun i => ∑ j, (-(1 / 2) : ℂ) • D s j (times (o.mat i j) (D s i ψ))), zero_add]
  intro a i
  unfold GMat.row
  rw [foldl_fin _ _ (fun a j => o.term_eq h i _ a j)]
  rfl

theorem ip_sum_right (s : Space) (φ : s.Wf) {ι : Type} (t : Finset ι) (f : ι → s.Wf) :
    ip s φ (∑ q ∈ t, f q) = ∑ q ∈ t, ip s φ (f q) := by
  have := ip_sum s φ t (fun _ => 1) f
  simpa using this

theorem GMat.ip_apply {s : Space} (h : s.Ok) (o : GMat s) (φ ψ : s.Wf) :
    ip s φ (o.apply ψ) =
      (1 / 2) * ∑ i, ∑ j, ip s (D s j φ) (times (o.mat i j) (D s i ψ)) := by
  rw [o.apply_eq h, ip_sum_right, Finset.mul_sum]
  refine Finset.sum_congr rfl (fun i _ => ?_)
  rw [ip_sum_right, Finset.mul_sum]
  refine Finset.sum_congr rfl (fun j _ => ?_)
  rw [ip_smul_right, ip_D h]
  ring

theorem GMat.mat_symm {s : Space} (o : GMat s) (i j : Fin s.d) : o.mat i j = o.mat j i := by
  funext p
  have hu : o.used i j ↔ o.used j i := by
    unfold GMat.used
    rw [eq_comm]
  have he : o.elem i j = o.elem j i := by
    unfold GMat.elem
    by_cases h1 : j ≤ i
    · by_cases h2 : i ≤ j
      · rw [le_antisymm h1 h2]
      · rw [if_pos h1, if_neg h2]
    · rw [if_neg h1, if_pos (le_of_not_ge h1)]
  unfold GMat.mat
  rw [he]
  by_cases h1 : o.used i j
  · rw [if_pos h1, if_pos (hu.1 h1)]
  · rw [if_neg h1, if_neg (fun h2 => h1 (hu.2 h2))]

theorem ip_times (s : Space) (g : s.Pt → ℝ) (φ ψ : s.Wf) :
    (starRingEnd ℂ) (ip s φ (times g ψ)) = ip s ψ (times g φ) := by
  unfold ip times
  rw [map_sum]
  refine Finset.sum_congr rfl (fun x _ => ?_)
  rw [map_mul, map_mul, Complex.conj_conj, Complex.conj_ofReal]
  ring

theorem GMat.mat_eq {s : Space} (o : GMat s) (i j : Fin s.d) (hu : o.used i j) :
    o.mat i j = sym o.low i j := by
  funext p
  unfold GMat.mat sym GMat.elem
  rw [if_pos hu]
  split <;> rfl

theorem ip_times_bound {s : Space} (g : s.Pt → ℝ) (M : ℝ) (hg : ∀ p, |g p| ≤ M) (φ ψ : s.Wf) :
    ‖ip s φ (times g ψ)‖ ≤ M * (Real.sqrt (nsq s φ) * Real.sqrt (nsq s ψ)) := by
  by_cases hM : 0 ≤ M
  · calc ‖ip s φ (times g ψ)‖ ≤ ∑ x, ‖(starRingEnd ℂ) (φ x) * ((g x : ℂ) * ψ x)‖ :=
          norm_sum_le _ _
      _ ≤ ∑ x, M * (‖φ x‖ * ‖ψ x‖) := by
          refine Finset.sum_le_sum (fun x _ => ?_)
          rw [norm_mul, norm_mul, RCLike.norm_conj, Complex.norm_real, Real.norm_eq_abs]
          have h1 := hg x
          have h2 : 0 ≤ ‖φ x‖ * ‖ψ x‖ := by positivity
          calc ‖φ x‖ * (|g x| * ‖ψ x‖) = |g x| * (‖φ x‖ * ‖ψ x‖) := by ring
            _ ≤ M * (‖φ x‖ * ‖ψ x‖) := mul_le_mul_of_nonneg_right h1 h2
      _ = M * ∑ x, ‖φ x‖ * ‖ψ x‖ := by rw [Finset.mul_sum]
      _ ≤ M * (Real.sqrt (nsq s φ) * Real.sqrt (nsq s ψ)) :=
          mul_le_mul_of_nonneg_left (sum_le s φ ψ) hM
  · have hempty : IsEmpty s.Pt := ⟨fun p => hM ((abs_nonneg _).trans (hg p))⟩
    unfold ip nsq
    simp

theorem le_vecMax {s : Space} (g : s.Pt → ℝ) (p : s.Pt) : g p ≤ vecMax g :=
  le_ciSup (Set.finite_range g).bddAbove p

theorem vecMin_le {s : Space} (g : s.Pt → ℝ) (p : s.Pt) : vecMin g ≤ g p :=
  ciInf_le (Set.finite_range g).bddBelow p

theorem vecMax_mem {s : Space} (h : s.Ok) (g : s.Pt → ℝ) : ∃ p, g p = vecMax g := by
  have : Nonempty s.Pt := ⟨fun i => ⟨0, by have := (h i).1; omega⟩⟩
  exact exists_eq_ciSup_of_finite

theorem vecMin_mem {s : Space} (h : s.Ok) (g : s.Pt → ℝ) : ∃ p, g p = vecMin g := by
  have : Nonempty s.Pt := ⟨fun i => ⟨0, by have := (h i).1; omega⟩⟩
  exact exists_eq_ciInf_of_finite

theorem sum_lower {n : Nat} (t : Fin n → Fin n → ℝ) (hs : ∀ i j, t i j = t j i) :
    ∑ i, ∑ j, t i j =
      ∑ i, ∑ j, if j ≤ i then (if i = j then t i i else 2 * t i j) else 0 := by
  have h1 : ∀ i j, t i j = (if j < i then t i j else 0) + (if i = j then t i i else 0) +
      (if i < j then t i j else 0) := by
    intro i j
    rcases lt_trichotomy i j with h | h | h
    · rw [if_neg (not_lt.2 h.le), if_neg h.ne, if_pos h]
      ring
    · subst h
      simp
    · rw [if_pos h, if_neg h.ne', if_neg (not_lt.2 h.le)]
      ring
  have h2 : ∀ i j, (if j ≤ i then (if i = j then t i i else 2 * t i j) else 0) =
      (if j < i then t i j else 0) + (if i = j then t i i else 0) + (if j < i then t i j else 0) := by
    intro i j
    rcases lt_trichotomy i j with h | h | h
    · simp [h.ne, not_lt.2 h.le, not_le.2 h]
    · subst h
      simp
    · simp only [if_pos h, if_neg h.ne', if_pos h.le]
      ring
  rw [Finset.sum_congr rfl (fun i _ => Finset.sum_congr rfl (fun j _ => h1 i j)),
    Finset.sum_congr rfl (fun i _ => Finset.sum_congr rfl (fun j _ => h2 i j))]
  simp only [Finset.sum_add_distrib]
  congr 1
  rw [Finset.sum_comm]
  exact Finset.sum_congr rfl (fun i _ => Finset.sum_congr rfl (fun j _ => by rw [hs]))

/-- An off diagonal element on the grid that is not negative everywhere is bounded by its
contribution to `Emax`. -/
theorem off_bound {s : Space} (h : s.Ok) (o : GMat s) (i j : Fin s.d) (hij : i ≠ j)
    (hc : o.coup = true) (g : s.Pt → ℝ) (hg : o.low i j = .grid g) (hp : ∃ p, 0 ≤ g p) (p : s.Pt) :
    |g p| ≤ o.emaxTerm i j / 2 * (spacing s i * spacing s j) := by
  have hh : 0 < spacing s i * spacing s j := mul_pos (spacing_pos h i) (spacing_pos h j)
  have h1 : vecMin g / (spacing s i * spacing s j) ≤ g p / (spacing s i * spacing s j) :=
    div_le_div_of_nonneg_right (vecMin_le g p) hh.le
  have h2 : g p / (spacing s i * spacing s j) ≤ vecMax g / (spacing s i * spacing s j) :=
    div_le_div_of_nonneg_right (le_vecMax g p) hh.le
  have h3 : 0 ≤ vecMax g / (spacing s i * spacing s j) := by
    obtain ⟨p0, h0⟩ := hp
    exact div_nonneg (h0.trans (le_vecMax g p0)) hh.le
  rw [← div_le_iff₀ hh]
  have h4 : |g p| / (spacing s i * spacing s j) = |g p / (spacing s i * spacing s j)| := by
    rw [abs_div, abs_of_pos hh]
  have key : o.emaxTerm i j =
      if vecMin g / (spacing s i * spacing s j) < 0 ∧
        |vecMin g / (spacing s i * spacing s j)| > |vecMax g / (spacing s i * spacing s j)| then
        2 * |vecMin g / (spacing s i * spacing s j)| else 2 * (vecMax g / (spacing s i * spacing s j)) := by
    unfold GMat.emaxTerm
    rw [if_pos ⟨hij, hc⟩, hg]
    rfl
  rw [h4, key]
  set a := vecMin g / (spacing s i * spacing s j)
  set b := vecMax g / (spacing s i * spacing s j)
  set x := g p / (spacing s i * spacing s j)
  split
  · rename_i hc
    replace hc : a < 0 ∧ |a| > |b| := hc
    rw [abs_of_nonneg h3, abs_of_neg hc.1] at hc
    rw [abs_of_neg hc.1, abs_le]
    constructor <;> linarith [hc.2]
  · rename_i hc
    replace hc : ¬ (a < 0 ∧ |a| > |b|) := hc
    rw [abs_of_nonneg h3] at hc
    rw [abs_le]
    by_cases ha : a < 0
    · have h5 : ¬ |a| > b := fun h6 => hc ⟨ha, h6⟩
      rw [abs_of_neg ha] at h5
      constructor <;> linarith
    · constructor <;> linarith

end QDng.Deriv
