import Verif.Deriv.NablaLemmas

/-
Properties C136-C140 of the Nabla and the momentum operator.
-/

namespace QDng.Deriv

open QDng.Grid

/-- A rectangle of three by five points. -/
noncomputable abbrev rect : Space :=
  { d := 2, axes := fun i => { n := if i = 0 then 3 else 5, xmin := -1, xmax := 1 } }

theorem rect_ok : rect.Ok := by
  intro i
  refine ⟨?_, ?_⟩
  · show 2 ≤ if i = 0 then 3 else 5
    split <;> omega
  · show (-1 : ℝ) < 1
    norm_num

/-! ### C136 -/

/-- **C136.**  Nabla and momentum operator act on each plane wave of the grid as the derivative, for
one dimension or the sum over all: Nabla multiplies by `i k`, the momentum operator by `k`, times the
prefactor. -/
theorem C136_plane {s : Space} (h : s.Ok) (o : Nabla s) (hc : o.conj = false) (q : s.Pt) :
    o.apply (wave s q) =
      ((o.fac : ℂ) * (if o.momentum then 1 else Complex.I) * (waveSum s o.dim q : ℂ)) • wave s q := by
  unfold Nabla.apply
  rw [o.applyTo_wave h, o.kspace_eq h]
  unfold Nabla.eig Nabla.sgn
  rw [hc]
  simp

/-- **C136.**  The operators are linear, so that they are fixed by the plane waves. -/
theorem C136_linear {s : Space} (o : Nabla s) (c : ℂ) (φ ψ : s.Wf) :
    o.apply (c • φ + ψ) = c • o.apply φ + o.apply ψ := o.lin _ c φ ψ

/-- **C136.**  There is only one derivative that is exact for all plane waves of the grid, and it is
the Nabla operator of this dimension. -/
theorem C136_derivative {s : Space} (h : s.Ok) (i : Fin s.d) (D : s.Wf → s.Wf) :
    IsDerivative s i D ↔
      D = Nabla.apply { fac := 1, momentum := false, dim := some i, conj := false } := by
  set o : Nabla s := { fac := 1, momentum := false, dim := some i, conj := false } with ho
  have hd : IsDerivative s i o.apply := by
    refine ⟨fun c φ ψ => o.lin _ c φ ψ, fun q => ?_⟩
    rw [C136_plane h o rfl, ho]
    simp [waveSum]
  constructor
  · intro hD
    refine Lin.ext_wave h hD.1 hd.1 (fun q => ?_)
    rw [hD.2, hd.2]
  · intro hD
    rw [hD]
    exact hd

/-- **C136.**  The variant that changes the wave function in place gives the same result as the
variant that writes to a second one. -/
theorem C136_in_place {s : Space} (o : Nabla s) (ψ : s.Wf) :
    o.applyIn o.kspace ψ = o.apply ψ := o.applyIn_eq _ ψ

/-- **C136.**  The momentum operator is Hermitian. -/
theorem C136_momentum {s : Space} (h : s.Ok) (o : Nabla s) (hm : o.momentum = true) (φ ψ : s.Wf) :
    scal s φ (o.apply ψ) = scal s (o.apply φ) ψ := by
  rw [scal_eq, scal_eq]
  congr 1
  refine diag_symm h (o.lin _) (fun q => o.sgn * o.fac * o.kspace q) (fun q => ?_) φ ψ
  rw [o.applyTo_E h]
  unfold Nabla.eig
  rw [hm]
  congr 1
  simp

/-- **C136.**  The Nabla operator is anti-Hermitian. -/
theorem C136_nabla {s : Space} (h : s.Ok) (o : Nabla s) (hm : o.momentum = false) (φ ψ : s.Wf) :
    scal s φ (o.apply ψ) = -scal s (o.apply φ) ψ := by
  rw [scal_eq, scal_eq, ← mul_neg]
  congr 1
  refine diag_anti h (o.lin _) (fun q => o.sgn * o.fac * o.kspace q) (fun q => ?_) φ ψ
  rw [o.applyTo_E h]
  unfold Nabla.eig
  rw [hm]
  congr 1
  simp
  ring

example : ∃ (s : Space) (o : Nabla s), s.Ok ∧ o.conj = false ∧ o.momentum = true ∧ o.dim.isSome :=
  ⟨rect, { fac := 2, momentum := true, dim := some 1, conj := false }, rect_ok, rfl, rfl, rfl⟩

/-! ### C137 -/

/-- **C137.**  The conjugate flag of the momentum operator gives the complex conjugate operator, on
grids with an odd number of points. -/
theorem C137_momentum_partial {s : Space} (h : s.Ok) (hodd : ∀ i, Odd (s.axes i).n) (o : Nabla s)
    (hm : o.momentum = true) (hc : o.conj = false) (ψ : s.Wf) :
    ({ o with conj := true } : Nabla s).apply ψ = conjMap o.apply ψ := by
  refine Lin.ext h (({ o with conj := true } : Nabla s).lin _) (lin_conjMap (o.lin _)) (fun q => ?_) ψ
  rw [Nabla.applyTo_E h, conjMap_E h (fun q => o.eig o.kspace q) (fun q => o.applyTo_E h _ q)]
  congr 1
  have hk : ({ o with conj := true } : Nabla s).kspace = o.kspace := rfl
  rw [hk, o.kspace_eq h]
  unfold Nabla.eig Nabla.sgn
  rw [hm, hc, waveSum_neg h hodd]
  simp only [if_true, Bool.false_eq_true, if_false, map_mul, Complex.conj_ofReal, map_one]
  push_cast
  ring

/-- **C137.**  For the Nabla operator the flag gives minus the complex conjugate operator: the
derivative is real, but its sign is changed. -/
theorem C137_nabla_violated {s : Space} (h : s.Ok) (hodd : ∀ i, Odd (s.axes i).n) (o : Nabla s)
    (hm : o.momentum = false) (hc : o.conj = false) (ψ : s.Wf) :
    ({ o with conj := true } : Nabla s).apply ψ = -conjMap o.apply ψ ∧
      conjMap o.apply ψ = o.apply ψ := by
  have h2 : conjMap o.apply ψ = o.apply ψ := by
    refine Lin.ext h (lin_conjMap (o.lin _)) (o.lin _) (fun q => ?_) ψ
    rw [Nabla.applyTo_E h, conjMap_E h (fun q => o.eig o.kspace q) (fun q => o.applyTo_E h _ q)]
    congr 1
    rw [o.kspace_eq h]
    unfold Nabla.eig Nabla.sgn
    rw [hm, hc, waveSum_neg h hodd]
    simp only [Bool.false_eq_true, if_false, map_mul, Complex.conj_ofReal, Complex.conj_I]
    push_cast
    ring
  refine ⟨?_, h2⟩
  rw [h2]
  refine Lin.ext h (({ o with conj := true } : Nabla s).lin _) (B := fun ψ => -o.apply ψ) ?_
    (fun q => ?_) ψ
  · have := (o.lin o.kspace).smul (-1)
    simpa only [neg_smul, one_smul, Nabla.apply] using this
  · simp only [Nabla.apply, Nabla.applyTo_E h]
    rw [← neg_smul]
    congr 1
    have hk : ({ o with conj := true } : Nabla s).kspace = o.kspace := rfl
    rw [hk]
    unfold Nabla.eig Nabla.sgn
    simp only [hc, if_true, Bool.false_eq_true, if_false]
    push_cast
    ring

/-- **C137.**  For the Nabla operator the flag gives the adjoint. -/
theorem C137_adjoint_partial {s : Space} (h : s.Ok) (o : Nabla s) (hm : o.momentum = false)
    (hc : o.conj = false) (φ ψ : s.Wf) :
    scal s φ (o.apply ψ) = scal s (({ o with conj := true } : Nabla s).apply φ) ψ := by
  rw [C136_nabla h o hm]
  have : ({ o with conj := true } : Nabla s).apply φ = -o.apply φ := by
    refine Lin.ext h (({ o with conj := true } : Nabla s).lin _) (B := fun ψ => -o.apply ψ) ?_
      (fun q => ?_) φ
    · have := (o.lin o.kspace).smul (-1)
      simpa only [neg_smul, one_smul, Nabla.apply] using this
    · simp only [Nabla.apply, Nabla.applyTo_E h]
      rw [← neg_smul]
      congr 1
      have hk : ({ o with conj := true } : Nabla s).kspace = o.kspace := rfl
      rw [hk]
      unfold Nabla.eig Nabla.sgn
      simp only [hc, if_true, Bool.false_eq_true, if_false]
      push_cast
      ring
  rw [this]
  unfold scal
  rw [← mul_neg, ← Finset.sum_neg_distrib]
  congr 1
  refine Finset.sum_congr rfl (fun x _ => ?_)
  rw [Pi.neg_apply, map_neg]
  ring

/-- **C137.**  For the momentum operator the flag does not give the adjoint: this is the operator
itself, with the flag the sign changes. -/
theorem C137_momentum_adjoint_violated {s : Space} (h : s.Ok) (o : Nabla s) (hm : o.momentum = true)
    (hc : o.conj = false) (q : s.Pt) (hk : waveSum s o.dim q ≠ 0) (hf : o.fac ≠ 0) :
    scal s (wave s q) (o.apply (wave s q)) ≠
      scal s (({ o with conj := true } : Nabla s).apply (wave s q)) (wave s q) := by
  have h1 : ({ o with conj := true } : Nabla s).apply (wave s q) = -o.apply (wave s q) := by
    unfold Nabla.apply
    rw [Nabla.applyTo_wave h, Nabla.applyTo_wave h, ← neg_smul]
    congr 1
    have hk : ({ o with conj := true } : Nabla s).kspace = o.kspace := rfl
    rw [hk]
    unfold Nabla.eig Nabla.sgn
    simp only [hc, if_true, Bool.false_eq_true, if_false]
    push_cast
    ring
  have h2 : ∀ a b : s.Wf, scal s (-a) b = -scal s a b := by
    intro a b
    unfold scal
    rw [← mul_neg, ← Finset.sum_neg_distrib]
    congr 1
    refine Finset.sum_congr rfl (fun x _ => ?_)
    rw [Pi.neg_apply, map_neg]
    ring
  rw [h1, h2, ← C136_momentum h o hm, C136_plane h o hc, hm, scal_eq, ip_smul_right, mul_left_comm,
    ← scal_eq]
  intro he
  have h3 := scal_wave_pos h q
  have h4 : scal s (wave s q) (wave s q) ≠ 0 := by
    intro h0
    rw [h0] at h3
    simp at h3
  have h5 : ((o.fac : ℂ) * (if true = true then 1 else Complex.I) * (waveSum s o.dim q : ℂ)) *
      scal s (wave s q) (wave s q) = 0 := by linear_combination he / 2
  rcases mul_eq_zero.1 h5 with h6 | h6
  · simp only [if_true, mul_one] at h6
    rcases mul_eq_zero.1 h6 with h7 | h7
    · exact hf (by exact_mod_cast h7)
    · exact hk (by exact_mod_cast h7)
  · exact h4 h6

example : rect.Ok ∧ (∀ i, Odd (rect.axes i).n) :=
  ⟨rect_ok, fun i => by
    show Odd (if i = 0 then 3 else 5)
    split
    · exact ⟨1, rfl⟩
    · exact ⟨2, rfl⟩⟩

/-- A plane wave that moves along the second dimension of the rectangle. -/
noncomputable def rectQ : rect.Pt := fun i => ⟨i, by
  show (i : Nat) < if i = 0 then 3 else 5
  have : (i : Nat) < 2 := i.2
  split <;> omega⟩

theorem rectQ_zero : wavenum rect rectQ 0 = 0 := by
  unfold wavenum freq rectQ
  rw [if_pos (by show 2 * 0 < if (0 : Fin 2) = 0 then 3 else 5; rw [if_pos rfl]; omega)]
  show (((0 : Nat) : ℤ) : ℝ) * _ = 0
  simp

theorem rectQ_one : 0 < wavenum rect rectQ 1 := by
  unfold wavenum freq rectQ
  rw [if_pos (by
    show 2 * 1 < if (1 : Fin 2) = 0 then 3 else 5
    rw [if_neg (by simp)]
    omega)]
  show 0 < (((1 : Nat) : ℤ) : ℝ) * _
  have h1 := spacing_pos rect_ok 1
  have h2 : (2 : ℝ) ≤ (rect.axes 1).n := by exact_mod_cast (rect_ok 1).1
  have := Real.pi_pos
  push_cast
  rw [one_mul]
  apply div_pos
  · positivity
  · apply mul_pos _ h1
    linarith

/-- The hypotheses of the violation hold for the momentum along the second dimension. -/
example : ∃ (s : Space) (o : Nabla s) (q : s.Pt), s.Ok ∧ o.momentum = true ∧ o.conj = false ∧
    waveSum s o.dim q ≠ 0 ∧ o.fac ≠ 0 :=
  ⟨rect, { fac := 1, momentum := true, dim := some 1, conj := false }, rectQ, rect_ok, rfl, rfl,
    rectQ_one.ne', one_ne_zero⟩

/-! ### C138 -/

/-- **C138.**  A copy that is used right away acts like the original. -/
theorem C138_copy_partial {s : Space} (o : Nabla s) (hc : o.conj = false) (ψ : s.Wf) :
    o.applyCopy ψ = o.apply ψ := by
  unfold Nabla.applyCopy Nabla.apply Nabla.copy Nabla.applyTo
  simp only [hc]

/-- **C138.**  A copy that is initialised before it is used acts on all dimensions, also if the
original acts on one. -/
theorem C138_copy_violated :
    ∃ (s : Space) (o : Nabla s) (ψ : s.Wf), s.Ok ∧ o.conj = false ∧ o.apply ψ = 0 ∧
      o.applyCopyInit ψ ≠ 0 := by
  refine ⟨rect, { fac := 1, momentum := true, dim := some 0, conj := false }, wave rect rectQ,
    rect_ok, rfl, ?_, ?_⟩
  · rw [C136_plane rect_ok _ rfl]
    show (_ * ((wavenum rect rectQ 0 : ℝ) : ℂ)) • _ = _
    rw [rectQ_zero]
    simp
  · unfold Nabla.applyCopyInit
    rw [C136_plane rect_ok _ rfl]
    intro h0
    have h1 := smul_wave_inj rect_ok rectQ _ 0 (h0.trans (zero_smul ℂ _).symm)
    simp only [Nabla.copy, Complex.ofReal_one, if_true, one_mul] at h1
    have h2 : waveSum rect none rectQ = 0 := by exact_mod_cast h1
    have h3 : waveSum rect none rectQ = wavenum rect rectQ 0 + wavenum rect rectQ 1 :=
      Fin.sum_univ_two _
    rw [h3, rectQ_zero, zero_add] at h2
    exact rectQ_one.ne' h2

/-- **C138.**  A copy of an operator with the conjugate flag has lost the flag. -/
theorem C138_flag_violated {s : Space} (h : s.Ok) (o : Nabla s) (hc : o.conj = true) (q : s.Pt) :
    o.applyCopy (wave s q) = -o.apply (wave s q) := by
  unfold Nabla.applyCopy Nabla.apply
  rw [Nabla.applyTo_wave h, Nabla.applyTo_wave h, ← neg_smul]
  congr 1
  unfold Nabla.eig Nabla.sgn Nabla.copy
  simp only [hc, if_true, Bool.false_eq_true, if_false]
  push_cast
  ring

/-! ### C139 -/

/-- The exponential of the operator on a plane wave. -/
theorem expo_wave {s : Space} (h : s.Ok) (o : Nabla s) (junk : s.Pt → ℝ) (c : ℂ) (q : s.Pt) :
    o.expo junk c (wave s q) =
      Complex.exp ((⟨junk q, -waveSum s o.dim q⟩ : ℂ) * (c * (o.fac : ℂ))) • wave s q := by
  have h1 : Lin (o.expo junk c) := lin_diag s (fun p => Complex.exp (o.dspace junk p *
    (c * (o.fac : ℂ))) * ((1 / (s.size : ℝ) : ℝ) : ℂ))
  rw [(scale_wave h h1 q _).2]
  have h2 := expo_E h (fun p => Complex.exp (o.dspace junk p * (c * (o.fac : ℂ)))) q
  refine h2.trans ?_
  unfold Nabla.dspace
  rw [o.kspace_eq h]

/-- **C139.**  If the memory for the exponential happens to be zero, the exponential of the Nabla
operator is the one of minus the operator: the plane waves get the opposite phase. -/
theorem C139_sign_violated {s : Space} (h : s.Ok) (o : Nabla s) (hm : o.momentum = false)
    (hc : o.conj = false) (c : ℂ) (q : s.Pt) :
    ∃ a : ℂ, o.apply (wave s q) = a • wave s q ∧
      o.expo (fun _ => 0) c (wave s q) = Complex.exp (-(c * a)) • wave s q := by
  refine ⟨_, C136_plane h o hc q, ?_⟩
  rw [expo_wave h, hm]
  congr 2
  rw [show (⟨0, -waveSum s o.dim q⟩ : ℂ) = -((waveSum s o.dim q : ℂ) * Complex.I) by
    apply Complex.ext <;> simp]
  simp only [Bool.false_eq_true, if_false]
  ring

/-- **C139.**  The result depends on what was in the memory before. -/
theorem C139_junk_violated {s : Space} (h : s.Ok) (o : Nabla s) (hf : o.fac = 1) (q : s.Pt) :
    ∃ j1 j2 : s.Pt → ℝ, o.expo j1 1 (wave s q) ≠ o.expo j2 1 (wave s q) := by
  refine ⟨fun _ => 0, fun _ => 1, fun he => ?_⟩
  rw [expo_wave h, expo_wave h] at he
  have h1 := smul_wave_inj h q _ _ he
  have h2 := congrArg norm h1
  rw [Complex.norm_exp, Complex.norm_exp, hf] at h2
  simp only [Complex.ofReal_one, mul_one] at h2
  have := Real.exp_injective h2
  norm_num at this

/-- **C139.**  In momentum mode the exponential has an additional factor `-i`: it is again the one of
minus the derivative. -/
theorem C139_momentum_violated {s : Space} (h : s.Ok) (o : Nabla s) (hm : o.momentum = true)
    (hc : o.conj = false) (c : ℂ) (q : s.Pt) :
    ∃ a : ℂ, o.apply (wave s q) = a • wave s q ∧
      o.expo (fun _ => 0) c (wave s q) = Complex.exp (-(Complex.I * c * a)) • wave s q := by
  refine ⟨_, C136_plane h o hc q, ?_⟩
  rw [expo_wave h, hm]
  congr 2
  rw [show (⟨0, -waveSum s o.dim q⟩ : ℂ) = -((waveSum s o.dim q : ℂ) * Complex.I) by
    apply Complex.ext <;> simp]
  simp only [if_true]
  ring

/-! ### C140 -/

/-- **C140.**  On a grid with an odd number of points `Emax` is the largest wave number. -/
theorem C140_odd_partial {s : Space} (h : s.Ok) (i : Fin s.d) (ho : Odd (s.axes i).n) :
    (∃ q : s.Pt, nablaEmax s i = wavenum s q i) ∧ ∀ q : s.Pt, wavenum s q i ≤ nablaEmax s i := by
  have hlt : ∀ i, (s.axes i).n / 2 < (s.axes i).n := fun i => by have := (h i).1; omega
  have he : nablaEmax s i = wavenum s (fun i => ⟨(s.axes i).n / 2, hlt i⟩) i := by
    have := ddx_eq h i 1 (fun i => ⟨(s.axes i).n / 2, hlt i⟩)
    rw [mul_one] at this
    exact this
  refine ⟨⟨_, he⟩, fun q => ?_⟩
  rw [he]
  unfold wavenum
  have hs := spacing_pos h i
  have hpi := Real.pi_pos
  apply mul_le_mul_of_nonneg_right _ (by positivity)
  obtain ⟨k, hk⟩ := ho
  have hq := (q i).2
  have : freq (s.axes i).n (q i) ≤ freq (s.axes i).n ((s.axes i).n / 2) := by
    unfold freq
    split_ifs <;> omega
  exact_mod_cast this

/-- **C140.**  On a grid with an even number of points `Emax` is the smallest, negative wave number
and not the largest. -/
theorem C140_even_violated {s : Space} (h : s.Ok) (i : Fin s.d) (he : Even (s.axes i).n) :
    nablaEmax s i = -(Real.pi / spacing s i) ∧ ∀ q : s.Pt, nablaEmax s i ≤ wavenum s q i := by
  have hlt : ∀ i, (s.axes i).n / 2 < (s.axes i).n := fun i => by have := (h i).1; omega
  have hs := spacing_pos h i
  have h1 : nablaEmax s i = -(Real.pi / spacing s i) := by
    have h2 := ddx_eq h i 1 (fun i => ⟨(s.axes i).n / 2, hlt i⟩)
    rw [mul_one] at h2
    refine h2.trans ?_
    obtain ⟨k, hk⟩ := he
    have hk2 : (s.axes i).n / 2 = k := by omega
    have hn : ((s.axes i).n : ℝ) = 2 * k := by rw [hk]; push_cast; ring
    have hk0 : (k : ℝ) ≠ 0 := by
      have : 0 < k := by have := (h i).1; omega
      positivity
    unfold wavenum freq
    simp only
    rw [if_neg (by omega), hk2, hn]
    push_cast
    rw [hn]
    field_simp
    ring
  refine ⟨h1, fun q => ?_⟩
  rw [h1]
  exact (abs_le.1 (wavenum_le h q i)).1

example : Odd (rect.axes 0).n := ⟨1, rfl⟩

end QDng.Deriv
