import Verif.Deriv.KinLemmas

namespace QDng.Deriv

open QDng.Grid

theorem Nabla.kspace_eq {s : Space} (h : s.Ok) (o : Nabla s) : o.kspace = waveSum s o.dim := by
  funext q
  unfold Nabla.kspace waveSum
  cases o.dim with
  | none => exact Finset.sum_congr rfl (fun i _ => by rw [ddx_eq h, mul_one])
  | some i => show ddx s i 1 (q i) = _; rw [ddx_eq h, mul_one]

/-- The sign of the conjugate flag. -/
noncomputable def Nabla.sgn {s : Space} (o : Nabla s) : ℝ := if o.conj then -1 else 1

/-- The number a plane wave is multiplied with. -/
noncomputable def Nabla.eig {s : Space} (o : Nabla s) (k : s.Pt → ℝ) (q : s.Pt) : ℂ :=
  ((o.sgn * o.fac : ℝ) : ℂ) * (if o.momentum then 1 else Complex.I) * (k q : ℂ)

theorem Nabla.applyTo_eq {s : Space} (o : Nabla s) (k : s.Pt → ℝ) (ψ : s.Wf) :
    o.applyTo k ψ = diag s (fun p => o.eig k p * ((1 / (s.size : ℝ) : ℝ) : ℂ)) ψ := by
  unfold Nabla.applyTo diag
  refine congrArg (backward s) ?_
  cases hm : o.momentum
  · funext p
    simp only [Nabla.eig, Nabla.sgn, hm, Bool.false_eq_true, if_false]
    push_cast
    ring
  · funext p
    simp only [Nabla.eig, Nabla.sgn, hm, if_true]
    push_cast
    ring

theorem Nabla.applyIn_eq {s : Space} (o : Nabla s) (k : s.Pt → ℝ) (ψ : s.Wf) :
    o.applyIn k ψ = o.applyTo k ψ := by
  unfold Nabla.applyTo Nabla.applyIn
  refine congrArg (backward s) ?_
  cases hm : o.momentum
  · funext p
    simp only [Bool.false_eq_true, if_false]
    ring
  · rfl

theorem Nabla.lin {s : Space} (o : Nabla s) (k : s.Pt → ℝ) : Lin (o.applyTo k) := by
  intro c φ ψ
  simp only [o.applyTo_eq]
  exact lin_diag s _ c φ ψ

theorem Nabla.applyTo_E {s : Space} (h : s.Ok) (o : Nabla s) (k : s.Pt → ℝ) (q : s.Pt) :
    o.applyTo k (E s q) = o.eig k q • E s q := by
  rw [o.applyTo_eq, expo_E h]

theorem Nabla.applyTo_wave {s : Space} (h : s.Ok) (o : Nabla s) (k : s.Pt → ℝ) (q : s.Pt) :
    o.applyTo k (wave s q) = o.eig k q • wave s q :=
  (scale_wave h (o.lin k) q _).2 (o.applyTo_E h k q)

/-- A plane wave is not zero. -/
theorem wave_ne (s : Space) (q x : s.Pt) : wave s q x ≠ 0 := Complex.exp_ne_zero _

theorem smul_wave_inj {s : Space} (h : s.Ok) (q : s.Pt) (a b : ℂ) (he : a • wave s q = b • wave s q) :
    a = b := by
  have h1 := congrFun he (fun i => ⟨0, by have := (h i).1; omega⟩)
  exact mul_right_cancel₀ (wave_ne s q _) h1

/-! ### Complex conjugation -/

/-- The index of the opposite frequency. -/
def neg {s : Space} (h : s.Ok) (q : s.Pt) : s.Pt := fun i =>
  ⟨if (q i : Nat) = 0 then 0 else (s.axes i).n - q i, by
    have h1 := (h i).1
    have h2 := (q i).2
    split <;> omega⟩

theorem root_neg {n a x : Nat} (h : a < n) :
    root 1 n (if a = 0 then 0 else n - a) x = root (-1) n a x := by
  have hn : (n : ℝ) ≠ 0 := by
    have : 0 < n := by omega
    positivity
  have hn' : (n : ℂ) ≠ 0 := by exact_mod_cast hn
  by_cases ha : a = 0
  · rw [if_pos ha, ha]
    unfold root
    simp
  · rw [if_neg ha]
    unfold root
    rw [Complex.exp_eq_exp_iff_exists_int]
    refine ⟨(x : ℤ), ?_⟩
    push_cast [Nat.cast_sub h.le]
    field_simp
    ring

theorem conj_E {s : Space} (h : s.Ok) (q : s.Pt) :
    (fun x => (starRingEnd ℂ) (E s q x) : s.Wf) = E s (neg h q) := by
  funext x
  unfold E
  rw [map_prod]
  refine Finset.prod_congr rfl (fun i _ => ?_)
  rw [root_conj]
  exact (root_neg (q i).2).symm

theorem wavenum_neg {s : Space} (h : s.Ok) (q : s.Pt) (i : Fin s.d) (ho : Odd (s.axes i).n) :
    wavenum s (neg h q) i = -wavenum s q i := by
  unfold wavenum
  rw [← neg_mul]
  congr 1
  have h2 := (q i).2
  obtain ⟨k, hk⟩ := ho
  have : freq (s.axes i).n (neg h q i) = -freq (s.axes i).n (q i) := by
    unfold freq neg
    simp only
    split_ifs <;> omega
  rw [this]
  push_cast
  rfl

theorem waveSum_neg {s : Space} (h : s.Ok) (ho : ∀ i, Odd (s.axes i).n) (dim : Option (Fin s.d))
    (q : s.Pt) : waveSum s dim (neg h q) = -waveSum s dim q := by
  cases dim with
  | none =>
    show ∑ i, wavenum s (neg h q) i = -∑ i, wavenum s q i
    rw [← Finset.sum_neg_distrib]
    exact Finset.sum_congr rfl (fun i _ => wavenum_neg h q i (ho i))
  | some i => exact wavenum_neg h q i (ho i)

theorem lin_conjMap {s : Space} {A : s.Wf → s.Wf} (hA : Lin A) : Lin (conjMap A) := by
  intro c φ ψ
  funext x
  unfold conjMap
  have h1 : (fun y => (starRingEnd ℂ) ((c • φ + ψ) y) : s.Wf) =
      (starRingEnd ℂ) c • (fun y => (starRingEnd ℂ) (φ y) : s.Wf) +
        (fun y => (starRingEnd ℂ) (ψ y) : s.Wf) := by
    funext y
    simp only [Pi.add_apply, Pi.smul_apply, smul_eq_mul, map_add, map_mul]
  rw [h1, hA]
  simp only [Pi.add_apply, Pi.smul_apply, smul_eq_mul, map_add, map_mul, Complex.conj_conj]

theorem conjMap_E {s : Space} (h : s.Ok) {A : s.Wf → s.Wf} (m : s.Pt → ℂ)
    (he : ∀ q, A (E s q) = m q • E s q) (q : s.Pt) :
    conjMap A (E s q) = (starRingEnd ℂ) (m (neg h q)) • E s q := by
  have hx : ∀ x, (starRingEnd ℂ) (E s (neg h q) x) = E s q x := by
    intro x
    rw [← conj_E h q, Complex.conj_conj]
  funext x
  unfold conjMap
  rw [conj_E h, he, Pi.smul_apply, smul_eq_mul, map_mul, hx]
  rfl

end QDng.Deriv
