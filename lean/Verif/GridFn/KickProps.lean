import Verif.GridFn.Lemmas
import Verif.Deriv.KinProps

/-
Properties of the momentum kick.
-/

namespace QDng.GridFn

open QDng.Common QDng.Deriv

/-- The momentum of the kick along dimension `i`: the scaled entry of the list, zero if it is
missing. -/
def momentum (k : List ℝ) (scale : Option ℝ) (i : Nat) : ℝ :=
  (match scale with | none => 1 | some c => c) * k.getD i 0

/-- **C153.**  A kick multiplies the wave function with `exp(i s k x)`; missing components of `k` are
zero. -/
theorem C153_kick {s : Space} (o : Kick s) (hnew : o.exp = none) (hd : o.dims = 0 ∨ o.dims = s.d)
    (k : List ℝ) (scale : Option ℝ) (hk : k.length ≤ s.d) :
    ∃ o', o.init k scale = .ok o' ∧ ∀ ψ : s.Wf, o'.apply ψ =
      .val (fun p => Complex.exp (Complex.I * ((∑ i : Fin s.d, momentum k scale i * coord s p i : ℝ) : ℂ)) * ψ p) := by
  unfold Kick.init
  rw [hnew]
  simp only [if_neg (dims_ok hd), if_neg (not_lt.2 hk)]
  refine ⟨_, rfl, fun ψ => ?_⟩
  unfold Kick.apply
  simp only [Ans.val.injEq]
  funext p
  rw [kickPhase_eq, mul_comm (ψ p)]
  congr 2
  rw [one_mul, mul_comm]
  congr 2
  refine Finset.sum_congr rfl (fun i _ => ?_)
  congr 1
  unfold momentum
  rw [List.getD_eq_getElem?_getD]
  rcases hx : k[(i : Nat)]? with _ | x
  · simp
  · rcases scale with _ | c
    · simp
    · simp [mul_comm]

/-- The hypotheses hold for a kick with a list that is shorter than the number of dimensions. -/
example : (Kick.new square).exp = none ∧ (Kick.new square).dims = 0 ∧ ([-60.8] : List ℝ).length ≤ square.d := by
  refine ⟨rfl, rfl, ?_⟩
  show 1 ≤ 2
  omega

/-- **C153.**  Kicks keep scalar products and the probability at each point, turn a plane wave into the
plane wave with the momentum added, and a kick with the opposite momentum takes them back. -/
theorem C153_unitary {s : Space} (o o2 : Kick s) (hnew : o.exp = none)
    (hd : o.dims = 0 ∨ o.dims = s.d) (hnew2 : o2.exp = none) (hd2 : o2.dims = 0 ∨ o2.dims = s.d)
    (k : List ℝ) (scale : ℝ) (hk : k.length ≤ s.d) :
    ∃ (o' o2' : Kick s) (A B : s.Wf → s.Wf),
      o.init k (some scale) = .ok o' ∧ o2.init k (some (-scale)) = .ok o2' ∧
      (∀ ψ, o'.apply ψ = .val (A ψ)) ∧ (∀ ψ, o2'.apply ψ = .val (B ψ)) ∧
      (∀ φ ψ, scal s (A φ) (A ψ) = scal s φ ψ) ∧ (∀ ψ p, ‖A ψ p‖ = ‖ψ p‖) ∧
      (∀ q, A (planeWave s q) = planeWave s (fun i => q i + scale * k.getD i 0)) ∧
      ∀ ψ, B (A ψ) = ψ := by
  obtain ⟨o', h1, h2⟩ := C153_kick o hnew hd k (some scale) hk
  obtain ⟨o2', h3, h4⟩ := C153_kick o2 hnew2 hd2 k (some (-scale)) hk
  refine ⟨o', o2', _, _, h1, h3, h2, h4, fun φ ψ => ?_, fun ψ p => ?_, fun q => ?_, fun ψ => ?_⟩
  · unfold scal
    congr 1
    refine Finset.sum_congr rfl (fun p _ => ?_)
    simp only [map_mul, ← Complex.exp_conj, Complex.conj_I, Complex.conj_ofReal]
    have : Complex.exp (-Complex.I * ((∑ i : Fin s.d, momentum k (some scale) i * coord s p i : ℝ) : ℂ)) *
        Complex.exp (Complex.I * ((∑ i : Fin s.d, momentum k (some scale) i * coord s p i : ℝ) : ℂ)) = 1 := by
      rw [← Complex.exp_add]
      have : -Complex.I * ((∑ i : Fin s.d, momentum k (some scale) i * coord s p i : ℝ) : ℂ)
          + Complex.I * ((∑ i : Fin s.d, momentum k (some scale) i * coord s p i : ℝ) : ℂ) = 0 := by ring
      rw [this, Complex.exp_zero]
    linear_combination ((starRingEnd ℂ) (φ p) * ψ p) * this
  · simp only [norm_mul]
    rw [mul_comm Complex.I, Complex.norm_exp_ofReal_mul_I, one_mul]
  · funext p
    unfold planeWave
    rw [← Complex.exp_add, ← mul_add, ← Complex.ofReal_add, ← Finset.sum_add_distrib]
    congr 3
    refine Finset.sum_congr rfl (fun i _ => ?_)
    unfold momentum
    ring
  · funext p
    simp only []
    rw [← mul_assoc, ← Complex.exp_add, ← mul_add, ← Complex.ofReal_add, ← Finset.sum_add_distrib]
    have : (∑ i : Fin s.d, (momentum k (some (-scale)) i * coord s p i
        + momentum k (some scale) i * coord s p i)) = 0 := by
      refine Finset.sum_eq_zero (fun i _ => ?_)
      unfold momentum
      ring
    rw [this]
    simp

/-- The hypotheses hold for a kick in two dimensions. -/
example : (Kick.new square).exp = none ∧ (Kick.new square).dims = 0 ∧
    ([-60.8, 10] : List ℝ).length ≤ square.d := by
  refine ⟨rfl, rfl, ?_⟩
  show 2 ≤ 2
  omega

/-- **C152.**  A momentum vector with too many components is refused at each attempt. -/
theorem C152_kick_partial {s : Space} (o : Kick s) (hnew : o.exp = none)
    (hd : o.dims = 0 ∨ o.dims = s.d) (k : List ℝ) (scale : Option ℝ) (hk : s.d < k.length) :
    ∃ o', o.init k scale = .threw o' ∧ o'.init k scale = .threw o' := by
  refine ⟨{ o with dims := s.d }, ?_, ?_⟩
  · unfold Kick.init
    rw [hnew]
    simp only [if_neg (dims_ok hd), if_pos hk]
  · unfold Kick.init
    rw [hnew]
    simp only [if_neg (dims_ok (Or.inr rfl : s.d = 0 ∨ s.d = s.d)), if_pos hk]

/-- The hypotheses hold for three components in two dimensions. -/
example : (Kick.new square).exp = none ∧ square.d < ([1, 2, 3] : List ℝ).length := by
  refine ⟨rfl, ?_⟩
  show 2 < 3
  omega

/-- **C154.**  A copy of an operator that has not seen a wave function yet can be initialised like the
original.  Missing: operators that are initialised (`C154_new_violated`, `C154_old_violated`). -/
theorem C154_copy_partial {s : Space} (k : List ℝ) (scale : Option ℝ) :
    (Kick.new s).copy (Kick.new s) = .ok (Kick.new s) ∧
      ∀ o', (Kick.new s).copy (Kick.new s) = .ok o' → o'.init k scale = (Kick.new s).init k scale := by
  refine ⟨rfl, fun o' h => ?_⟩
  cases h
  rfl

/-- **C154.**  Copying an initialised kick to a new operator is undefined on every grid: the momentum
vector of the copy has no elements. -/
theorem C154_new_violated {s : Space} (h0 : 0 < s.d) (k : List ℝ) (scale : Option ℝ)
    (hk : k.length ≤ s.d) :
    ∃ o, (Kick.new s).init k scale = .ok o ∧ (Kick.new s).copy o = .ub := by
  unfold Kick.init
  simp only [Kick.new, ne_eq, not_true_eq_false, false_and, if_false, if_neg (not_lt.2 hk)]
  refine ⟨_, rfl, ?_⟩
  unfold Kick.copy
  simp [h0.ne']

/-- The hypotheses hold for a kick in two dimensions. -/
example : 0 < square.d ∧ ([-60.8, 10] : List ℝ).length ≤ square.d := by
  refine ⟨?_, ?_⟩
  · show 0 < 2; omega
  · show 2 ≤ 2; omega

/-- **C154.**  Copying an initialised kick to another initialised kick has no effect on how it acts. -/
theorem C154_old_violated {s : Space} (a b : Kick s) (ea : s.Wf) (ka kb : Fin s.d → ℝ)
    (ha : a.exp = some ea) (hka : a.kn = some ka) (hkb : b.kn = some kb) :
    ∃ c, a.copy b = .ok c ∧ ∀ ψ, c.apply ψ = a.apply ψ := by
  unfold Kick.copy
  rw [ha, hka, hkb]
  by_cases h : b.dims = 0
  · refine ⟨_, by simp only [if_pos h]; rfl, fun ψ => ?_⟩
    unfold Kick.apply
    rw [ha]
  · refine ⟨_, by simp only [if_neg h]; rfl, fun ψ => ?_⟩
    unfold Kick.apply
    rw [ha]

/-- The hypotheses hold for two initialised kicks that act differently. -/
example : ∃ a b : Kick square, (Kick.new square).init [1, 0] none = .ok a ∧
    (Kick.new square).init [0, 2] none = .ok b ∧ a.exp.isSome ∧ a.kn.isSome ∧ b.kn.isSome :=
  ⟨_, _, rfl, rfl, rfl, rfl, rfl⟩

end QDng.GridFn
