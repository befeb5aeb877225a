import Mathlib.Analysis.InnerProductSpace.PiL2
import Mathlib.Analysis.SpecialFunctions.Trigonometric.Bounds
import Verif.Oct.Spec

/-
A propagator for the examples: a dipole kick at the begin of the step and any unitary field free step behind it.
-/

namespace QDng.Oct

open Spec

noncomputable section

variable {V : Type} [NormedAddCommGroup V] [InnerProductSpace ℂ V]

/-- `exp(i θ μ)` for an operator `μ` with square one. -/
def kick (μ : V →ₗ[ℂ] V) (θ : ℝ) (x : V) : V := (Real.cos θ : ℂ) • x + (Complex.I * (Real.sin θ : ℂ)) • μ x

theorem kick_kick (μ : V →ₗ[ℂ] V) (hμ : ∀ x, μ (μ x) = x) (a b : ℝ) (x : V) :
    kick μ a (kick μ b x) = kick μ (a + b) x := by
  unfold kick
  rw [map_add, map_smul, map_smul, hμ, Real.cos_add, Real.sin_add]
  have h : Complex.I * Complex.I = -1 := Complex.I_mul_I
  rw [Complex.ofReal_sub, Complex.ofReal_add, Complex.ofReal_mul, Complex.ofReal_mul, Complex.ofReal_mul,
    Complex.ofReal_mul]
  generalize (Real.cos a : ℂ) = ca
  generalize (Real.sin a : ℂ) = sa
  generalize (Real.cos b : ℂ) = cb
  generalize (Real.sin b : ℂ) = sb
  have h1 : (ca * cb - sa * sb) = ca * cb + (Complex.I * sa) * (Complex.I * sb) := by
    linear_combination -(sa * sb) * h
  rw [h1]
  module

theorem kick_zero (μ : V →ₗ[ℂ] V) (x : V) : kick μ 0 x = x := by
  unfold kick
  simp

theorem kick_inner (μ : V →ₗ[ℂ] V) (hμ : ∀ x, μ (μ x) = x) (hs : μ.IsSymmetric) (a : ℝ) (x y : V) :
    (inner ℂ (kick μ a x) (kick μ a y) : ℂ) = inner ℂ x y := by
  have h1 : ∀ x y : V, (inner ℂ (kick μ a x) y : ℂ) = inner ℂ x (kick μ (-a) y) := by
    intro x y
    unfold kick
    rw [inner_add_left, inner_add_right, inner_smul_left, inner_smul_left, inner_smul_right, inner_smul_right, hs x y,
      Real.cos_neg, Real.sin_neg]
    simp only [map_mul, Complex.conj_I, Complex.conj_ofReal, Complex.ofReal_neg]
    ring
  rw [h1, kick_kick μ hμ, neg_add_cancel, kick_zero]

theorem kick_norm (μ : V →ₗ[ℂ] V) (hμ : ∀ x, μ (μ x) = x) (hs : μ.IsSymmetric) (a : ℝ) (x : V) :
    ‖kick μ a x‖ = ‖x‖ := by
  have h1 := kick_inner μ hμ hs a x x
  rw [inner_self_eq_norm_sq_to_K, inner_self_eq_norm_sq_to_K] at h1
  have h2 : ‖kick μ a x‖ ^ 2 = ‖x‖ ^ 2 := by
    have := congrArg Complex.re h1
    simpa [← Complex.ofReal_pow] using this
  exact (sq_eq_sq₀ (norm_nonneg _) (norm_nonneg _)).1 h2

theorem norm_of_involution (μ : V →ₗ[ℂ] V) (hμ : ∀ x, μ (μ x) = x) (hs : μ.IsSymmetric) (x : V) : ‖μ x‖ = ‖x‖ := by
  have h1 : (inner ℂ (μ x) (μ x) : ℂ) = inner ℂ x x := by rw [hs x (μ x), hμ]
  rw [inner_self_eq_norm_sq_to_K, inner_self_eq_norm_sq_to_K] at h1
  have h2 : ‖μ x‖ ^ 2 = ‖x‖ ^ 2 := by
    have := congrArg Complex.re h1
    simpa [← Complex.ofReal_pow] using this
  exact (sq_eq_sq₀ (norm_nonneg _) (norm_nonneg _)).1 h2

theorem abs_sub_sin_le_sq (θ : ℝ) : |Real.sin θ - θ| ≤ 2 * θ ^ 2 := by
  by_cases h : |θ| ≤ 1
  · have h1 := Real.sin_bound h
    have h2 : |θ ^ 3 / 6| ≤ θ ^ 2 := by
      rw [abs_div, abs_pow, show |(6 : ℝ)| = 6 from abs_of_pos (by norm_num), ← sq_abs θ]
      have := abs_nonneg θ
      nlinarith [mul_nonneg this this, mul_nonneg (mul_nonneg this this) this]
    have h3 : |θ| ^ 5 / 100 ≤ θ ^ 2 := by
      rw [← sq_abs θ, show |θ| ^ 5 = |θ| ^ 2 * |θ| ^ 3 by ring]
      have h4 : |θ| ^ 3 ≤ 1 := pow_le_one₀ (abs_nonneg θ) h
      nlinarith [sq_nonneg |θ|]
    have h5 : Real.sin θ - θ = (Real.sin θ - (θ - θ ^ 3 / 6)) - θ ^ 3 / 6 := by ring
    rw [h5]
    have := abs_sub (Real.sin θ - (θ - θ ^ 3 / 6)) (θ ^ 3 / 6)
    linarith
  · have h1 : 1 < |θ| := not_le.1 h
    have h2 : |Real.sin θ| ≤ |θ| := (Real.abs_sin_le_one θ).trans h1.le
    have h3 := abs_sub (Real.sin θ) θ
    rw [← sq_abs θ]
    nlinarith

theorem kick_answer (μ : V →ₗ[ℂ] V) (hμ : ∀ x, μ (μ x) = x) (hs : μ.IsSymmetric) (θ : ℝ) (x : V) :
    ‖kick μ θ x - (x + (Complex.I * θ) • μ x)‖ ≤ 5 / 2 * θ ^ 2 * ‖x‖ := by
  have h1 : kick μ θ x - (x + (Complex.I * θ) • μ x) =
      ((Real.cos θ - 1 : ℝ) : ℂ) • x + (Complex.I * ((Real.sin θ - θ : ℝ) : ℂ)) • μ x := by
    unfold kick
    push_cast
    module
  rw [h1]
  refine (norm_add_le _ _).trans ?_
  rw [norm_smul, norm_smul, norm_mul, Complex.norm_I, one_mul, Complex.norm_real, Complex.norm_real, Real.norm_eq_abs,
    Real.norm_eq_abs, norm_of_involution μ hμ hs]
  have h2 : |Real.cos θ - 1| ≤ θ ^ 2 / 2 := by
    rw [abs_sub_comm, abs_of_nonneg (by linarith [Real.cos_le_one θ])]
    linarith [Real.one_sub_sq_div_two_le_cos (x := θ)]
  have h3 := abs_sub_sin_le_sq θ
  nlinarith [norm_nonneg x]

/-- An input with such a propagator. -/
def kicked (U : V ≃ₗᵢ[ℂ] V) (μ : V →ₗ[ℂ] V) (method : Method) (operators phase : Bool) (steps iterations : Nat)
    (alpha : ℝ) (O : Nat → V → V) : Setup V where
  steps := steps
  dt := 1
  method := method
  operators := operators
  phase := phase
  moving := false
  ntargets := 1
  alpha := alpha
  shape := fun _ => 1
  iterations := iterations
  convergence := 1 / 100000
  fwd := fun _ e x => U (kick μ (e 0) x)
  bwd := fun _ e x => kick μ (-(e 0)) (U.symm x)
  gobbler := none
  mu := μ
  target := O

theorem kicked_responds (U : V ≃ₗᵢ[ℂ] V) (μ : V →ₗ[ℂ] V) (hμ : ∀ x, μ (μ x) = x) (hs : μ.IsSymmetric) (method : Method)
    (operators phase : Bool) (steps iterations : Nat) (alpha : ℝ) (O : Nat → V → V) :
    Responds (kicked U μ method operators phase steps iterations alpha O) (5 / 2) 0 := by
  refine ⟨fun s e x => ?_, fun s e x y => ?_, fun s e e' x => ?_⟩
  · show ‖U (kick μ e x)‖ = _
    rw [LinearIsometryEquiv.norm_map, kick_norm μ hμ hs]
  · show (inner ℂ (kick μ (-e) (U.symm x)) (kick μ (-e) (U.symm y)) : ℂ) = _
    rw [kick_inner μ hμ hs, LinearIsometryEquiv.inner_map_map]
  · show ‖kick μ (-e) (U.symm (U (kick μ e' x))) - (x + (Complex.I * ((1 : ℝ) : ℂ) * (e' - e : ℝ)) • μ x)‖ ≤ _
    rw [LinearIsometryEquiv.symm_apply_apply, kick_kick μ hμ, show -e + e' = e' - e by ring, Complex.ofReal_one, mul_one]
    have := kick_answer μ hμ hs (e' - e) x
    linarith

/-- The two level system. -/
abbrev Qubit := EuclideanSpace ℂ (Fin 2)

/-- The states. -/
def level (i : Fin 2) : Qubit := EuclideanSpace.single i 1

/-- The dipole of the two level system exchanges the levels. -/
def flip : Qubit →ₗ[ℂ] Qubit :=
  (LinearIsometryEquiv.piLpCongrLeft 2 ℂ ℂ (Equiv.swap (0 : Fin 2) 1)).toLinearEquiv.toLinearMap

theorem flip_apply (x : Qubit) (i : Fin 2) : flip x i = x (Equiv.swap (0 : Fin 2) 1 i) := by
  show (LinearIsometryEquiv.piLpCongrLeft 2 ℂ ℂ (Equiv.swap (0 : Fin 2) 1)) x i = _
  rw [LinearIsometryEquiv.piLpCongrLeft_apply]
  rfl

theorem flip_flip (x : Qubit) : flip (flip x) = x := by
  ext i
  rw [flip_apply, flip_apply, Equiv.swap_apply_self]

theorem flip_symm : flip.IsSymmetric := by
  intro x y
  rw [PiLp.inner_apply, PiLp.inner_apply, Fin.sum_univ_two, Fin.sum_univ_two]
  rw [flip_apply, flip_apply, flip_apply, flip_apply, Equiv.swap_apply_left, Equiv.swap_apply_right]
  exact add_comm _ _

/-- The projection to the upper level. -/
def upper : Qubit →ₗ[ℂ] Qubit where
  toFun x := (x 1) • level 1
  map_add' x y := by rw [PiLp.add_apply, add_smul]
  map_smul' a x := by rw [PiLp.smul_apply, smul_assoc]; rfl

theorem inner_upper (x y : Qubit) : (inner ℂ x (upper y) : ℂ) = (starRingEnd ℂ) (x 1) * y 1 := by
  show inner ℂ x (y 1 • level 1) = _
  rw [inner_smul_right, level, EuclideanSpace.inner_single_right, one_mul, mul_comm]

theorem upper_symm : upper.IsSymmetric := by
  intro x y
  rw [inner_upper, ← inner_conj_symm, inner_upper, map_mul, Complex.conj_conj, mul_comm]

theorem upper_pos (x : Qubit) : 0 ≤ (inner ℂ x (upper x) : ℂ).re := by
  rw [inner_upper, ← Complex.normSq_eq_conj_mul_self]
  exact Complex.normSq_nonneg _

theorem upper_le (x : Qubit) : ‖upper x‖ ≤ ‖x‖ := by
  show ‖x 1 • level 1‖ ≤ _
  rw [norm_smul, level, PiLp.norm_single, norm_one, mul_one]
  exact PiLp.norm_apply_le x 1

theorem level_norm (i : Fin 2) : ‖level i‖ = 1 := by rw [level, PiLp.norm_single, norm_one]

end

end QDng.Oct
