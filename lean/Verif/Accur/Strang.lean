import Verif.Accur.Rk4

/-
The error of a symmetric product of exponentials.
-/

namespace QDng.Accur

open QDng.Chexp

variable {V : Type} [NormedAddCommGroup V] [InnerProductSpace ℂ V]

/-- `E` is close to `1 + X + X² / 2` in the way an exponential of an anti-Hermitian `X` with norm `x` is. -/
structure Expo (X E : V →ₗ[ℂ] V) (x : ℝ) : Prop where
  x0 : 0 ≤ x
  hX : ∀ v, ‖X v‖ ≤ x * ‖v‖
  e0 : ∀ v, ‖E v‖ ≤ ‖v‖
  e1 : ∀ v, ‖E v - v‖ ≤ x * ‖v‖
  e2 : ∀ v, ‖E v - v - X v‖ ≤ x ^ 2 / 2 * ‖v‖
  e3 : ∀ v, ‖E v - v - X v - (1 / 2 : ℂ) • X (X v)‖ ≤ x ^ 3 / 6 * ‖v‖

theorem norm_half (v : V) : ‖(1 / 2 : ℂ) • v‖ = ‖v‖ / 2 := by
  rw [norm_smul]
  norm_num
  ring

theorem strang_error {X1 E1 X2 E2 : V →ₗ[ℂ] V} {x1 x2 : ℝ} (h1 : Expo X1 E1 x1) (h2 : Expo X2 E2 x2) (v : V) :
    ‖E1 (E2 (E1 v)) - (v + (X2 v + (2 : ℂ) • X1 v) + (1 / 2 : ℂ) • (X2 (X2 v + (2 : ℂ) • X1 v) +
      (2 : ℂ) • X1 (X2 v + (2 : ℂ) • X1 v)))‖ ≤ (2 * x1 + x2) ^ 3 / 6 * ‖v‖ := by
  have p1 := h1.x0
  have p2 := h2.x0
  have id : E1 (E2 (E1 v)) - (v + (X2 v + (2 : ℂ) • X1 v) + (1 / 2 : ℂ) • (X2 (X2 v + (2 : ℂ) • X1 v) +
      (2 : ℂ) • X1 (X2 v + (2 : ℂ) • X1 v))) =
    E1 (E2 (E1 v - v - X1 v - (1 / 2 : ℂ) • X1 (X1 v))) +
    E1 (E2 ((1 / 2 : ℂ) • X1 (X1 v)) - (1 / 2 : ℂ) • X1 (X1 v)) +
    E1 (E2 (X1 v) - X1 v - X2 (X1 v)) +
    E1 (E2 v - v - X2 v - (1 / 2 : ℂ) • X2 (X2 v)) +
    (E1 ((1 / 2 : ℂ) • X1 (X1 v)) - (1 / 2 : ℂ) • X1 (X1 v)) +
    (E1 (X1 v) - X1 v - X1 (X1 v)) +
    (E1 (X2 (X1 v)) - X2 (X1 v)) +
    (E1 v - v - X1 v - (1 / 2 : ℂ) • X1 (X1 v)) +
    (E1 (X2 v) - X2 v - X1 (X2 v)) +
    (E1 ((1 / 2 : ℂ) • X2 (X2 v)) - (1 / 2 : ℂ) • X2 (X2 v)) := by
    simp only [map_sub, map_add, map_smul]
    module
  rw [id]
  set n := ‖v‖ with hn
  have n0 : 0 ≤ n := norm_nonneg v
  have a1 : ‖X1 v‖ ≤ x1 * n := h1.hX v
  have a2 : ‖X2 v‖ ≤ x2 * n := h2.hX v
  have a11 : ‖(1 / 2 : ℂ) • X1 (X1 v)‖ ≤ x1 ^ 2 / 2 * n := by
    rw [norm_half]
    have := (h1.hX (X1 v)).trans (mul_le_mul_of_nonneg_left a1 p1)
    nlinarith
  have a22 : ‖(1 / 2 : ℂ) • X2 (X2 v)‖ ≤ x2 ^ 2 / 2 * n := by
    rw [norm_half]
    have := (h2.hX (X2 v)).trans (mul_le_mul_of_nonneg_left a2 p2)
    nlinarith
  have a21 : ‖X2 (X1 v)‖ ≤ x2 * (x1 * n) := (h2.hX (X1 v)).trans (mul_le_mul_of_nonneg_left a1 p2)
  have b1 := ((h1.e0 _).trans (h2.e0 _)).trans (h1.e3 v)
  have b2 := (h1.e0 _).trans ((h2.e1 ((1 / 2 : ℂ) • X1 (X1 v))).trans (mul_le_mul_of_nonneg_left a11 p2))
  have b3 := (h1.e0 _).trans ((h2.e2 (X1 v)).trans (mul_le_mul_of_nonneg_left a1 (by positivity)))
  have b4 := (h1.e0 _).trans (h2.e3 v)
  have b5 := (h1.e1 ((1 / 2 : ℂ) • X1 (X1 v))).trans (mul_le_mul_of_nonneg_left a11 p1)
  have b6 := (h1.e2 (X1 v)).trans (mul_le_mul_of_nonneg_left a1 (by positivity))
  have b7 := (h1.e1 (X2 (X1 v))).trans (mul_le_mul_of_nonneg_left a21 p1)
  have b8 := h1.e3 v
  have b9 := (h1.e2 (X2 v)).trans (mul_le_mul_of_nonneg_left a2 (by positivity))
  have b10 := (h1.e1 ((1 / 2 : ℂ) • X2 (X2 v))).trans (mul_le_mul_of_nonneg_left a22 p1)
  refine (norm_add_le_of_le (norm_add_le_of_le (norm_add_le_of_le (norm_add_le_of_le (norm_add_le_of_le
    (norm_add_le_of_le (norm_add_le_of_le (norm_add_le_of_le (norm_add_le_of_le b1 b2) b3) b4) b5) b6) b7) b8)
    b9) b10).trans (le_of_eq ?_)
  rw [← hn]
  ring

/-- Coefficients of a map that is diagonal in a basis. -/
theorem diag_component {ι : Type} [Fintype ι] (b : OrthonormalBasis ι ℂ V) (A : V →ₗ[ℂ] V) (m : ι → ℂ)
    (h : ∀ i, A (b i) = m i • b i) (v : V) (i : ι) : inner ℂ (b i) (A v) = m i * inner ℂ (b i) v := by
  classical
  conv_lhs => rw [← b.sum_repr' v]
  rw [map_sum]
  simp only [map_smul, h, smul_smul]
  rw [b.orthonormal.inner_right_fintype, mul_comm]

/-- Vectors whose coefficients are close are close. -/
theorem norm_le_of_coeff {ι : Type} [Fintype ι] (b : OrthonormalBasis ι ℂ V) (w v : V) (ε : ℝ) (hε : 0 ≤ ε)
    (h : ∀ i, ‖inner ℂ (b i) w‖ ≤ ε * ‖inner ℂ (b i) v‖) : ‖w‖ ≤ ε * ‖v‖ := by
  have h1 := b.sum_sq_norm_inner_right w
  have h2 := b.sum_sq_norm_inner_right v
  have h3 : ‖w‖ ^ 2 ≤ (ε * ‖v‖) ^ 2 := by
    rw [← h1, mul_pow, ← h2, Finset.mul_sum]
    refine Finset.sum_le_sum (fun i _ => ?_)
    rw [← mul_pow]
    exact pow_le_pow_left₀ (norm_nonneg _) (h i) 2
  exact (sq_le_sq₀ (norm_nonneg _) (by positivity)).1 h3

/-- Multiplication of the coefficients in a basis with phase factors is such an exponential. -/
theorem expo_of_basis {ι : Type} [Fintype ι] (b : OrthonormalBasis ι ℂ V) (X E : V →ₗ[ℂ] V) (l : ι → ℝ) (x : ℝ)
    (hx : 0 ≤ x) (hl : ∀ i, |l i| ≤ x) (hX : ∀ i, X (b i) = (Complex.I * l i) • b i)
    (hE : ∀ i, E (b i) = Complex.exp (Complex.I * l i) • b i) : Expo X E x := by
  have cX := diag_component b X _ hX
  have cE := diag_component b E _ hE
  have key : ∀ n : ℕ, ∀ i, ‖etail n (l i)‖ ≤ x ^ n / n.factorial := fun n i =>
    (etail_le n (l i)).trans (by gcongr; exact hl i)
  refine ⟨hx, fun v => ?_, fun v => ?_, fun v => ?_, fun v => ?_, fun v => ?_⟩
  · refine norm_le_of_coeff b _ _ _ hx (fun i => ?_)
    rw [cX, norm_mul, norm_mul, Complex.norm_I, one_mul, Complex.norm_real]
    exact mul_le_mul_of_nonneg_right (hl i) (norm_nonneg _)
  · have := norm_le_of_coeff b (E v) v 1 zero_le_one (fun i => ?_)
    · rwa [one_mul] at this
    rw [cE, norm_mul, mul_comm Complex.I, Complex.norm_exp_ofReal_mul_I]
  · refine norm_le_of_coeff b _ _ _ hx (fun i => ?_)
    rw [inner_sub_right, cE, ← sub_one_mul, norm_mul]
    refine mul_le_mul_of_nonneg_right ?_ (norm_nonneg _)
    have := key 1 i
    unfold etail at this
    simpa [Finset.sum_range_succ, Nat.factorial] using this
  · refine norm_le_of_coeff b _ _ _ (by positivity) (fun i => ?_)
    rw [inner_sub_right, inner_sub_right, cE, cX, ← sub_one_mul, ← sub_mul, norm_mul]
    refine mul_le_mul_of_nonneg_right ?_ (norm_nonneg _)
    have := key 2 i
    unfold etail at this
    simpa [Finset.sum_range_succ, Nat.factorial, sub_add_eq_sub_sub] using this
  · refine norm_le_of_coeff b _ _ _ (by positivity) (fun i => ?_)
    rw [inner_sub_right, inner_sub_right, inner_sub_right, inner_smul_right, cE, cX, cX, cX, ← mul_assoc, ← mul_assoc,
      ← sub_one_mul, ← sub_mul, ← sub_mul, norm_mul]
    refine mul_le_mul_of_nonneg_right ?_ (norm_nonneg _)
    have := key 3 i
    unfold etail at this
    have e : Complex.exp (Complex.I * (l i : ℂ)) - 1 - Complex.I * (l i : ℂ) -
        1 / 2 * (Complex.I * (l i : ℂ)) * (Complex.I * (l i : ℂ)) = Complex.exp (Complex.I * (l i : ℂ)) -
        ∑ k ∈ Finset.range 3, (Complex.I * (l i : ℂ)) ^ k / (k.factorial : ℂ) := by
      simp only [Finset.sum_range_succ, Finset.sum_range_zero, Nat.factorial]
      push_cast
      ring
    rw [e]
    refine this.trans (le_of_eq ?_)
    norm_num [Nat.factorial]

/-- The solution of the Schrödinger equation up to the third power of the time. -/
theorem solution_second [FiniteDimensional ℂ V] (H : V →ₗ[ℂ] V) (hH : Hermitian H) (w : ℝ) (hw0 : 0 ≤ w)
    (hw : ∀ v, ‖H v‖ ≤ w * ‖v‖) (s : ℝ) (psi : ℝ → V) (hp : Solves H psi) (t : ℝ) :
    ‖psi (t + s) - (psi t + (-Complex.I * s) • H (psi t) +
      (1 / 2 : ℂ) • (-Complex.I * s) • H ((-Complex.I * s) • H (psi t)))‖ ≤ (w * |s|) ^ 3 / 6 * ‖psi t‖ := by
  obtain ⟨n, b, l, hl⟩ := eigenbasis H hH
  have hwl : ∀ i, |l i| ≤ w := fun i => by
    have h1 := hw (b i)
    rw [hl, norm_smul, b.orthonormal.1 i, mul_one, mul_one, Complex.norm_real] at h1
    exact h1
  refine norm_le_of_coeff b _ _ _ (by positivity) (fun i => ?_)
  have cH := diag_component b H _ hl
  rw [inner_sub_right, inner_add_right, inner_add_right, inner_smul_right, inner_smul_right, inner_smul_right, cH, cH,
    inner_smul_right, cH, solution_component H hH b l hl (-Complex.I) psi hp]
  have h := etail_le 3 (-(l i * s))
  unfold etail at h
  rw [← arg_eq] at h
  have e : Complex.exp (-Complex.I * (l i : ℂ) * (s : ℂ)) * inner ℂ (b i) (psi t) - (inner ℂ (b i) (psi t) +
      -Complex.I * s * (l i * inner ℂ (b i) (psi t)) +
      1 / 2 * (-Complex.I * s * (l i * (-Complex.I * s * (l i * inner ℂ (b i) (psi t)))))) =
      (Complex.exp (-Complex.I * (s : ℂ) * (l i : ℂ)) -
        ∑ k ∈ Finset.range 3, (-Complex.I * (s : ℂ) * (l i : ℂ)) ^ k / (k.factorial : ℂ)) * inner ℂ (b i) (psi t) := by
    simp only [Finset.sum_range_succ, Finset.sum_range_zero, Nat.factorial]
    push_cast
    ring_nf
  rw [e, norm_mul]
  refine mul_le_mul_of_nonneg_right (h.trans ?_) (norm_nonneg _)
  rw [abs_neg, abs_mul, show ((Nat.factorial 3 : ℕ) : ℝ) = 6 by norm_num [Nat.factorial]]
  gcongr
  exact hwl i

end QDng.Accur
