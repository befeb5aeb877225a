import Verif.Fric.Model
import Mathlib.Analysis.Calculus.Deriv.Pow
import Mathlib.Analysis.Calculus.Deriv.Mul
import Mathlib.Analysis.Calculus.Deriv.Add
import Mathlib.Tactic.Linarith
import Mathlib.Tactic.LinearCombination

/-
C188 (friction takes energy), C189 (frozen friction operators), C190 (friction does not shift the energy), C191 (the
documented friction operator), C192 (momentum kicks) and C193 (copies of friction operators).
-/

namespace QDng.Fric

open QDng.Common Matrix

variable {N : Nat}

/-! ### Lemmas on scalar products -/

theorem inner_add_left (a b c : Fin N → ℂ) : HMat.inner (fun i => a i + b i) c = HMat.inner a c + HMat.inner b c := by
  unfold HMat.inner
  rw [← Finset.sum_add_distrib]
  refine Finset.sum_congr rfl fun i _ => ?_
  rw [map_add]
  ring

theorem inner_add_right (a b c : Fin N → ℂ) : HMat.inner a (fun i => b i + c i) = HMat.inner a b + HMat.inner a c := by
  unfold HMat.inner
  rw [← Finset.sum_add_distrib]
  exact Finset.sum_congr rfl fun i _ => by ring

theorem inner_smul_left (z : ℂ) (a b : Fin N → ℂ) : HMat.inner (fun i => z * a i) b = starRingEnd ℂ z * HMat.inner a b := by
  unfold HMat.inner
  rw [Finset.mul_sum]
  refine Finset.sum_congr rfl fun i _ => ?_
  rw [map_mul]
  ring

theorem inner_smul_right (z : ℂ) (a b : Fin N → ℂ) : HMat.inner a (fun i => z * b i) = z * HMat.inner a b := by
  unfold HMat.inner
  rw [Finset.mul_sum]
  exact Finset.sum_congr rfl fun i _ => by ring

theorem inner_conj (a b : Fin N → ℂ) : starRingEnd ℂ (HMat.inner a b) = HMat.inner b a := by
  unfold HMat.inner
  rw [map_sum]
  refine Finset.sum_congr rfl fun i _ => ?_
  rw [map_mul, Complex.conj_conj]
  ring

theorem inner_adj (A : Matrix (Fin N) (Fin N) ℂ) (a b : Fin N → ℂ) :
    HMat.inner a (A.mulVec b) = HMat.inner (Aᴴ.mulVec a) b := by
  unfold HMat.inner Matrix.mulVec dotProduct
  simp only [Finset.mul_sum, map_sum, Finset.sum_mul]
  rw [Finset.sum_comm]
  refine Finset.sum_congr rfl fun i _ => Finset.sum_congr rfl fun j _ => ?_
  rw [Matrix.conjTranspose_apply, map_mul, RCLike.star_def, Complex.conj_conj]
  ring

theorem inner_herm (A : Matrix (Fin N) (Fin N) ℂ) (h : A.IsHermitian) (a b : Fin N → ℂ) :
    HMat.inner a (A.mulVec b) = HMat.inner (A.mulVec a) b := by
  rw [inner_adj, h.eq]

theorem inner_herm_im (A : Matrix (Fin N) (Fin N) ℂ) (h : A.IsHermitian) (a : Fin N → ℂ) :
    (HMat.inner a (A.mulVec a)).im = 0 := by
  have h1 := inner_conj a (A.mulVec a)
  rw [← inner_herm A h] at h1
  have h2 := congrArg Complex.im h1
  rw [Complex.conj_im] at h2
  linarith

/-- The expectation value of a matrix. -/
noncomputable def expect (w : ℝ) (A : Matrix (Fin N) (Fin N) ℂ) (ψ : Fin N → ℂ) : ℝ := (ip w ψ (A.mulVec ψ)).re

/-- The wave function a time `s` later, to first order, when the right hand side of the Schrödinger equation is
`χ = H ψ`. -/
noncomputable def later (ψ χ : Fin N → ℂ) (s : ℝ) : Fin N → ℂ := fun i => ψ i + (s : ℂ) * (-Complex.I * χ i)

theorem deriv_expect (w : ℝ) (A : Matrix (Fin N) (Fin N) ℂ) (hA : A.IsHermitian) (ψ χ : Fin N → ℂ) :
    HasDerivAt (fun s => expect w A (later ψ χ s)) (2 * w * (HMat.inner (A.mulVec ψ) χ).im) 0 := by
  have hmv : ∀ s : ℝ, A.mulVec (later ψ χ s) = fun i => A.mulVec ψ i + (s : ℂ) * (-Complex.I * A.mulVec χ i) := by
    intro s
    have : later ψ χ s = ψ + (s : ℂ) • ((-Complex.I) • χ) := rfl
    rw [this, Matrix.mulVec_add, Matrix.mulVec_smul, Matrix.mulVec_smul]
    rfl
  have hpoly : ∀ s : ℝ, expect w A (later ψ χ s) = expect w A ψ + (2 * w * (HMat.inner (A.mulVec ψ) χ).im) * s +
      (w * (HMat.inner χ (A.mulVec χ)).re) * s ^ 2 := by
    intro s
    unfold expect ip
    rw [hmv]
    unfold later
    rw [inner_add_left, inner_add_right, inner_add_right, inner_smul_left, inner_smul_right, inner_smul_left,
      inner_smul_right, inner_smul_left, inner_smul_right, inner_smul_left, inner_smul_right]
    have h1 : HMat.inner χ (A.mulVec ψ) = starRingEnd ℂ (HMat.inner (A.mulVec ψ) χ) := (inner_conj _ _).symm
    rw [inner_herm A hA ψ χ, h1]
    simp only [Complex.conj_ofReal, map_neg, Complex.conj_I, Complex.mul_re, Complex.add_re, Complex.ofReal_re,
      Complex.ofReal_im, Complex.neg_re, Complex.I_re, Complex.neg_im, Complex.I_im, Complex.conj_re, Complex.conj_im,
      Complex.mul_im, Complex.add_im]
    ring
  have h : HasDerivAt (fun s : ℝ => expect w A ψ + (2 * w * (HMat.inner (A.mulVec ψ) χ).im) * s +
      (w * (HMat.inner χ (A.mulVec χ)).re) * s ^ 2) (2 * w * (HMat.inner (A.mulVec ψ) χ).im) 0 := by
    have h1 := ((hasDerivAt_id (0 : ℝ)).const_mul (2 * w * (HMat.inner (A.mulVec ψ) χ).im)).const_add (expect w A ψ)
    have h2 := (hasDerivAt_pow 2 (0 : ℝ)).const_mul (w * (HMat.inner χ (A.mulVec χ)).re)
    have h3 := h1.add h2
    refine (h3.congr_deriv ?_).congr_of_eventuallyEq (Filter.Eventually.of_forall fun s => ?_)
    · simp
    · simp [id]
  rw [show (fun s => expect w A (later ψ χ s)) = fun s : ℝ => expect w A ψ + (2 * w * (HMat.inner (A.mulVec ψ) χ).im) * s +
      (w * (HMat.inner χ (A.mulVec χ)).re) * s ^ 2 from funext hpoly]
  exact h

/-! ### C188: friction takes energy -/

/-- C188: while a wave function evolves with `T + V` and the friction operator, the position changes with a velocity
`v`, the energy of `T + V` decreases with the rate `6πRη v²`, and the norm is kept; for all hermitian `T` and `X` and
potentials which commute with `X`. -/
theorem C188_dissipation (w R eta : ℝ) (T X V : Matrix (Fin N) (Fin N) ℂ) (hT : T.IsHermitian) (hX : X.IsHermitian)
    (hV : V.IsHermitian) (hVX : V * X = X * V) (ψ : Fin N → ℂ) :
    let S := ((Albrecht.new T X R eta).apply w ψ).2
    let χ : Fin N → ℂ := fun i => (T + V).mulVec ψ i + S i
    ∃ v : ℝ, HasDerivAt (fun s => expect w X (later ψ χ s)) v 0 ∧
      HasDerivAt (fun s => expect w (T + V) (later ψ χ s)) (-(6 * Real.pi * R * eta) * v ^ 2) 0 ∧
      HasDerivAt (fun s => expect w 1 (later ψ χ s)) 0 0 := by
  intro S χ
  obtain ⟨xe, hxe⟩ : ∃ xe : ℝ, xe = ((Albrecht.new T X R eta).refresh w ψ).xe := ⟨_, rfl⟩
  obtain ⟨ve, hve⟩ : ∃ ve : ℝ, ve = 2 * (ip w ψ (X.mulVec (T.mulVec ψ))).im := ⟨_, rfl⟩
  have hS : S = fun i => ((6 * Real.pi * R * eta * ve : ℝ) : ℂ) * (X.mulVec ψ i + ((-xe : ℝ) : ℂ) * ψ i) := by
    funext i
    rw [hxe, hve]
    show (ψ i * ((-((Albrecht.new T X R eta).refresh w ψ).xe : ℝ) : ℂ) + X.mulVec ψ i) * _ = _
    rw [mul_comm (ψ i), add_comm, mul_comm]
    rfl
  have hTV : (T + V).IsHermitian := hT.add hV
  have hve' : 2 * w * (HMat.inner (X.mulVec ψ) (T.mulVec ψ)).im = ve := by
    rw [hve, ← inner_herm X hX]
    unfold ip
    rw [Complex.im_ofReal_mul]
    ring
  have hVX' : (HMat.inner (X.mulVec ψ) (V.mulVec ψ)).im = 0 := by
    rw [← inner_herm X hX, Matrix.mulVec_mulVec]
    refine inner_herm_im _ ?_ ψ
    show (X * V)ᴴ = X * V
    rw [Matrix.conjTranspose_mul, hX.eq, hV.eq, hVX]
  have hXX : (HMat.inner (X.mulVec ψ) (X.mulVec ψ)).im = 0 := by
    rw [HMat.inner_self, Complex.ofReal_im]
  have hXψ : (HMat.inner (X.mulVec ψ) ψ).im = 0 := by
    rw [← inner_herm X hX]
    exact inner_herm_im X hX ψ
  have hHψ : (HMat.inner ((T + V).mulVec ψ) ψ).im = 0 := by
    rw [← inner_herm _ hTV]
    exact inner_herm_im _ hTV ψ
  have hXH : 2 * w * (HMat.inner (X.mulVec ψ) ((T + V).mulVec ψ)).im = ve := by
    have : (T + V).mulVec ψ = fun i => T.mulVec ψ i + V.mulVec ψ i := by
      rw [Matrix.add_mulVec]
      rfl
    rw [this, inner_add_right, Complex.add_im, hVX', add_zero, hve']
  have hHX : 2 * w * (HMat.inner ((T + V).mulVec ψ) (X.mulVec ψ)).im = -ve := by
    rw [← hXH, ← inner_conj, Complex.conj_im]
    ring
  refine ⟨ve, ?_, ?_, ?_⟩
  · refine (deriv_expect w X hX ψ χ).congr_deriv ?_
    show 2 * w * (HMat.inner (X.mulVec ψ) (fun i => (T + V).mulVec ψ i + S i)).im = ve
    rw [inner_add_right, hS, inner_smul_right, inner_add_right, inner_smul_right, Complex.add_im, Complex.im_ofReal_mul,
      Complex.add_im, Complex.im_ofReal_mul, hXX, hXψ]
    linarith
  · refine (deriv_expect w _ hTV ψ χ).congr_deriv ?_
    show 2 * w * (HMat.inner ((T + V).mulVec ψ) (fun i => (T + V).mulVec ψ i + S i)).im = _
    rw [inner_add_right, hS, inner_smul_right, inner_add_right, inner_smul_right, Complex.add_im, Complex.im_ofReal_mul,
      Complex.add_im, Complex.im_ofReal_mul, hHψ, HMat.inner_self, Complex.ofReal_im]
    linear_combination (6 * Real.pi * R * eta * ve) * hHX
  · refine (deriv_expect w 1 Matrix.isHermitian_one ψ χ).congr_deriv ?_
    rw [Matrix.one_mulVec]
    show 2 * w * (HMat.inner ψ (fun i => (T + V).mulVec ψ i + S i)).im = 0
    rw [inner_add_right, hS, inner_smul_right, inner_add_right, inner_smul_right, Complex.add_im, Complex.im_ofReal_mul,
      Complex.add_im, Complex.im_ofReal_mul, inner_herm_im _ hTV, inner_herm_im _ hX, HMat.inner_self, Complex.ofReal_im]
    ring

/-- Two points with the positions 0 and 1, and a hopping between them. -/
noncomputable def hop : Matrix (Fin 2) (Fin 2) ℂ := !![0, -Complex.I; Complex.I, 0]

/-- The positions. -/
noncomputable def pos : Matrix (Fin 2) (Fin 2) ℂ := !![0, 0; 0, 1]

theorem hop_herm : hop.IsHermitian := by
  ext i j
  fin_cases i <;> fin_cases j <;> simp [hop, Matrix.conjTranspose_apply]

theorem pos_herm : pos.IsHermitian := by
  ext i j
  fin_cases i <;> fin_cases j <;> simp [pos, Matrix.conjTranspose_apply]

/-- The hypotheses are met and the velocity is not zero. -/
example : hop.IsHermitian ∧ pos.IsHermitian ∧ ((2 : ℂ) • pos).IsHermitian ∧ (2 : ℂ) • pos * pos = pos * ((2 : ℂ) • pos) ∧
    2 * (ip 1 (fun _ => 1) (pos.mulVec (hop.mulVec fun _ => 1))).im = 2 := by
  refine ⟨hop_herm, pos_herm, ?_, ?_, ?_⟩
  · ext i j
    fin_cases i <;> fin_cases j <;> simp [pos, Matrix.conjTranspose_apply]
  · simp
  · simp [ip, HMat.inner, Fin.sum_univ_two, pos, hop, Matrix.mulVec, dotProduct]

/-! ### C189: frozen friction operators -/

/-- Specification: `f` is linear and hermitian. -/
def LinearHermitian (f : (Fin N → ℂ) → Fin N → ℂ) : Prop :=
  (∀ a b : Fin N → ℂ, f (fun i => a i + b i) = fun i => f a i + f b i) ∧
    (∀ (z : ℂ) (a : Fin N → ℂ), f (fun i => z * a i) = fun i => z * f a i) ∧
    ∀ a b : Fin N → ℂ, HMat.inner a (f b) = HMat.inner (f a) b

theorem linearHermitian_matrix (f : (Fin N → ℂ) → Fin N → ℂ) (A : Matrix (Fin N) (Fin N) ℂ) (hA : A.IsHermitian)
    (hf : ∀ ψ, f ψ = A.mulVec ψ) : LinearHermitian f := by
  refine ⟨fun a b => ?_, fun z a => ?_, fun a b => ?_⟩
  · rw [hf, hf, hf]
    exact Matrix.mulVec_add A a b
  · rw [hf, hf]
    exact Matrix.mulVec_smul A z a
  · rw [hf, hf]
    exact inner_herm A hA a b

/-- A history of applications. -/
noncomputable def Albrecht.after (w : ℝ) (o : Albrecht N) : List (Fin N → ℂ) → Albrecht N
  | [] => o
  | ψ :: l => (o.apply w ψ).1.after w l

theorem albrecht_frozen (w : ℝ) (o : Albrecht N) (h : o.recalc = false) (l : List (Fin N → ℂ)) : o.after w l = o := by
  induction l with
  | nil => rfl
  | cons ψ l ih =>
    have : (o.apply w ψ).1 = o := by
      unfold Albrecht.apply Albrecht.refresh
      rw [h]
      rfl
    unfold Albrecht.after
    rw [this, ih]

theorem albrecht_hermitian (w : ℝ) (o : Albrecht N) (hX : o.X.IsHermitian) (h : o.recalc = false) :
    LinearHermitian fun ψ => (o.apply w ψ).2 := by
  refine linearHermitian_matrix _ (((o.eta * o.ve : ℝ) : ℂ) • (o.X + ((-o.xe : ℝ) : ℂ) • 1)) ?_ ?_
  · show (((o.eta * o.ve : ℝ) : ℂ) • (o.X + ((-o.xe : ℝ) : ℂ) • 1))ᴴ = _
    rw [Matrix.conjTranspose_smul, Matrix.conjTranspose_add, Matrix.conjTranspose_smul, Matrix.conjTranspose_one, hX.eq,
      RCLike.star_def, Complex.conj_ofReal, Complex.conj_ofReal]
  · intro ψ
    funext i
    unfold Albrecht.apply Albrecht.refresh
    rw [h]
    simp only [Bool.false_eq_true, if_false]
    rw [Matrix.smul_mulVec, Matrix.add_mulVec, Matrix.smul_mulVec, Matrix.one_mulVec]
    simp only [Pi.smul_apply, Pi.add_apply, smul_eq_mul]
    ring

/-- C189: after a friction operator has been applied to a state and told not to recalculate, it stays the same linear
hermitian operator through all further applications. -/
theorem C189_frozen (w : ℝ) (o : Albrecht N) (hX : o.X.IsHermitian) (ψ : Fin N → ℂ) (l : List (Fin N → ℂ)) :
    let f := fun φ => ((((o.apply w ψ).1.setRecalc false).after w l).apply w φ).2
    LinearHermitian f ∧ ∀ i, f ψ i = (o.apply w ψ).2 i := by
  intro f
  have hf : f = fun φ => (((o.apply w ψ).1.setRecalc false).apply w φ).2 := by
    funext φ
    show ((((o.apply w ψ).1.setRecalc false).after w l).apply w φ).2 = _
    rw [albrecht_frozen w _ rfl l]
  have hXX : ((o.apply w ψ).1.setRecalc false).X = o.X := by
    show (o.refresh w ψ).X = o.X
    unfold Albrecht.refresh
    split <;> rfl
  refine ⟨?_, fun i => ?_⟩
  · rw [hf]
    exact albrecht_hermitian w _ (by rw [hXX]; exact hX) rfl
  · rw [hf]
    rfl

/-- The hypothesis is met by the operator with `hop` and `pos`. -/
example : (Albrecht.new hop pos 1 1).X.IsHermitian := pos_herm

/-! ### C190: friction does not shift the energy -/

/-- The expectation value of what an operator returns. -/
noncomputable def expectOf (w : ℝ) (ψ Sψ : Fin N → ℂ) : ℝ := (ip w ψ Sψ).re

/-- C190: for normalised states the expectation value of the friction operator is zero.  Missing: other states
(`C190_violated_norm`). -/
theorem C190_zero_partial (w R eta : ℝ) (T X : Matrix (Fin N) (Fin N) ℂ) (ψ : Fin N → ℂ) (hn : expect w 1 ψ = 1) :
    expectOf w ψ ((Albrecht.new T X R eta).apply w ψ).2 = 0 := by
  have h1 : (ip w ψ ψ).re = 1 := by
    unfold expect at hn
    rwa [Matrix.one_mulVec] at hn
  have hnorm : norm w ψ = 1 := by
    unfold norm
    rw [h1, Real.sqrt_one]
  obtain ⟨ve, hve⟩ : ∃ ve : ℝ, ve = 2 * (ip w ψ (X.mulVec (T.mulVec ψ))).im := ⟨_, rfl⟩
  have hS : ((Albrecht.new T X R eta).apply w ψ).2 =
      fun i => ((6 * Real.pi * R * eta * ve : ℝ) : ℂ) * (X.mulVec ψ i + ((-(ip w ψ (X.mulVec ψ)).re : ℝ) : ℂ) * ψ i) := by
    funext i
    rw [hve]
    show (ψ i * ((-((ip w ψ (X.mulVec ψ)).re / norm w ψ) : ℝ) : ℂ) + X.mulVec ψ i) * _ = _
    rw [hnorm, div_one, mul_comm (ψ i), add_comm, mul_comm]
    rfl
  unfold expectOf
  rw [hS]
  unfold ip
  rw [inner_smul_right, inner_add_right, inner_smul_right]
  unfold ip at h1
  rw [Complex.re_ofReal_mul] at h1
  rw [Complex.re_ofReal_mul, Complex.re_ofReal_mul, Complex.add_re, Complex.re_ofReal_mul, Complex.re_ofReal_mul]
  linear_combination (-(6 * Real.pi * R * eta * ve) * w * (HMat.inner ψ (X.mulVec ψ)).re) * h1

/-- A normalised state with a velocity: the hypothesis is met. -/
example : expect 1 1 (fun i : Fin 2 => ((if i = 0 then 3 / 5 else 4 / 5 : ℝ) : ℂ)) = 1 := by
  simp only [expect, ip, HMat.inner, Matrix.one_mulVec, Fin.sum_univ_two, Complex.ofReal_one, one_mul, Complex.conj_ofReal,
    ← Complex.ofReal_mul, ← Complex.ofReal_add, Complex.ofReal_re]
  norm_num

/-- C190 fails for other states: the mean position is divided by the norm instead of its square.  For the state (3, 4)
the operator with `hop`, `pos`, R = η = 1 has the expectation value −9216π, with the mean position 16/25 it would be
zero. -/
theorem C190_violated_norm :
    let ψ : Fin 2 → ℂ := fun i => if i = 0 then 3 else 4
    expectOf 1 ψ ((Albrecht.new hop pos 1 1).apply 1 ψ).2 = -9216 * Real.pi ∧
      expect 1 pos ψ - 16 / 25 * expect 1 1 ψ = 0 := by
  intro ψ
  have h0 : ψ 0 = 3 := rfl
  have h1 : ψ 1 = 4 := rfl
  have hX0 : pos.mulVec ψ 0 = 0 := by simp [pos, Matrix.mulVec, dotProduct, Fin.sum_univ_two]
  have hX1 : pos.mulVec ψ 1 = 4 := by simp [pos, Matrix.mulVec, dotProduct, Fin.sum_univ_two, h1]
  have hT0 : pos.mulVec (hop.mulVec ψ) 0 = 0 := by simp [pos, Matrix.mulVec, dotProduct, Fin.sum_univ_two]
  have hT1 : pos.mulVec (hop.mulVec ψ) 1 = 3 * Complex.I := by
    simp [pos, hop, Matrix.mulVec, dotProduct, Fin.sum_univ_two, h0]
    ring
  have c3 : starRingEnd ℂ (3 : ℂ) = 3 := Complex.conj_ofReal 3
  have c4 : starRingEnd ℂ (4 : ℂ) = 4 := Complex.conj_ofReal 4
  have hn : norm 1 ψ = 5 := by
    have : (ip 1 ψ ψ).re = 5 ^ 2 := by
      simp only [ip, HMat.inner, Fin.sum_univ_two, h0, h1, c3, c4]
      norm_num
    unfold norm
    rw [this]
    exact Real.sqrt_sq (by norm_num)
  have hx : (ip 1 ψ (pos.mulVec ψ)).re = 16 := by
    simp only [ip, HMat.inner, Fin.sum_univ_two, h0, h1, hX0, hX1, c3, c4]
    norm_num
  have hv : (ip 1 ψ (pos.mulVec (hop.mulVec ψ))).im = 12 := by
    simp only [ip, HMat.inner, Fin.sum_univ_two, h0, h1, hT0, hT1, c3, c4]
    norm_num
  have hS : ∀ i, ((Albrecht.new hop pos 1 1).apply 1 ψ).2 i =
      (ψ i * ((-(16 / 5) : ℝ) : ℂ) + pos.mulVec ψ i) * ((6 * Real.pi * 1 * 1 * (2 * 12) : ℝ) : ℂ) := by
    intro i
    show (ψ i * ((-((ip 1 ψ (pos.mulVec ψ)).re / norm 1 ψ) : ℝ) : ℂ) + pos.mulVec ψ i) *
      ((6 * Real.pi * 1 * 1 * (2 * (ip 1 ψ (pos.mulVec (hop.mulVec ψ))).im) : ℝ) : ℂ) = _
    rw [hx, hn, hv]
  constructor
  · unfold expectOf ip HMat.inner
    rw [Fin.sum_univ_two, hS, hS, h0, h1, hX0, hX1, c3, c4]
    have : ((1 : ℝ) : ℂ) * (3 * ((3 * ((-(16 / 5) : ℝ) : ℂ) + 0) * ((6 * Real.pi * 1 * 1 * (2 * 12) : ℝ) : ℂ)) +
        4 * ((4 * ((-(16 / 5) : ℝ) : ℂ) + 4) * ((6 * Real.pi * 1 * 1 * (2 * 12) : ℝ) : ℂ))) =
        ((-9216 * Real.pi : ℝ) : ℂ) := by
      push_cast
      ring
    rw [this, Complex.ofReal_re]
  · unfold expect
    rw [hx, Matrix.one_mulVec]
    have : (ip 1 ψ ψ).re = 25 := by
      simp only [ip, HMat.inner, Fin.sum_univ_two, h0, h1, c3, c4]
      norm_num
    rw [this]
    norm_num

/-! ### C191: the documented friction operator -/

/-- Specification, from the documentation (src/qdlib/OGridStokes.h:18-21): the friction operator with the mean
position `xe` and the mean momentum `pe`. -/
noncomputable def documented (x : Fin N → ℝ) (P : Matrix (Fin N) (Fin N) ℂ) (mass eta R c xe pe : ℝ) (ψ : Fin N → ℂ) :
    Fin N → ℂ := fun i =>
  ((6 * Real.pi * eta * R / mass : ℝ) : ℂ) *
    ((c : ℂ) * (1 / 2 * ((x i : ℂ) * P.mulVec ψ i + P.mulVec (fun j => (x j : ℂ) * ψ j) i) - (xe : ℂ) * P.mulVec ψ i) +
      ((1 - c : ℝ) : ℂ) * (pe : ℂ) * (((x i : ℂ) - (xe : ℂ)) * ψ i))

theorem times_eq (f : Fin N → ℝ) (ψ : Fin N → ℂ) : times f ψ = (Matrix.diagonal fun i => (f i : ℂ)).mulVec ψ := by
  funext i
  rw [Matrix.mulVec_diagonal]
  exact mul_comm _ _

theorem diag_herm (f : Fin N → ℝ) : (Matrix.diagonal fun i => (f i : ℂ)).IsHermitian := by
  rw [Matrix.IsHermitian, Matrix.diagonal_conjTranspose]
  congr 1
  funext i
  exact Complex.conj_ofReal _

theorem smul_herm (r : ℝ) (A : Matrix (Fin N) (Fin N) ℂ) (h : A.IsHermitian) : ((r : ℂ) • A).IsHermitian := by
  rw [Matrix.IsHermitian, Matrix.conjTranspose_smul, h.eq, RCLike.star_def, Complex.conj_ofReal]

/-- C191, what holds: with a mask, and with the mean values kept, the operator is linear and hermitian.  Missing: the
documented formula (`C191_violated_formula`), and operators without mask (`C191_violated_slope`). -/
theorem C191_hermitian_partial (w : ℝ) (x : Fin N → ℝ) (P : Matrix (Fin N) (Fin N) ℂ) (hP : P.IsHermitian)
    (mass eta R c x0 slope xmin dx : ℝ) (hs : slope ≠ 0) (ψ : Fin N → ℂ) :
    ∃ o r, (Stokes.new x P mass eta R c x0 slope xmin dx).apply w ψ = .val (o, r) ∧
      ∃ f : (Fin N → ℂ) → Fin N → ℂ, LinearHermitian f ∧
        (∀ φ, ({ o with recalc := false } : Stokes N).apply w φ = .val ({ o with recalc := false }, f φ)) ∧ f ψ = r := by
  have key : ∀ (o : Stokes N) (xe pe : ℝ) (g : Fin N → ℝ), o.P = P → o.psi = true → o.recalc = false →
      o.sigInt = some g → o.xe = some xe → o.pe = some pe →
      ∃ f : (Fin N → ℂ) → Fin N → ℂ, LinearHermitian f ∧ ∀ φ, o.apply w φ = .val (o, f φ) := by
    intro o xe pe g h1 h2 h3 h4 h5 h6
    let D := Matrix.diagonal fun i => (o.x i : ℂ)
    let Sg := Matrix.diagonal fun i => (o.sig i : ℂ)
    let G := Matrix.diagonal fun i => (g i : ℂ)
    have hcomm : D * Sg = Sg * D := by
      show Matrix.diagonal _ * Matrix.diagonal _ = Matrix.diagonal _ * Matrix.diagonal _
      rw [Matrix.diagonal_mul_diagonal, Matrix.diagonal_mul_diagonal]
      congr 1
      funext i
      exact mul_comm _ _
    have hD : Dᴴ = D := diag_herm o.x
    have hSg : Sgᴴ = Sg := diag_herm o.sig
    have hG : Gᴴ = G := diag_herm g
    let L := ((pe * (1 - o.c) : ℝ) : ℂ) • G + ((xe * pe * (1 - o.c) : ℝ) : ℂ) • (1 : Matrix (Fin N) (Fin N) ℂ)
    let M := ((1 / 2 * o.c : ℝ) : ℂ) • (D * Sg * P + P * (D * Sg)) +
      ((-(xe * o.c * (1 / 2)) : ℝ) : ℂ) • (P * Sg + Sg * P)
    have hL : L.IsHermitian := (smul_herm _ _ (diag_herm g)).add (smul_herm _ _ Matrix.isHermitian_one)
    have hM : M.IsHermitian := by
      refine (smul_herm _ _ ?_).add (smul_herm _ _ ?_)
      · rw [Matrix.IsHermitian, Matrix.conjTranspose_add, Matrix.conjTranspose_mul, Matrix.conjTranspose_mul,
          Matrix.conjTranspose_mul, Matrix.conjTranspose_mul, hD, hSg, hP.eq, add_comm, hcomm]
      · rw [Matrix.IsHermitian, Matrix.conjTranspose_add, Matrix.conjTranspose_mul, Matrix.conjTranspose_mul, hSg, hP.eq,
          add_comm]
    have hLv : ∀ φ : Fin N → ℂ, ∀ i, times g φ i * ((pe * (1 - o.c) : ℝ) : ℂ) + φ i * ((xe * pe * (1 - o.c) : ℝ) : ℂ) =
        L.mulVec φ i := by
      intro φ i
      rw [times_eq, Matrix.add_mulVec, Matrix.smul_mulVec, Matrix.smul_mulVec, Matrix.one_mulVec]
      simp only [Pi.add_apply, Pi.smul_apply, smul_eq_mul]
      ring
    have hMv : ∀ φ : Fin N → ℂ, ∀ i, o.mixed xe φ i = M.mulVec φ i := by
      intro φ i
      have e1 : times o.x (times o.sig (o.P.mulVec φ)) = (D * Sg * P).mulVec φ := by
        rw [times_eq, times_eq, h1, Matrix.mulVec_mulVec, Matrix.mulVec_mulVec, Matrix.mul_assoc]
      have e2 : o.P.mulVec (times o.x (times o.sig φ)) = (P * (D * Sg)).mulVec φ := by
        rw [times_eq, times_eq, h1, Matrix.mulVec_mulVec, Matrix.mulVec_mulVec, Matrix.mul_assoc]
      have e3 : o.P.mulVec (times o.sig φ) = (P * Sg).mulVec φ := by
        rw [times_eq, h1, Matrix.mulVec_mulVec]
      have e4 : times o.sig (o.P.mulVec φ) = (Sg * P).mulVec φ := by
        rw [times_eq, h1, Matrix.mulVec_mulVec]
      unfold Stokes.mixed
      rw [e1, e2, e3, e4]
      show _ = (((1 / 2 * o.c : ℝ) : ℂ) • (D * Sg * P + P * (D * Sg)) +
        ((-(xe * o.c * (1 / 2)) : ℝ) : ℂ) • (P * Sg + Sg * P)).mulVec φ i
      rw [Matrix.add_mulVec, Matrix.smul_mulVec, Matrix.smul_mulVec, Matrix.add_mulVec, Matrix.add_mulVec]
      simp only [Pi.add_apply, Pi.smul_apply, smul_eq_mul]
      push_cast
      ring
    refine ⟨fun φ i => (if o.c ≠ 0 then
      (times g φ i * ((pe * (1 - o.c) : ℝ) : ℂ) + φ i * ((xe * pe * (1 - o.c) : ℝ) : ℂ)) + o.mixed xe φ i else
      (times g φ i * ((pe * (1 - o.c) : ℝ) : ℂ) + φ i * ((xe * pe * (1 - o.c) : ℝ) : ℂ))) * (o.fac : ℂ), ?_, ?_⟩
    · by_cases hc : o.c = 0
      · refine linearHermitian_matrix _ ((o.fac : ℂ) • L) (smul_herm _ _ hL) fun φ => ?_
        funext i
        rw [if_neg (not_not.mpr hc), hLv, Matrix.smul_mulVec, Pi.smul_apply, smul_eq_mul, mul_comm]
      · refine linearHermitian_matrix _ ((o.fac : ℂ) • (L + M)) (smul_herm _ _ (hL.add hM)) fun φ => ?_
        funext i
        rw [if_pos hc, hLv, hMv, Matrix.smul_mulVec, Matrix.add_mulVec L M, Pi.smul_apply, Pi.add_apply, smul_eq_mul, mul_comm]
    · intro φ
      unfold Stokes.apply Stokes.refresh
      simp only [h2, h3, h4, h5, h6, Bool.not_true, Bool.false_eq_true, if_false]
  let o0 := Stokes.new x P mass eta R c x0 slope xmin dx
  let o1 := o0.refresh w ψ
  obtain ⟨xe, hxe⟩ : ∃ v, o1.xe = some v := ⟨_, rfl⟩
  obtain ⟨pe, hpe⟩ : ∃ v, o1.pe = some v := ⟨_, rfl⟩
  have hg : o1.sigInt = some (sigmoidInt ((x0 - xmin) / dx) slope) := by
    show (if slope = 0 then none else some (sigmoidInt ((x0 - xmin) / dx) slope)) = _
    rw [if_neg hs]
  obtain ⟨f, hf1, hf2⟩ := key { o1 with recalc := false } xe pe _ rfl rfl rfl hg hxe hpe
  refine ⟨o1, f ψ, ?_, f, hf1, hf2, rfl⟩
  have h := hf2 ψ
  unfold Stokes.apply Stokes.refresh at h
  simp only [Bool.false_eq_true, if_false] at h
  unfold Stokes.apply
  show (if !o0.psi then Ans.ub else match o1.sigInt, o1.xe, o1.pe with
    | some f, some xe, some pe => _
    | _, _, _ => _) = _
  have hpsi : o0.psi = true := rfl
  have hpsi1 : o1.psi = true := rfl
  rw [hpsi1] at h
  rw [hpsi]
  simp only [Bool.not_true, Bool.false_eq_true, if_false, hg, hxe, hpe] at h ⊢
  have h' := congrArg (fun a => match a with | Ans.val p => p.2 | _ => fun _ => 0) h
  simp only at h'
  rw [← h']
  rfl

/-- The hypotheses are met. -/
example : hop.IsHermitian ∧ (1 : ℝ) ≠ 0 := ⟨hop_herm, one_ne_zero⟩

theorem sigmoidInt_pos {x0 b : ℝ} (hb : 0 < b) (n : Fin N) : 0 < sigmoidInt x0 b n := by
  unfold sigmoidInt
  have h : -b * ((n.val : ℝ) - x0) < Real.log (1 + Real.exp (-b * ((n.val : ℝ) - x0))) := by
    rw [Real.lt_log_iff_exp_lt (by positivity)]
    linarith [Real.exp_pos (-b * ((n.val : ℝ) - x0))]
  have h2 := mul_lt_mul_of_pos_left h (one_div_pos.mpr hb)
  have h3 : 1 / b * (-b * ((n.val : ℝ) - x0)) = -((n.val : ℝ) - x0) := by
    field_simp
  rw [h3] at h2
  linarith

theorem sigmoid_pos {x0 b : ℝ} (n : Fin N) : 0 < sigmoid x0 b n := by
  unfold sigmoid
  have := Real.exp_pos (-b * ((n.val : ℝ) - x0))
  positivity

theorem documented_zero (w : ℝ) (x : Fin N → ℝ) (P : Matrix (Fin N) (Fin N) ℂ) (mass eta R pe : ℝ) (ψ : Fin N → ℂ)
    (hn : (ip w ψ ψ).re = 1) :
    expectOf w ψ (documented x P mass eta R 0 (ip w ψ fun i => (x i : ℂ) * ψ i).re pe ψ) = 0 := by
  have hd : documented x P mass eta R 0 (ip w ψ fun i => (x i : ℂ) * ψ i).re pe ψ = fun i =>
      ((6 * Real.pi * eta * R / mass * pe : ℝ) : ℂ) * ((x i : ℂ) * ψ i +
        ((-(ip w ψ fun i => (x i : ℂ) * ψ i).re : ℝ) : ℂ) * ψ i) := by
    funext i
    unfold documented
    push_cast
    ring
  unfold expectOf
  rw [hd]
  unfold ip at hn ⊢
  rw [inner_smul_right, inner_add_right, inner_smul_right]
  rw [Complex.re_ofReal_mul] at hn
  rw [Complex.re_ofReal_mul, Complex.re_ofReal_mul, Complex.add_re, Complex.re_ofReal_mul, Complex.re_ofReal_mul]
  linear_combination (-(6 * Real.pi * eta * R / mass * pe) * w * (HMat.inner ψ fun i => (x i : ℂ) * ψ i).re) * hn

/-- C191 fails for the documented formula: with c = 0 and a mask on a grid of positive positions the operator always
has an expectation value with the sign of the mean momentum, the documented one has the expectation value zero. -/
theorem C191_violated_formula (w : ℝ) (hw : 0 < w) (x : Fin N → ℝ) (hx : ∀ i, 0 < x i) (P : Matrix (Fin N) (Fin N) ℂ)
    (mass eta R x0 slope xmin dx : ℝ) (hm : 0 < mass) (he : 0 < eta) (hR : 0 < R) (hs : 0 < slope) (ψ : Fin N → ℂ)
    (hn : (ip w ψ ψ).re = 1) :
    ∃ o r pe, (Stokes.new x P mass eta R 0 x0 slope xmin dx).apply w ψ = .val (o, r) ∧ o.pe = some pe ∧
      (0 < pe → 0 < expectOf w ψ r) ∧ (pe < 0 → expectOf w ψ r < 0) ∧
      expectOf w ψ (documented x P mass eta R 0 (ip w ψ fun i => (x i : ℂ) * ψ i).re pe ψ) = 0 := by
  let o0 := Stokes.new x P mass eta R 0 x0 slope xmin dx
  let o1 := o0.refresh w ψ
  let χ := times (sigmoid ((x0 - xmin) / dx) slope) ψ
  have hsig : o0.sig = sigmoid ((x0 - xmin) / dx) slope := if_neg hs.ne'
  have hg : o1.sigInt = some (sigmoidInt ((x0 - xmin) / dx) slope) := if_neg hs.ne'
  let xe : ℝ := (ip w (times x χ) χ).re / norm w χ
  let pe : ℝ := (ip w (P.mulVec χ) χ).re / norm w χ
  have hxe : o1.xe = some xe := by
    show some ((ip w (times x (times o0.sig ψ)) (times o0.sig ψ)).re / norm w (times o0.sig ψ)) = _
    rw [hsig]
  have hpe : o1.pe = some pe := by
    show some ((ip w (P.mulVec (times o0.sig ψ)) (times o0.sig ψ)).re / norm w (times o0.sig ψ)) = _
    rw [hsig]
  have hψ : ∃ i, ψ i ≠ 0 := by
    by_contra h
    push Not at h
    unfold ip HMat.inner at hn
    rw [Finset.sum_eq_zero (fun i _ => by rw [h i, mul_zero])] at hn
    simp at hn
  obtain ⟨i0, hi0⟩ := hψ
  have hquad : ∀ f : Fin N → ℝ, (∀ i, 0 < f i) → 0 < (ip w ψ fun i => (f i : ℂ) * ψ i).re := by
    intro f hf
    unfold ip HMat.inner
    rw [Complex.re_ofReal_mul, Complex.re_sum]
    refine mul_pos hw (Finset.sum_pos' (fun i _ => ?_) ⟨i0, Finset.mem_univ _, ?_⟩)
    · have : starRingEnd ℂ (ψ i) * ((f i : ℂ) * ψ i) = ((f i * Complex.normSq (ψ i) : ℝ) : ℂ) := by
        push_cast
        rw [← Complex.mul_conj]
        ring
      rw [this, Complex.ofReal_re]
      exact mul_nonneg (hf i).le (Complex.normSq_nonneg _)
    · have : starRingEnd ℂ (ψ i0) * ((f i0 : ℂ) * ψ i0) = ((f i0 * Complex.normSq (ψ i0) : ℝ) : ℂ) := by
        push_cast
        rw [← Complex.mul_conj]
        ring
      rw [this, Complex.ofReal_re]
      exact mul_pos (hf i0) (Complex.normSq_pos.mpr hi0)
  have hxe0 : 0 ≤ xe := by
    refine div_nonneg ?_ (Real.sqrt_nonneg _)
    have : (ip w (times x χ) χ).re = (ip w ψ fun i =>
        ((x i * (sigmoid ((x0 - xmin) / dx) slope i) ^ 2 : ℝ) : ℂ) * ψ i).re := by
      unfold ip HMat.inner
      congr 2
      refine Finset.sum_congr rfl fun i _ => ?_
      show starRingEnd ℂ (ψ i * (sigmoid _ slope i : ℂ) * (x i : ℂ)) * (ψ i * (sigmoid _ slope i : ℂ)) = _
      rw [map_mul, map_mul, Complex.conj_ofReal, Complex.conj_ofReal]
      push_cast
      ring
    rw [this]
    exact (hquad _ fun i => mul_pos (hx i) (pow_pos (sigmoid_pos i) 2)).le
  have happ : o0.apply w ψ = .val (o1, fun i =>
      (times (sigmoidInt ((x0 - xmin) / dx) slope) ψ i * ((pe * (1 - 0) : ℝ) : ℂ) +
        ψ i * ((xe * pe * (1 - 0) : ℝ) : ℂ)) * ((eta / mass * R * 6 * Real.pi : ℝ) : ℂ)) := by
    have hc : o1.c = 0 := rfl
    unfold Stokes.apply
    show (match o1.sigInt, o1.xe, o1.pe with
      | some f, some xe, some pe => _
      | _, _, _ => _) = _
    rw [hg, hxe, hpe]
    show Ans.val (o1, fun i => (if o1.c ≠ 0 then _ else
      times (sigmoidInt ((x0 - xmin) / dx) slope) ψ i * ((pe * (1 - o1.c) : ℝ) : ℂ) +
        ψ i * ((xe * pe * (1 - o1.c) : ℝ) : ℂ)) * (o1.fac : ℂ)) = _
    simp only [hc, ne_eq, not_true_eq_false, if_false]
    rfl
  have hexp : expectOf w ψ (fun i =>
      (times (sigmoidInt ((x0 - xmin) / dx) slope) ψ i * ((pe * (1 - 0) : ℝ) : ℂ) +
        ψ i * ((xe * pe * (1 - 0) : ℝ) : ℂ)) * ((eta / mass * R * 6 * Real.pi : ℝ) : ℂ)) =
      (eta / mass * R * 6 * Real.pi) *
        ((ip w ψ fun i => (sigmoidInt ((x0 - xmin) / dx) slope i : ℂ) * ψ i).re + xe) * pe := by
    have : (fun i => (times (sigmoidInt ((x0 - xmin) / dx) slope) ψ i * ((pe * (1 - 0) : ℝ) : ℂ) +
        ψ i * ((xe * pe * (1 - 0) : ℝ) : ℂ)) * ((eta / mass * R * 6 * Real.pi : ℝ) : ℂ)) = fun i =>
        ((eta / mass * R * 6 * Real.pi * pe : ℝ) : ℂ) * ((sigmoidInt ((x0 - xmin) / dx) slope i : ℂ) * ψ i +
          (xe : ℂ) * ψ i) := by
      funext i
      unfold times
      push_cast
      ring
    unfold expectOf
    rw [this]
    unfold ip at hn ⊢
    rw [inner_smul_right, inner_add_right, inner_smul_right]
    rw [Complex.re_ofReal_mul] at hn
    rw [Complex.re_ofReal_mul, Complex.re_ofReal_mul, Complex.add_re, Complex.re_ofReal_mul, Complex.re_ofReal_mul]
    linear_combination (eta / mass * R * 6 * Real.pi * pe * xe) * hn
  have hpos : 0 < (eta / mass * R * 6 * Real.pi) *
      ((ip w ψ fun i => (sigmoidInt ((x0 - xmin) / dx) slope i : ℂ) * ψ i).re + xe) := by
    have h1 := hquad (sigmoidInt ((x0 - xmin) / dx) slope) fun i => sigmoidInt_pos hs i
    have h2 := Real.pi_pos
    refine mul_pos (by positivity) (by linarith)
  refine ⟨o1, _, pe, happ, hpe, ?_, ?_, documented_zero w x P mass eta R pe ψ hn⟩
  · intro h
    rw [hexp]
    exact mul_pos hpos h
  · intro h
    rw [hexp]
    exact mul_neg_of_pos_of_neg hpos h

/-- The hypotheses are met: a normalised state on two points. -/
example : (ip 1 (fun i : Fin 2 => ((if i = 0 then 3 / 5 else 4 / 5 : ℝ) : ℂ))
    (fun i : Fin 2 => ((if i = 0 then 3 / 5 else 4 / 5 : ℝ) : ℂ))).re = 1 := by
  simp only [ip, HMat.inner, Fin.sum_univ_two, Complex.ofReal_one, one_mul, Complex.conj_ofReal,
    ← Complex.ofReal_mul, ← Complex.ofReal_add, Complex.ofReal_re]
  norm_num

/-- C191 fails without mask: the operator uses values which have never been set. -/
theorem C191_violated_slope (w : ℝ) (x : Fin N → ℝ) (P : Matrix (Fin N) (Fin N) ℂ) (mass eta R c x0 xmin dx : ℝ)
    (ψ : Fin N → ℂ) : (Stokes.new x P mass eta R c x0 0 xmin dx).apply w ψ = .ub := by
  unfold Stokes.apply Stokes.refresh Stokes.new
  simp

/-! ### C192: momentum kicks -/

theorem foldl_sum {ι : Type} (l : List ι) (f : ι → ℝ) : ∀ a : ℝ, l.foldl (fun s i => s + f i) a = a + (l.map f).sum := by
  induction l with
  | nil => intro a; simp
  | cons i l ih =>
    intro a
    rw [List.foldl_cons, ih, List.map_cons, List.sum_cons]
    ring

/-- C192: after one initialisation, with matrix elements on the grid of the wave function, the kick multiplies each
value with the phase of the momentum change times the position: no value changes its magnitude.  Missing: further
initialisations and other grids (`C192_violated_twice`, `C192_violated_size`). -/
theorem C192_kick_partial {D : Nat} (w : ℝ) (P : Fin D → Matrix (Fin N) (Fin N) ℂ) (q : Fin D → Fin N → ℝ)
    (G : Fin D → Fin D → Fin N → ℝ) (eta R dt : ℝ) (ψ : Fin N → ℂ) :
    ∃ r, ((Kick.new P q G eta R).init dt).apply w ψ = .val r ∧ (∀ k, ‖r k‖ = ‖ψ k‖) ∧
      ∀ k, r k = Complex.exp (Complex.I * ((∑ i, (-(6 * Real.pi * eta * R * dt) * ∑ j, G i j k *
        expect w (P j) ψ) * q i k : ℝ) : ℂ)) * ψ k := by
  let o := (Kick.new P q G eta R).init dt
  let p := fun i => (ip w ψ ((o.P i).mulVec ψ)).re
  have hex : ∀ k, o.exponent p k = some (∑ i, (-(6 * Real.pi * eta * R * dt) * ∑ j, G i j k *
      expect w (P j) ψ) * q i k) := by
    intro k
    unfold Kick.exponent
    rw [dif_pos k.isLt]
    congr 1
    rw [foldl_sum, zero_add, ← List.ofFn_eq_map, List.sum_ofFn]
    refine Finset.sum_congr rfl fun i _ => ?_
    rw [foldl_sum, zero_add, ← List.ofFn_eq_map, List.sum_ofFn, Finset.mul_sum]
    congr 1
    refine Finset.sum_congr rfl fun j _ => ?_
    show -6 * Real.pi * eta * R * dt * G i j k * expect w (P j) ψ = _
    ring
  have hs : ∀ k, (o.exponent p k).isSome := fun k => by rw [hex k]; rfl
  have hr : ∀ k, Complex.exp (((o.exponent p k).get (hs k) : ℂ) * Complex.I) * ψ k =
      Complex.exp (Complex.I * ((∑ i, (-(6 * Real.pi * eta * R * dt) * ∑ j, G i j k * expect w (P j) ψ) * q i k : ℝ) : ℂ)) *
        ψ k := by
    intro k
    simp only [hex k, Option.get_some]
    rw [mul_comm _ Complex.I]
  refine ⟨fun k => Complex.exp (((o.exponent p k).get (hs k) : ℂ) * Complex.I) * ψ k, ?_, ?_, hr⟩
  · unfold Kick.apply
    exact dif_pos hs
  · intro k
    rw [norm_mul, Complex.norm_exp_ofReal_mul_I, one_mul]

/-- C192 fails if the operator is initialised twice: the strength is multiplied with the time step once more. -/
theorem C192_violated_twice {D M : Nat} (P : Fin D → Matrix (Fin N) (Fin N) ℂ) (q : Fin D → Fin N → ℝ)
    (G : Fin D → Fin D → Fin M → ℝ) (eta R dt : ℝ) :
    (((Kick.new P q G eta R).init dt).init dt).etaR0 = ((Kick.new P q G eta R).init dt).etaR0 * dt ∧
      (dt = 1 / 10 → eta = 1 → R = 1 → ((Kick.new P q G eta R).init dt).etaR0 ≠ (((Kick.new P q G eta R).init dt).init dt).etaR0) := by
  refine ⟨rfl, ?_⟩
  rintro rfl rfl rfl h
  have h1 : -6 * Real.pi * 1 * 1 * (1 / 10) = -6 * Real.pi * 1 * 1 * (1 / 10) * (1 / 10) := h
  have := Real.pi_pos
  linarith

/-- C192 fails if the matrix elements have fewer points than the wave function: values behind their end are used. -/
theorem C192_violated_size {D M : Nat} (w : ℝ) (o : Kick D N M) (h : M < N) (ψ : Fin N → ℂ) : o.apply w ψ = .ub := by
  unfold Kick.apply
  refine dif_neg fun hs => ?_
  have h1 := hs ⟨M, h⟩
  unfold Kick.exponent at h1
  rw [dif_neg (lt_irrefl M)] at h1
  exact Bool.noConfusion h1

/-! ### C193: copies of friction operators -/

/-- C193: a copy of a list friction operator gives what the original gives, and goes on like it, if the mean values are
recalculated.  Missing: copies while the mean values are kept (`C193_violated_frozen`) and the other friction operator
(`C193_violated_stokes`). -/
theorem C193_copy_partial (w : ℝ) (o : Albrecht N) (h : o.recalc = true) (ψ : Fin N → ℂ) :
    (o.copy.apply w ψ).2 = (o.apply w ψ).2 ∧ (o.copy.apply w ψ).1 = (o.apply w ψ).1 := by
  obtain ⟨T, X, eta, xe, ve, rc⟩ := o
  cases h
  exact ⟨rfl, rfl⟩

/-- C193 fails while the mean values are kept: the copy calculates them again from what it is applied to, and one which
keeps them has none, and no friction at all. -/
theorem C193_violated_frozen (w : ℝ) (o : Albrecht N) (ψ : Fin N → ℂ) :
    o.copy.recalc = true ∧ ∀ i, ((o.copy.setRecalc false).apply w ψ).2 i = 0 := by
  refine ⟨rfl, fun i => ?_⟩
  show (ψ i * ((-0 : ℝ) : ℂ) + o.X.mulVec ψ i) * ((o.eta * 0 : ℝ) : ℂ) = 0
  simp

/-- C193 fails for the other friction operator: each use of a copy is one of a pointer which has never been set. -/
theorem C193_violated_stokes (w : ℝ) (o : Stokes N) (ψ : Fin N → ℂ) : o.copy.apply w ψ = .ub := rfl

end QDng.Fric
