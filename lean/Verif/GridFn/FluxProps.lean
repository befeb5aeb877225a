import Verif.GridFn.Lemmas
import Mathlib.Analysis.Calculus.Deriv.Add
import Mathlib.Analysis.Calculus.Deriv.Mul
import Mathlib.Analysis.Calculus.Deriv.Star
import Mathlib.Analysis.Complex.RealDeriv
import Mathlib.Analysis.SpecialFunctions.Trigonometric.Deriv

/-
Properties of the flux operator.
-/

namespace QDng.GridFn

open QDng.Common QDng.Deriv

theorem flux_value {s : Space} (T : s.Wf → s.Wf) (g : s.Pt → ℝ) (ψ : s.Wf) :
    ∃ o, (Flux.new s [T, times g]).init = .ok o ∧
      o.matrixElement ψ ψ =
        .val ((2 * (cell s * ∑ p, g p * ((starRingEnd ℂ) (ψ p) * T ψ p).im) : ℝ) : ℂ) := by
  refine ⟨⟨[T, times g], true, some (fun _ => -2)⟩, rfl, ?_⟩
  unfold Flux.matrixElement
  simp only [Bool.true_eq_false, if_false, List.getElem?_cons_zero, List.getElem?_cons_succ]
  congr 1
  rw [wfMul_eq]
  unfold ip times
  have h1 : ∀ p, (starRingEnd ℂ) (-2 : ℂ) * ((g p : ℂ) *
        (((starRingEnd ℂ) (T ψ p) * ψ p * ((1 : ℝ) : ℂ)).im : ℂ))
      = ((2 * (g p * ((starRingEnd ℂ) (ψ p) * T ψ p).im) : ℝ) : ℂ) := by
    intro p
    have h2 : ((starRingEnd ℂ) (T ψ p) * ψ p * ((1 : ℝ) : ℂ)).im
        = -((starRingEnd ℂ) (ψ p) * T ψ p).im := by
      rw [Complex.ofReal_one, mul_one, ← Complex.conj_im, map_mul, Complex.conj_conj, mul_comm]
    have h3 : (starRingEnd ℂ) (-2 : ℂ) = -2 := by
      rw [map_neg]; congr 1; exact Complex.conj_ofReal 2
    rw [h2, h3]
    push_cast
    ring
  rw [Finset.sum_congr rfl (fun p _ => h1 p), ← Complex.ofReal_sum, ← Complex.ofReal_mul,
    ← Finset.mul_sum]
  congr 1
  ring

/-- **C159.**  For a wave function that moves with the Hamiltonian `T + V`, the flux operator with the
kinetic energy `T` and the volume `g` gives the rate at which the probability inside of the volume
grows.  Missing: the documentation promises the outgoing flux, the opposite of this
(`C159_sign_violated`). -/
theorem C159_rate_partial {s : Space} (T : s.Wf → s.Wf) (g V : s.Pt → ℝ) (ψ : ℝ → s.Wf) (t : ℝ)
    (hψ : ∀ p, HasDerivAt (fun u => ψ u p) (-Complex.I * (T (ψ t) p + (V p : ℂ) * ψ t p)) t) :
    ∃ o z, (Flux.new s [T, times g]).init = .ok o ∧ o.matrixElement (ψ t) (ψ t) = .val ((z : ℝ) : ℂ) ∧
      HasDerivAt (fun u => cell s * ∑ p, g p * ‖ψ u p‖ ^ 2) z t := by
  obtain ⟨o, h1, h2⟩ := flux_value T g (ψ t)
  refine ⟨o, _, h1, h2, ?_⟩
  have hp : ∀ p, HasDerivAt (fun u => ‖ψ u p‖ ^ 2)
      (2 * ((starRingEnd ℂ) (ψ t p) * T (ψ t) p).im) t := by
    intro p
    have hre : HasDerivAt (fun u => (ψ u p).re)
        (-Complex.I * (T (ψ t) p + (V p : ℂ) * ψ t p)).re t :=
      (Complex.reCLM.hasFDerivAt.comp_hasDerivAt t (hψ p))
    have him : HasDerivAt (fun u => (ψ u p).im)
        (-Complex.I * (T (ψ t) p + (V p : ℂ) * ψ t p)).im t :=
      (Complex.imCLM.hasFDerivAt.comp_hasDerivAt t (hψ p))
    have hsum := (hre.mul hre).add (him.mul him)
    have hf : (fun u => ‖ψ u p‖ ^ 2) = fun u => (ψ u p).re * (ψ u p).re + (ψ u p).im * (ψ u p).im := by
      funext u
      rw [← Complex.normSq_eq_norm_sq, Complex.normSq_apply]
    rw [hf]
    refine hsum.congr_deriv ?_
    simp only [Complex.mul_re, Complex.mul_im, Complex.neg_re, Complex.neg_im, Complex.I_re,
      Complex.I_im, Complex.add_re, Complex.add_im, Complex.ofReal_re, Complex.ofReal_im,
      Complex.conj_re, Complex.conj_im]
    ring
  have hall := HasDerivAt.fun_sum (u := Finset.univ) (fun p _ => (hp p).const_mul (g p))
  have := hall.const_mul (cell s)
  refine this.congr_deriv ?_
  rw [Finset.mul_sum, Finset.mul_sum, Finset.mul_sum]
  refine Finset.sum_congr rfl (fun p _ => ?_)
  ring

/-- A grid with two points. -/
noncomputable abbrev pair : Space := { d := 1, axes := fun _ => { n := 2, xmin := 0, xmax := 1 } }

theorem pair_cell : cell pair = 1 := by
  unfold cell
  refine Finset.prod_eq_one (fun i _ => ?_)
  unfold spacing
  show ((1 : ℝ) - 0) / ((2 : Nat) - 1) = 1
  norm_num

/-- The other point. -/
noncomputable def other (p : pair.Pt) : pair.Pt := fun _ => if p 0 = 0 then 1 else 0

/-- A Hermitian operator that moves between the two points. -/
noncomputable def hop (ψ : pair.Wf) : pair.Wf := fun p => ψ (other p)

/-- The left point. -/
noncomputable def leftPoint (p : pair.Pt) : ℝ := if p 0 = 0 then 1 else 0

theorem pair_sum (f : pair.Pt → ℂ) : ∑ p, f p = f (fun _ => 0) + f (fun _ => 1) := by
  rw [← (Equiv.funUnique (Fin 1) (Fin 2)).symm.sum_comp f]
  exact Fin.sum_univ_two _

/-- A wave function that obeys the equation of motion exists: the hypotheses of the theorem are met
by the wave function `(cos t, -i sin t)`. -/
example : ∃ ψ : ℝ → pair.Wf, ∀ t p, HasDerivAt (fun u => ψ u p)
    (-Complex.I * (hop (ψ t) p + ((0 : ℝ) : ℂ) * ψ t p)) t := by
  refine ⟨fun t p => if p 0 = 0 then ((Real.cos t : ℝ) : ℂ) else -Complex.I * ((Real.sin t : ℝ) : ℂ),
    fun t p => ?_⟩
  have hc : HasDerivAt (fun u : ℝ => ((Real.cos u : ℝ) : ℂ)) ((-Real.sin t : ℝ) : ℂ) t :=
    (Real.hasDerivAt_cos t).ofReal_comp
  have hs : HasDerivAt (fun u : ℝ => ((Real.sin u : ℝ) : ℂ)) ((Real.cos t : ℝ) : ℂ) t :=
    (Real.hasDerivAt_sin t).ofReal_comp
  by_cases hp : p 0 = 0
  · have h1 : other p 0 ≠ 0 := by unfold other; rw [if_pos hp]; decide
    unfold hop
    simp only [if_pos hp, if_neg h1]
    refine hc.congr_deriv ?_
    push_cast
    linear_combination (-Complex.sin t) * Complex.I_sq
  · have h1 : other p 0 = 0 := by unfold other; rw [if_neg hp]
    unfold hop
    simp only [if_neg hp, if_pos h1]
    refine (hs.const_mul (-Complex.I)).congr_deriv ?_
    push_cast
    ring

/-- **C159.**  The reported flux is the opposite of the documented outgoing flux
`-2 ∫ Im(ψ* T ψ)`, for all operators and wave functions, and it is not zero in general. -/
theorem C159_sign_violated :
    (∀ (s : Space) (T : s.Wf → s.Wf) (g : s.Pt → ℝ) (ψ : s.Wf), ∃ o z,
      (Flux.new s [T, times g]).init = .ok o ∧ o.matrixElement ψ ψ = .val ((z : ℝ) : ℂ) ∧
      z = -(-2 * (cell s * ∑ p, g p * ((starRingEnd ℂ) (ψ p) * T ψ p).im))) ∧
    (∀ φ ψ, scal pair φ (hop ψ) = scal pair (hop φ) ψ) ∧
    ∃ (ψ : pair.Wf) (o : Flux pair), (Flux.new pair [hop, times leftPoint]).init = .ok o ∧
      o.matrixElement ψ ψ = .val 2 := by
  refine ⟨fun s T g ψ => ?_, fun φ ψ => ?_, fun p => if p 0 = 0 then 1 else Complex.I, ?_⟩
  · obtain ⟨o, h1, h2⟩ := flux_value T g ψ
    exact ⟨o, _, h1, h2, by ring⟩
  · unfold scal
    rw [pair_sum, pair_sum]
    unfold hop
    have h0 : other (fun _ => 0) = fun _ => 1 := by funext i; unfold other; simp
    have h1 : other (fun _ => 1) = fun _ => 0 := by funext i; unfold other; simp
    rw [h0, h1, add_comm]
  · obtain ⟨o, h1, h2⟩ := flux_value hop leftPoint (fun p => if p 0 = 0 then 1 else Complex.I)
    refine ⟨o, h1, ?_⟩
    rw [h2, pair_cell]
    congr 1
    have h3 : (∑ p, leftPoint p * ((starRingEnd ℂ) ((if p 0 = 0 then 1 else Complex.I : ℂ)) *
        hop (fun p => if p 0 = 0 then 1 else Complex.I) p).im) = 1 := by
      rw [← (Equiv.funUnique (Fin 1) (Fin 2)).symm.sum_comp]
      refine (Fin.sum_univ_two _).trans ?_
      simp [leftPoint, hop, other]
    rw [h3]
    norm_num

/-- **C160.**  With the whole grid as volume and a Hermitian kinetic energy there is no flux. -/
theorem C160_closed {s : Space} (T : s.Wf → s.Wf)
    (hT : ∀ φ ψ, scal s φ (T ψ) = scal s (T φ) ψ) (ψ : s.Wf) :
    ∃ o, (Flux.new s [T, times (fun _ => 1)]).init = .ok o ∧ o.matrixElement ψ ψ = .val 0 := by
  obtain ⟨o, h1, h2⟩ := flux_value T (fun _ => 1) ψ
  refine ⟨o, h1, ?_⟩
  rw [h2]
  congr 1
  have h3 : cell s * ∑ p, 1 * ((starRingEnd ℂ) (ψ p) * T ψ p).im = (scal s ψ (T ψ)).im := by
    unfold scal
    rw [Complex.im_ofReal_mul, Complex.im_sum]
    simp only [one_mul]
    rfl
  have h4 : (starRingEnd ℂ) (scal s ψ (T ψ)) = scal s ψ (T ψ) := by
    conv_rhs => rw [hT]
    unfold scal
    rw [map_mul, Complex.conj_ofReal, map_sum]
    congr 1
    exact Finset.sum_congr rfl (fun p _ => by rw [map_mul, Complex.conj_conj, mul_comm])
  rw [h3, Complex.conj_eq_iff_im.1 h4]
  simp

/-- The hypothesis holds for the operator that moves between two points. -/
example : ∀ φ ψ, scal pair φ (hop ψ) = scal pair (hop φ) ψ := C159_sign_violated.2.1

/-- **C161.**  A copy of a flux operator gives the same values after it has been initialised with a
wave function itself.  Missing: the copy is not usable before (`C161_copy_violated`). -/
theorem C161_copy_partial {s : Space} (ops : List (s.Wf → s.Wf)) (h : ops.length = 2) :
    ∃ o c c', (Flux.new s ops).init = .ok o ∧ (Flux.new s []).copy o = .ok c ∧ c.init = .ok c' ∧
      ∀ φ ψ, c'.matrixElement φ ψ = o.matrixElement φ ψ := by
  refine ⟨⟨ops, true, some (fun _ => -2)⟩, ⟨ops, false, none⟩, ⟨ops, true, some (fun _ => -2)⟩, ?_, rfl, ?_,
    fun _ _ => rfl⟩
  · unfold Flux.init Flux.new
    simp [h]
  · unfold Flux.init
    simp [h]

/-- **C161.**  Asking the copy of an initialised flux operator for a value is undefined. -/
theorem C161_copy_violated {s : Space} (ops : List (s.Wf → s.Wf)) (h : ops.length = 2) :
    ∃ o c, (Flux.new s ops).init = .ok o ∧ (Flux.new s []).copy o = .ok c ∧
      ∀ φ ψ, c.matrixElement φ ψ = .ub := by
  refine ⟨⟨ops, true, some (fun _ => -2)⟩, ⟨ops, false, none⟩, ?_, rfl, fun _ _ => rfl⟩
  unfold Flux.init Flux.new
  simp [h]

/-- The hypothesis holds for two operators. -/
example : [hop, times leftPoint].length = 2 := rfl

/-- **C152.**  A flux operator with a wrong number of operators is refused, but the second attempt to
initialise it succeeds. -/
theorem C152_flux_violated {s : Space} (ops : List (s.Wf → s.Wf)) (h : ops.length ≠ 2) :
    ∃ o, (Flux.new s ops).init = .threw o ∧ o.init = .ok o := by
  refine ⟨⟨ops, true, some (fun _ => -2)⟩, ?_, rfl⟩
  unfold Flux.init Flux.new
  simp [h]

/-- The hypothesis holds for three operators. -/
example : [hop, times leftPoint, hop].length ≠ 2 := by decide

end QDng.GridFn
