import Verif.Chexp.Model
import Verif.Chexp.Spec
import Verif.Chexp.Anger
import Verif.Propa.ChebyProps
import Mathlib.Analysis.InnerProductSpace.Spectrum
import Mathlib.Analysis.Calculus.MeanValue
import Mathlib.Analysis.Calculus.Deriv.Inv
import Mathlib.Analysis.SpecialFunctions.ExpDeriv
import Mathlib.LinearAlgebra.Eigenspace.Minpoly

/-
Lemmas for the accuracy of the Chebychev propagator.
-/

namespace QDng.Chexp

open QDng.Propa QDng.Common Polynomial

theorem besselJ_eq (k : ℕ) (x : ℝ) : ((besselJ k x : ℝ) : ℂ) = bfun (-1) x k := by
  unfold besselJ bfun bterm
  rw [Complex.ofReal_tsum]
  refine tsum_congr (fun m => ?_)
  push_cast
  rfl

theorem besselI_eq (k : ℕ) (x : ℝ) : ((besselI k x : ℝ) : ℂ) = bfun 1 x k := by
  unfold besselI bfun bterm
  rw [Complex.ofReal_tsum]
  refine tsum_congr (fun m => ?_)
  push_cast
  rw [one_pow, one_mul]

section

variable {V : Type} [NormedAddCommGroup V] [InnerProductSpace ℂ V] [FiniteDimensional ℂ V]

/-- The Hamiltonian has an orthonormal basis of eigenvectors. -/
theorem eigenbasis (H : V →ₗ[ℂ] V) (hH : Hermitian H) :
    ∃ (n : ℕ) (b : OrthonormalBasis (Fin n) ℂ V) (l : Fin n → ℝ), ∀ i, H (b i) = (l i : ℂ) • b i := by
  have hs : H.IsSymmetric := hH
  exact ⟨_, hs.eigenvectorBasis rfl, hs.eigenvalues rfl, fun i => hs.apply_eigenvectorBasis rfl i⟩

theorem within_eigen {n : ℕ} (H : V →ₗ[ℂ] V) (b : OrthonormalBasis (Fin n) ℂ V) (l : Fin n → ℝ)
    (hl : ∀ i, H (b i) = (l i : ℂ) • b i) (emin emax : ℝ) (hw : Within H emin emax) (i : Fin n) :
    emin ≤ l i ∧ l i ≤ emax := by
  have h := hw (b i)
  rw [hl, inner_smul_right, inner_self_eq_norm_sq_to_K, b.orthonormal.1 i] at h
  simpa using h

/-- A polynomial of the scaled Hamiltonian acts on the coefficients of the eigenvectors. -/
theorem series_component {n : ℕ} (H : V →ₗ[ℂ] V) (b : OrthonormalBasis (Fin n) ℂ V) (l : Fin n → ℝ)
    (hl : ∀ i, H (b i) = (l i : ℂ) • b i) (off : ℂ) (sc : ℝ) (ph e : ℂ) (cs : List ℂ) (m : ℕ) (v : V)
    (i : Fin n) :
    inner ℂ (b i) (series H off sc ph e cs m v) =
      (∑ k ∈ Finset.range m, ph * cs.getD k 0 * e ^ k *
        (Chebyshev.T ℂ (k : ℤ)).eval (1 / (sc : ℂ) * ((l i : ℂ) - off))) * inner ℂ (b i) v := by
  have hx : ∀ j, scaled H off sc (b j) = (1 / (sc : ℂ) * ((l j : ℂ) - off)) • b j := by
    intro j
    rw [scaled_apply, hl, ← sub_smul, smul_smul]
  have hT : ∀ (P : ℂ[X]) j, aeval (scaled H off sc) P (b j) =
      P.eval (1 / (sc : ℂ) * ((l j : ℂ) - off)) • b j := by
    intro P j
    have hb : b j ≠ 0 := b.orthonormal.ne_zero j
    exact Module.End.aeval_apply_of_hasEigenvector
      (Module.End.hasEigenvector_iff.2 ⟨Module.End.mem_eigenspace_iff.2 (hx j), hb⟩)
  have hP : ∀ P : ℂ[X], inner ℂ (b i) (aeval (scaled H off sc) P v) =
      P.eval (1 / (sc : ℂ) * ((l i : ℂ) - off)) * inner ℂ (b i) v := by
    intro P
    conv_lhs => rw [← b.sum_repr' v]
    rw [map_sum]
    simp only [map_smul, hT, smul_smul]
    rw [b.orthonormal.inner_right_fintype, mul_comm]
  unfold series
  rw [inner_sum, Finset.sum_mul]
  refine Finset.sum_congr rfl (fun k _ => ?_)
  rw [inner_smul_right, hP]
  ring

/-- Vectors whose coefficients are close are close. -/
theorem norm_le_of_components {n : ℕ} (b : OrthonormalBasis (Fin n) ℂ V) (w v : V) (ε : ℝ) (hε : 0 ≤ ε)
    (h : ∀ i, ‖inner ℂ (b i) w‖ ≤ ε * ‖inner ℂ (b i) v‖) : ‖w‖ ≤ ε * ‖v‖ := by
  have h1 := b.sum_sq_norm_inner_right w
  have h2 := b.sum_sq_norm_inner_right v
  have h3 : ‖w‖ ^ 2 ≤ (ε * ‖v‖) ^ 2 := by
    rw [← h1, mul_pow, ← h2, Finset.mul_sum]
    refine Finset.sum_le_sum (fun i _ => ?_)
    rw [← mul_pow]
    exact pow_le_pow_left₀ (norm_nonneg _) (h i) 2
  exact (sq_le_sq₀ (norm_nonneg _) (by positivity)).1 h3

/-- Solutions of a linear equation with a constant coefficient. -/
theorem exp_solution (f : ℝ → ℂ) (a : ℂ) (hf : ∀ t, HasDerivAt f (a * f t) t) (t s : ℝ) :
    f (t + s) = Complex.exp (a * s) * f t := by
  have hg : ∀ u, HasDerivAt (fun u : ℝ => Complex.exp (-a * u) * f u) 0 u := by
    intro u
    have h1 : HasDerivAt (fun u : ℝ => -a * (u : ℂ)) (-a) u := by
      simpa using (Complex.ofRealCLM.hasDerivAt (x := u)).const_mul (-a)
    have h2 := h1.cexp.mul (hf u)
    have e1 : Complex.exp (-a * (u : ℂ)) * -a * f u + Complex.exp (-a * (u : ℂ)) * (a * f u) = 0 := by ring
    rw [e1] at h2
    exact h2
  have hc := is_const_of_deriv_eq_zero (fun u => (hg u).differentiableAt) (fun u => (hg u).deriv) (t + s) t
  have h3 : Complex.exp (-a * ((t + s : ℝ) : ℂ)) ≠ 0 := Complex.exp_ne_zero _
  have h4 : Complex.exp (-a * (t : ℂ)) = Complex.exp (-a * ((t + s : ℝ) : ℂ)) * Complex.exp (a * s) := by
    rw [← Complex.exp_add]
    congr 1
    push_cast
    ring
  rw [h4, mul_assoc] at hc
  exact mul_left_cancel₀ h3 hc

theorem solution_component {n : ℕ} (H : V →ₗ[ℂ] V) (hH : Hermitian H) (b : OrthonormalBasis (Fin n) ℂ V)
    (l : Fin n → ℝ) (hl : ∀ i, H (b i) = (l i : ℂ) • b i) (c : ℂ) (psi : ℝ → V)
    (hp : ∀ t, HasDerivAt psi (c • H (psi t)) t) (t s : ℝ) (i : Fin n) :
    inner ℂ (b i) (psi (t + s)) = Complex.exp (c * l i * s) * inner ℂ (b i) (psi t) := by
  refine exp_solution (fun t => inner ℂ (b i) (psi t)) (c * l i) (fun t => ?_) t s
  have h := (hasDerivAt_const t (b i)).inner ℂ (hp t)
  rw [inner_zero_left, add_zero] at h
  have e1 : inner ℂ (b i) (c • H (psi t)) = c * l i * inner ℂ (b i) (psi t) := by
    rw [inner_smul_right, ← hH, hl, inner_smul_left, Complex.conj_ofReal]
    ring
  rw [e1] at h
  exact h

/-- The sum of the series for one energy. -/
theorem series_value (cs : List ℂ) (e : ℂ) (sc dt off l : ℝ) (hsc : sc ≠ 0) (m : ℕ)
    (hcs : ∀ k, k < m → cs.getD k 0 = (if k = 0 then 1 else 2) * bfun (e ^ 2) ((sc * dt : ℝ) : ℂ) k) :
    ∑ k ∈ Finset.range m, Complex.exp (e * dt * off) * cs.getD k 0 * e ^ k *
        (Chebyshev.T ℂ (k : ℤ)).eval (1 / (sc : ℂ) * ((l : ℂ) - off)) - Complex.exp (e * dt * l) =
      Complex.exp (e * dt * off) * (∑ k ∈ Finset.range m, aterm e ((sc * dt : ℝ) : ℂ) (((l - off) / sc : ℝ) : ℂ) k -
        Complex.exp (e * ((sc * dt : ℝ) : ℂ) * (((l - off) / sc : ℝ) : ℂ))) := by
  have hsc' : (sc : ℂ) ≠ 0 := by exact_mod_cast hsc
  rw [mul_sub (Complex.exp (e * dt * off)) (∑ k ∈ Finset.range m, _), Finset.mul_sum, ← Complex.exp_add]
  congr 1
  · refine Finset.sum_congr rfl (fun k hk => ?_)
    rw [hcs k (Finset.mem_range.1 hk)]
    unfold aterm
    have : (1 / (sc : ℂ) * ((l : ℂ) - off)) = (((l - off) / sc : ℝ) : ℂ) := by
      push_cast
      field_simp
    rw [this]
    ring
  · congr 1
    push_cast
    field_simp
    ring

theorem restBound_eq (z : ℝ) (n : ℕ) : restBound (z / 2) n = errorBound z n := rfl

theorem errorBound_nonneg (z : ℝ) (hz : 0 ≤ z) (n : ℕ) : 0 ≤ errorBound z n := by
  unfold errorBound
  positivity

/-- The error of the first `m` terms for a whole wave function, with a common factor `f` of the
coefficients, from a bound for all energies. -/
theorem series_error_of (H : V →ₗ[ℂ] V) (hH : Hermitian H) (e c f : ℂ) (sc dt off : ℝ)
    (emin emax : ℝ) (hw : Within H emin emax) (hsc : sc ≠ 0)
    (hr : ∀ E, emin ≤ E → E ≤ emax → -1 ≤ (E - off) / sc ∧ (E - off) / sc ≤ 1)
    (cs : List ℂ) (m : ℕ)
    (hcs : ∀ k, k < m → cs.getD k 0 = f * ((if k = 0 then 1 else 2) * bfun (e ^ 2) ((sc * dt : ℝ) : ℂ) k))
    (psi : ℝ → V) (hp : ∀ t, HasDerivAt psi (c • H (psi t)) t) (t s : ℝ) (hcs' : c * s = e * dt)
    (B : ℝ) (hB0 : 0 ≤ B) (hB : ∀ x : ℝ, -1 ≤ x → x ≤ 1 →
      ‖∑ k ∈ Finset.range m, aterm e ((sc * dt : ℝ) : ℂ) x k - Complex.exp (e * ((sc * dt : ℝ) : ℂ) * x)‖ ≤ B) :
    ‖series H off sc (Complex.exp (e * dt * off)) e cs m (psi t) - f • psi (t + s)‖ ≤
      ‖f‖ * ‖Complex.exp (e * dt * off)‖ * B * ‖psi t‖ := by
  obtain ⟨n, b, l, hl⟩ := eigenbasis H hH
  refine norm_le_of_components b _ _ _ (mul_nonneg (mul_nonneg (norm_nonneg _) (norm_nonneg _))
    hB0) (fun i => ?_)
  rw [inner_sub_right, series_component H b l hl, inner_smul_right, solution_component H hH b l hl c psi hp,
    ← mul_assoc, ← sub_mul, norm_mul]
  refine mul_le_mul_of_nonneg_right ?_ (norm_nonneg _)
  have e1 : c * (l i : ℂ) * (s : ℂ) = e * dt * l i := by
    rw [← hcs']
    ring
  have hv := series_value ((List.range m).map fun k =>
    (if k = 0 then 1 else 2) * bfun (e ^ 2) ((sc * dt : ℝ) : ℂ) k) e sc dt off (l i) hsc m (fun k hk => by
      rw [List.getD_eq_getElem?_getD, List.getElem?_map, List.getElem?_range hk]
      rfl)
  have hsum : ∑ k ∈ Finset.range m, Complex.exp (e * dt * off) * cs.getD k 0 * e ^ k *
        (Chebyshev.T ℂ (k : ℤ)).eval (1 / (sc : ℂ) * ((l i : ℂ) - off)) =
      f * ∑ k ∈ Finset.range m, Complex.exp (e * dt * off) * ((List.range m).map fun k =>
        (if k = 0 then 1 else 2) * bfun (e ^ 2) ((sc * dt : ℝ) : ℂ) k).getD k 0 * e ^ k *
          (Chebyshev.T ℂ (k : ℤ)).eval (1 / (sc : ℂ) * ((l i : ℂ) - off)) := by
    rw [Finset.mul_sum]
    refine Finset.sum_congr rfl (fun k hk => ?_)
    rw [hcs k (Finset.mem_range.1 hk), List.getD_eq_getElem?_getD, List.getElem?_map,
      List.getElem?_range (Finset.mem_range.1 hk)]
    dsimp only [Option.map, Option.getD]
    ring
  rw [e1, hsum, ← mul_sub, norm_mul, hv, norm_mul, mul_assoc ‖f‖]
  refine mul_le_mul_of_nonneg_left ?_ (norm_nonneg f)
  refine mul_le_mul_of_nonneg_left ?_ (norm_nonneg _)
  obtain ⟨w1, w2⟩ := within_eigen H b l hl emin emax hw i
  obtain ⟨r1, r2⟩ := hr _ w1 w2
  exact hB _ r1 r2

/-- The error of the first `m` terms for a whole wave function, with a common factor `f` of the
coefficients. -/
theorem series_error (H : V →ₗ[ℂ] V) (hH : Hermitian H) (e c f : ℂ) (he : ‖e‖ = 1) (sc dt off : ℝ)
    (emin emax : ℝ) (hw : Within H emin emax) (hsc : sc ≠ 0)
    (hr : ∀ E, emin ≤ E → E ≤ emax → -1 ≤ (E - off) / sc ∧ (E - off) / sc ≤ 1)
    (cs : List ℂ) (m : ℕ)
    (hcs : ∀ k, k < m → cs.getD k 0 = f * ((if k = 0 then 1 else 2) * bfun (e ^ 2) ((sc * dt : ℝ) : ℂ) k))
    (psi : ℝ → V) (hp : ∀ t, HasDerivAt psi (c • H (psi t)) t) (t s : ℝ) (hcs' : c * s = e * dt) :
    ‖series H off sc (Complex.exp (e * dt * off)) e cs m (psi t) - f • psi (t + s)‖ ≤
      ‖f‖ * ‖Complex.exp (e * dt * off)‖ * errorBound |sc * dt| m * ‖psi t‖ := by
  refine series_error_of H hH e c f sc dt off emin emax hw hsc hr cs m hcs psi hp t s hcs' _
    (errorBound_nonneg _ (abs_nonneg _) m) (fun x r1 r2 => ?_)
  have := anger_error e ((sc * dt : ℝ) : ℂ) he _ r1 r2 m
  rwa [Complex.norm_real, Real.norm_eq_abs, restBound_eq] at this

/-- There is a solution for every initial wave function. -/
theorem solution_exists (H : V →ₗ[ℂ] V) (hH : Hermitian H) (c : ℂ) (v : V) :
    ∃ psi : ℝ → V, (∀ t, HasDerivAt psi (c • H (psi t)) t) ∧ psi 0 = v := by
  obtain ⟨n, b, l, hl⟩ := eigenbasis H hH
  refine ⟨fun t => ∑ i, (Complex.exp (c * l i * t) * inner ℂ (b i) v) • b i, fun t => ?_, ?_⟩
  · have h : ∀ i ∈ Finset.univ, HasDerivAt (fun t : ℝ => (Complex.exp (c * l i * t) * inner ℂ (b i) v) • b i)
        ((Complex.exp (c * l i * t) * (c * l i) * inner ℂ (b i) v) • b i) t := by
      intro i _
      have h1 : HasDerivAt (fun u : ℝ => c * l i * (u : ℂ)) (c * l i) t := by
        simpa using (Complex.ofRealCLM.hasDerivAt (x := t)).const_mul (c * l i)
      exact (h1.cexp.mul_const _).smul_const (b i)
    have hs := HasDerivAt.fun_sum h
    convert hs using 1
    rw [map_sum, Finset.smul_sum]
    refine Finset.sum_congr rfl (fun i _ => ?_)
    rw [map_smul, hl, smul_smul, smul_smul]
    congr 1
    ring
  · simp only [Complex.ofReal_zero, mul_zero, Complex.exp_zero, one_mul]
    exact b.sum_repr' v

end

/-! ### The set-up -/

theorem chebyCoeff_getD (order n : ℕ) (v : ℕ → ℝ) (cs : List ℂ)
    (h : chebyCoeff order ((List.range n).map fun k => ((v k : ℝ) : ℂ)) = some cs) :
    order ≤ n ∧ cs.length = order ∧ ∀ k, k < order → cs.getD k 0 = (if k = 0 then 1 else 2) * (v k : ℂ) := by
  have hn : order ≤ n := by
    unfold chebyCoeff at h
    split_ifs at h with h1
    simpa using h1
  obtain ⟨cs', h1, h2, h3⟩ := C31_coefficients order ((List.range n).map fun k => ((v k : ℝ) : ℂ)) (by simpa using hn)
  rw [h] at h1
  obtain rfl := Option.some.inj h1
  refine ⟨hn, h2, fun k hk => ?_⟩
  rw [h3 k hk, List.getD_eq_getElem?_getD, List.getElem?_map, List.getElem?_range (lt_of_lt_of_le hk hn)]
  rfl

/-- What a successful set-up leaves behind. -/
theorem setup_val {V : Type} (h : V → V) (g : Given) (J I : Lib) (c : Cheby V) (hs : setup h g J I = .val c) :
    g.dt ≠ 0 ∧ c.h = h ∧ c.exponent = exponent g ∧ c.dt = g.dt ∧ c.prec = g.prec ∧
      c.offset = chebyOffset g.imaginary g.emin g.emax ∧
      c.scaling = g.scaling.getD (chebyScaling c.offset c.exponent g.emin g.emax) ∧
      c.coeff.length = c.order ∧ ∃ n, c.order ≤ n ∧ (∀ k, k < c.order → c.coeff.getD k 0 =
        (if k = 0 then 1 else 2) * (((if g.imaginary then I else J).val n (c.scaling * g.dt) k : ℝ) : ℂ)) ∧
      chebyOrder (toInt (20 * chebyScaling c.offset c.exponent g.emin g.emax * g.dt)).natAbs g.order
        ((if g.imaginary then I else J).val n (c.scaling * g.dt)) delta
        (fun n => (if g.imaginary then I else J).zeroes n (c.scaling * g.dt)) = some c.order ∧
      n = g.order.getD (if (toInt (20 * chebyScaling c.offset c.exponent g.emin g.emax * g.dt)).natAbs < 10 then 10
        else (toInt (20 * chebyScaling c.offset c.exponent g.emin g.emax * g.dt)).natAbs) := by
  unfold setup at hs
  by_cases hdt : g.dt = 0
  · rw [if_pos hdt] at hs
    cases hs
  · rw [if_neg hdt] at hs
    dsimp only at hs
    generalize (if g.imaginary then I else J) = L at hs ⊢
    generalize hn : (g.order.getD (if (toInt (20 * chebyScaling (chebyOffset g.imaginary g.emin g.emax) (exponent g)
      g.emin g.emax * g.dt)).natAbs < 10 then 10 else (toInt (20 * chebyScaling (chebyOffset g.imaginary g.emin
        g.emax) (exponent g) g.emin g.emax * g.dt)).natAbs)) = n at hs
    by_cases h1 : n < 3
    · rw [if_pos h1] at hs
      cases hs
    rw [if_neg h1] at hs
    by_cases h2 : L.ok n (g.scaling.getD (chebyScaling (chebyOffset g.imaginary g.emin g.emax) (exponent g) g.emin
      g.emax) * g.dt) = false
    · rw [if_pos h2] at hs
      cases hs
    rw [if_neg h2] at hs
    split at hs
    · cases hs
    · rename_i order ho
      by_cases h3 : 0 < order ∧ g.imaginary = false ∧ (order : ℤ) ≤ toInt (g.scaling.getD (chebyScaling
          (chebyOffset g.imaginary g.emin g.emax) (exponent g) g.emin g.emax) * g.dt)
      · rw [if_pos h3] at hs
        cases hs
      rw [if_neg h3] at hs
      split at hs
      · cases hs
      · rename_i cs hcs
        obtain ⟨a1, a2, a3⟩ := chebyCoeff_getD _ _ _ _ hcs
        cases hs
        exact ⟨hdt, rfl, rfl, rfl, rfl, rfl, rfl, a2, n, a1, a3, ho, hn.symm⟩

/-- When the set-up succeeds. -/
theorem setup_intro {V : Type} (h : V → V) (g : Given) (J I : Lib) (sc : ℝ) (est n order : ℕ) (hdt : g.dt ≠ 0)
    (hsc : g.scaling.getD (chebyScaling (chebyOffset g.imaginary g.emin g.emax) (exponent g) g.emin g.emax) = sc)
    (hest : (toInt (20 * chebyScaling (chebyOffset g.imaginary g.emin g.emax) (exponent g) g.emin g.emax *
      g.dt)).natAbs = est)
    (hn : g.order.getD (if est < 10 then 10 else est) = n) (h3 : 3 ≤ n)
    (hok : (if g.imaginary then I else J).ok n (sc * g.dt) = true)
    (ho : chebyOrder est g.order ((if g.imaginary then I else J).val n (sc * g.dt)) delta
      (fun n => (if g.imaginary then I else J).zeroes n (sc * g.dt)) = some order)
    (hlim : g.imaginary = true ∨ toInt (sc * g.dt) < order) (hle : order ≤ n) :
    ∃ c, setup h g J I = .val c ∧ c.order = order := by
  obtain ⟨cs, hcs, _, _⟩ := C31_coefficients order ((List.range n).map fun k =>
    (((if g.imaginary then I else J).val n (sc * g.dt) k : ℝ) : ℂ)) (by simpa using hle)
  refine ⟨{ h := h, exponent := exponent g, dt := g.dt, scaling := sc,
            offset := chebyOffset g.imaginary g.emin g.emax, coeff := cs, order := order, prec := g.prec }, ?_, rfl⟩
  unfold setup
  rw [if_neg hdt]
  dsimp only
  rw [hest, hn, hsc, if_neg (by omega), if_neg (by rw [hok]; decide), ho]
  dsimp only
  rw [if_neg, hcs]
  rintro ⟨-, h1, h2⟩
  rcases hlim with h4 | h4
  · rw [h1] at h4
    cases h4
  · omega

end QDng.Chexp
