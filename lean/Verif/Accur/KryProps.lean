import Verif.Accur.Ritz

/-
Properties C273 and C274: accuracy of the short iterative Lanczos and the Arnoldi propagator.
-/

namespace QDng.Accur

open QDng.Chexp QDng.Krylov

variable {V : Type} [NormedAddCommGroup V] [InnerProductSpace ℂ V]

/-! ### C273: short iterative Lanczos -/

theorem sil_ritz (L : TriDiag) {H : V →ₗ[ℂ] V} (hH : H.IsSymmetric) {m : ℕ} {ψ : V} (hψ : ‖ψ‖ = 1) {full : Prop}
    {s : Lz V} (B : Built H ψ (m + 1) m full s) (hf : full) :
    Ritz H s.q m (triC (m + 1) s.alpha s.beta)
      ((L.evec (m + 1) s.alpha s.beta).map (fun x : ℝ => (x : ℂ))) (L.eval (m + 1) s.alpha s.beta) := by
  refine ⟨B.orth hH hψ, B.proj hH hψ hf, B.kry, ?_, triC_eigen L _ _ _⟩
  have e : ((L.evec (m + 1) s.alpha s.beta).map (fun x : ℝ => (x : ℂ))).conjTranspose =
      ((L.evec (m + 1) s.alpha s.beta).map (fun x : ℝ => (x : ℂ))).transpose := by
    ext i j
    rw [Matrix.conjTranspose_apply, Matrix.transpose_apply, Matrix.map_apply, Complex.star_def, Complex.conj_ofReal]
  rw [e]
  exact mul_eq_one_comm.1 (evec_orth L _ _ _)

/-- C273: one step of the Lanczos propagator without its error estimate gives the solution of the Schrödinger equation a
time step `s` later up to twice the power `order` of the time step times the largest energy, divided by the factorial
of `order`. -/
theorem C273_step [FiniteDimensional ℂ V] (L : TriDiag) (H : V →ₗ[ℂ] V) (hH : Hermitian H) (w : ℝ) (hw : Within H (-w) w)
    {order : ℕ} (ho : 3 ≤ order) (dt err : ℝ) (he : err ≤ 0) (s : ℝ) (stale : ℕ → V) (psi : ℝ → V) (hp : Solves H psi)
    (t : ℝ) (hn : ‖psi t‖ = 1) (φ : V) (h : silStep L H order dt err (-Complex.I * s) stale (psi t) = some φ) :
    ‖φ - psi (t + s)‖ ≤ 2 * ((w * |s|) ^ order / order.factorial) := by
  obtain ⟨m, b, hs, B, hφ⟩ := step_some ho h
  obtain ⟨hm, _⟩ := B.last he
  subst hm
  have R := sil_ritz L hH hn B he
  have := R.error hH w hw s psi hp t B.zero.symm
  have e : ∀ i, silCoef L (m + 1) b.alpha b.beta (-Complex.I * s) i =
      (((L.evec (m + 1) b.alpha b.beta).map (fun x : ℝ => (x : ℂ))).mulVec fun j =>
        (starRingEnd ℂ) (((L.evec (m + 1) b.alpha b.beta).map (fun x : ℝ => (x : ℂ))) 0 j) *
          Complex.exp ((L.eval (m + 1) b.alpha b.beta j : ℂ) * (-Complex.I * s))) i := by
    intro i
    rw [silCoef_eq L (m + 1) b.alpha b.beta (-Complex.I * s) 0 rfl i, Matrix.mulVec, dotProduct]
    refine Finset.sum_congr rfl (fun j _ => ?_)
    rw [Matrix.transpose_apply, Matrix.map_apply, Matrix.map_apply, Complex.conj_ofReal]
  simp only [← e] at this
  rw [hφ]
  exact this

/-- C273: over `n` steps the errors add up. -/
theorem C273_many [FiniteDimensional ℂ V] (L : TriDiag) (H : V →ₗ[ℂ] V) (hH : Hermitian H) (w : ℝ) (hw0 : 0 ≤ w)
    (hw : Within H (-w) w) {order : ℕ} (ho : 3 ≤ order) (dt err : ℝ) (he : err ≤ 0) (s : ℝ) (stale : ℕ → ℕ → V)
    (psi : ℝ → V) (hp : Solves H psi) (hn : ‖psi 0‖ = 1) (chi : ℕ → V) (h0 : chi 0 = psi 0)
    (h : ∀ k, silStep L H order dt err (-Complex.I * s) (stale k) (chi k) = some (chi (k + 1))) (n : ℕ) :
    ‖chi n - psi (n * s)‖ ≤ n * (2 * ((w * |s|) ^ order / order.factorial)) := by
  have h1 : ∀ k, ‖chi k‖ = 1 := by
    intro k
    induction k with
    | zero => rw [h0, hn]
    | succ k ih => exact C104_sil_keeps_norm L H hH ho dt err _ (by simp) (stale k) _ _ ih (h k)
  have := many_steps H hH s (2 * ((w * |s|) ^ order / order.factorial)) (by positivity) psi hp chi h0 (fun k phi hq hk => by
    rw [h1, mul_one]
    exact C273_step L H hH w hw ho dt err he s (stale k) phi hq (k * s) (by rw [hk, h1]) _ (by rw [hk]; exact h k)) n
  refine this.trans (le_of_eq ?_)
  simp only [h1, Finset.sum_const, Finset.card_range, nsmul_eq_mul, mul_one]
  ring

/-! ### C274: Arnoldi -/

theorem ar_ritz {H : V →ₗ[ℂ] V} (hH : H.IsSymmetric) {m : ℕ} {ψ : V} (hψ : ‖ψ‖ = 1)
    {s : Ar V} (B : ABuilt H ψ m s) :
    Ritz H s.q m (haMat (m + 1) s.h) ((haMat_herm hH hψ B).eigenvectorUnitary : Matrix (Fin (m + 1)) (Fin (m + 1)) ℂ)
      (haMat_herm hH hψ B).eigenvalues := by
  refine ⟨B.orth hψ, B.proj hψ, haMat_kry B, ?_, herm_eigen _⟩
  have := Unitary.coe_star_mul_self (haMat_herm hH hψ B).eigenvectorUnitary
  rwa [Matrix.star_eq_conjTranspose] at this

/-- C274: one step of the Arnoldi propagator with a Hermitian Hamiltonian.  Wherever the expansion ends, after `n` terms,
the error is at most twice the power `n` of the time step times the largest energy, divided by the factorial of `n`. When
the error estimate is not used, `n` is the requested order, or the error is at most the time step divided by `10 ^ 11`. -/
theorem C274_step [FiniteDimensional ℂ V] (L : GenDiag) (H : V →ₗ[ℂ] V) (hH : Hermitian H) (w : ℝ) (hw : Within H (-w) w)
    {maxorder : ℕ} (ho : 3 ≤ maxorder) (dt conv : ℝ) (s : ℝ) (stale : ℕ → V) (order0 : ℕ) (psi : ℝ → V)
    (hp : Solves H psi) (t : ℝ) (hn : ‖psi t‖ = 1)
    (hres : 1 / 10 ^ 11 ≤ ‖H (psi t) - (inner ℂ (psi t) (H (psi t)) : ℂ) • psi t‖) (φ : V)
    (h : arStep L H maxorder dt conv (-Complex.I * s) stale order0 (psi t) = some φ) :
    ∃ n, 2 ≤ n ∧ n ≤ maxorder ∧ ‖φ - psi (t + s)‖ ≤ 2 * ((w * |s|) ^ n / n.factorial) ∧
      (conv ≤ 0 → n = maxorder ∨ ‖φ - psi (t + s)‖ ≤ |s| / 10 ^ 11) := by
  obtain ⟨m, B, hle, hend⟩ := ar_build (dt := dt) (conv := conv) (stale := stale) (order0 := order0) ho hres
  obtain ⟨c, hc, hφ⟩ := ar_some B h
  have R := ar_ritz hH hn B
  have hU2 := mul_eq_one_comm.1 R.unit
  have hcU := arCoef_unitary hc hU2 R.eigen 0 rfl
  have hz := B.two
  rw [hcU] at hφ
  refine ⟨m + 1, by omega, hle, ?_, fun hcv => ?_⟩
  · rw [hφ]
    exact R.error hH w hw s psi hp t B.zero.symm
  · rcases hend hcv with h1 | ⟨c', hc'⟩
    · exact Or.inl h1
    · right
      rw [hφ]
      refine (R.rest hH s underrun ⟨c', hc'.le⟩ psi hp t B.zero.symm).trans (le_of_eq ?_)
      unfold underrun
      ring

/-- C274: over `n` steps the errors add up. -/
theorem C274_many [FiniteDimensional ℂ V] (L : GenDiag) (H : V →ₗ[ℂ] V) (hH : Hermitian H) (w : ℝ) (hw0 : 0 ≤ w)
    (hw : Within H (-w) w) {maxorder : ℕ} (ho : 3 ≤ maxorder) (dt conv : ℝ) (hcv : conv ≤ 0) (s : ℝ)
    (stale : ℕ → ℕ → V) (order0 : ℕ → ℕ) (psi : ℝ → V) (hp : Solves H psi) (hn : ‖psi 0‖ = 1) (chi : ℕ → V)
    (h0 : chi 0 = psi 0)
    (hres : ∀ k, 1 / 10 ^ 11 ≤ ‖H (chi k) - (inner ℂ (chi k) (H (chi k)) : ℂ) • chi k‖)
    (h : ∀ k, arStep L H maxorder dt conv (-Complex.I * s) (stale k) (order0 k) (chi k) = some (chi (k + 1))) (n : ℕ) :
    ‖chi n - psi (n * s)‖ ≤ n * max (2 * ((w * |s|) ^ maxorder / maxorder.factorial)) (|s| / 10 ^ 11) := by
  have h1 : ∀ k, ‖chi k‖ = 1 := by
    intro k
    induction k with
    | zero => rw [h0, hn]
    | succ k ih =>
      exact (C105_arnoldi_keeps_norm_and_energy L H hH ho dt conv _ (by simp) (stale k) (order0 k) _ _ ih (hres k) (h k)).1
  have := many_steps H hH s (max (2 * ((w * |s|) ^ maxorder / maxorder.factorial)) (|s| / 10 ^ 11))
    (le_max_of_le_right (by positivity)) psi hp chi h0 (fun k phi hq hk => by
    rw [h1, mul_one]
    obtain ⟨n, -, -, h2, h3⟩ := C274_step L H hH w hw ho dt conv s (stale k) (order0 k) phi hq (k * s) (by rw [hk, h1])
      (by rw [hk]; exact hres k) _ (by rw [hk]; exact h k)
    rcases h3 hcv with rfl | h3
    · exact le_max_of_le_left h2
    · exact le_max_of_le_right h3) n
  refine this.trans (le_of_eq ?_)
  simp only [h1, Finset.sum_const, Finset.card_range, nsmul_eq_mul, mul_one]
  ring

end QDng.Accur
