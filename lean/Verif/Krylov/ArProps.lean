import Verif.Krylov.ArLemmas
import Verif.Krylov.SilProps

/-
C105: the Arnoldi propagator.
-/

namespace QDng.Krylov

open QDng.Krylov.Spec

variable {V : Type} [NormedAddCommGroup V] [InnerProductSpace ℂ V]

/-- The result of a step of the propagator. -/
theorem ar_some {L : GenDiag} {H : V →ₗ[ℂ] V} {maxorder : ℕ} {dt conv : ℝ} {tau : ℂ}
    {stale : ℕ → V} {order0 : ℕ} {ψ φ : V} {m : ℕ}
    (B : ABuilt H ψ m (arBuild H maxorder dt conv stale order0 ψ))
    (h : arStep L H maxorder dt conv tau stale order0 ψ = some φ) :
    ∃ c : Fin (m + 1) → ℂ,
      arCoef L (m + 1) (arBuild H maxorder dt conv stale order0 ψ).h tau = some c ∧
      φ = ∑ i, c i • (arBuild H maxorder dt conv stale order0 ψ).q i := by
  unfold arStep at h
  simp only at h
  rw [B.order] at h
  unfold arPropagate at h
  cases hc : arCoef L (m + 1) (arBuild H maxorder dt conv stale order0 ψ).h tau with
  | none => rw [hc] at h; cases h
  | some c =>
    rw [hc] at h
    refine ⟨c, rfl, ?_⟩
    obtain rfl := Option.some.inj h
    rw [combine_eq _ _ _ _ B.zero (by omega), sum_arr _ _ _ (le_refl _) (fun i hi => by omega)]

/-- C105: whatever the Hamiltonian and the wave function, the step of length `tau` agrees with the
exponential series of `H` to the order of the expansion, of at least two terms.  Without the error
estimate the expansion has the requested order, or it ends where the space of the Krylov vectors is
invariant but for a vector shorter than the underrun limit; when the space is invariant, and the wave
function normalised, the step is the exact time evolution.  The Hamiltonian need not be
Hermitian. -/
theorem C105_arnoldi_agrees_with_series (L : GenDiag) (H : V →ₗ[ℂ] V) {maxorder : ℕ}
    (ho : 3 ≤ maxorder) (dt conv : ℝ) (stale : ℕ → V) (order0 : ℕ) (ψ : V) (φ : ℂ → V)
    (hres : underrun ≤ ‖H ψ - (inner ℂ ψ (H ψ) : ℂ) • ψ‖)
    (h : ∀ tau, arStep L H maxorder dt conv tau stale order0 ψ = some (φ tau)) :
    ∃ n, 2 ≤ n ∧ n ≤ maxorder ∧ AgreesTo n H ψ φ ∧
      (conv ≤ 0 → n = maxorder ∨ (∃ x y : V,
        x ∈ Submodule.span ℂ (Set.range (krylov H ψ n)) ∧
        y ∈ Submodule.span ℂ (Set.range (krylov H ψ n)) ∧
        (‖ψ‖ = 1 → ‖x‖ = 1 ∧ ∀ u ∈ Submodule.span ℂ (Set.range (krylov H ψ (n - 1))),
          (inner ℂ u x : ℂ) = 0) ∧ ‖H x - y‖ < underrun)) ∧
      (‖ψ‖ = 1 → (H ^ n) ψ ∈ Submodule.span ℂ (Set.range (krylov H ψ n)) →
        ∀ tau, Evolved H tau ψ (φ tau)) := by
  obtain ⟨m, B, hle, hend⟩ := ar_build (dt := dt) (conv := conv) (stale := stale)
    (order0 := order0) ho hres
  have htwo := B.two
  set s := arBuild H maxorder dt conv stale order0 ψ with hs
  let z : Fin (m + 1) := ⟨0, by omega⟩
  set Z := L.evec (m + 1) (haMat (m + 1) s.h) with hZ
  set d := L.eval (m + 1) (haMat (m + 1) s.h) with hd
  have hinv : Z * Z⁻¹ = 1 := by
    obtain ⟨c, hc, _⟩ := ar_some B (h 0)
    exact (arCoef_some hc).1
  have heig : haMat (m + 1) s.h * Z = Z * Matrix.diagonal d := L.eigen _ _
  have hφ : ∀ tau, φ tau = ∑ j, Complex.exp (d j * tau) • ∑ i, (Z i j * Z⁻¹ j z) • s.q i := by
    intro tau
    obtain ⟨c, hc, hcφ⟩ := ar_some B (h tau)
    rw [hcφ]
    simp only [(arCoef_some hc).2 z rfl, Finset.sum_smul, Finset.smul_sum, smul_smul]
    rw [Finset.sum_comm]
    apply Finset.sum_congr rfl
    intro j _
    apply Finset.sum_congr rfl
    intro i _
    congr 1
    ring
  refine ⟨m + 1, by omega, hle, ⟨m + 1, d, fun j => ∑ i, (Z i j * Z⁻¹ j z) • s.q i, hφ, ?_⟩, ?_, ?_⟩
  · intro k hk
    rw [← B.zero]
    exact (haMat_kry B).agrees heig hinv (z := z) rfl k hk
  · intro hc
    rcases hend hc with h1 | ⟨c, h1⟩
    · exact Or.inl h1
    · refine Or.inr ⟨s.q m, ∑ i ∈ Finset.range (m + 1), c i • s.q i, B.q_mem m (le_refl _), ?_, ?_, h1⟩
      · apply Submodule.sum_mem
        intro i hi
        rw [Finset.mem_range] at hi
        exact Submodule.smul_mem _ _ (KS_mono H ψ (by omega) (B.q_mem i (by omega)))
      · intro hψ
        have O := B.orth hψ
        constructor
        · have h2 := O m m (le_refl _) (le_refl _)
          rw [if_pos rfl, inner_self_eq_norm_sq_to_K] at h2
          have h3 : ((‖s.q m‖ ^ 2 : ℝ) : ℂ) = 1 := by rw [Complex.ofReal_pow]; exact h2
          have h4 : ‖s.q m‖ ^ 2 = 1 := by exact_mod_cast h3
          nlinarith [norm_nonneg (s.q m)]
        · intro u hu
          rw [Nat.add_sub_cancel] at hu
          obtain ⟨g, rfl⟩ := (Submodule.mem_span_range_iff_exists_fun ℂ).1 hu
          rw [sum_inner]
          apply Finset.sum_eq_zero
          intro k _
          rw [inner_smul_left]
          have h2 : krylov H ψ m k = ∑ i, (haMat (m + 1) s.h ^ k.val) i z • s.q i := by
            rw [(haMat_kry B).moment (z := z) rfl k (by omega), B.zero]
            rfl
          rw [h2, sum_inner, Finset.sum_eq_zero, mul_zero]
          intro i _
          rw [inner_smul_left]
          by_cases hi : i.val = m
          · rw [(haMat_kry B).pow_hess (z := z) rfl k i (by omega)]
            simp
          · rw [O i m (by omega) (le_refl _), if_neg hi, mul_zero]
  · intro hψ hmem tau
    have O := B.orth hψ
    have hKQ : KS H ψ (m + 1) ≤ QS s.q (m + 1) := by
      unfold KS
      rw [Submodule.span_le]
      rintro _ ⟨k, rfl⟩
      exact B.pow_mem k (by omega)
    have hK1 : KS H ψ (m + 1 + 1) ≤ KS H ψ (m + 1) := by
      conv_lhs => unfold KS
      rw [Submodule.span_le]
      rintro _ ⟨k, rfl⟩
      by_cases hk : k.val < m + 1
      · exact pow_mem_KS H ψ hk
      · have : k.val = m + 1 := by omega
        show (H ^ k.val) ψ ∈ _
        rw [this]
        exact hmem
    have hcol : ∀ j : Fin (m + 1), H (s.q j) = ∑ i, haMat (m + 1) s.h i j • s.q i := by
      intro j
      have h1 : H (s.q j) ∈ QS s.q (m + 1) :=
        hKQ (hK1 (map_KS H ψ (KS_mono H ψ (by omega) (B.q_mem j (by omega)))))
      conv_lhs => rw [expand O h1]
      apply Finset.sum_congr rfl
      intro i _
      rw [B.proj hψ i j]
    refine ⟨m + 1, d, fun j => ∑ i, (Z i j * Z⁻¹ j z) • s.q i, ?_, ?_, (hφ tau).symm⟩
    · intro j
      simp only
      have h1 : ∑ i, (Z i j * Z⁻¹ j z) • s.q i = Z⁻¹ j z • ∑ i, Z i j • s.q i := by
        rw [Finset.smul_sum]
        apply Finset.sum_congr rfl
        intro i _
        rw [smul_smul, mul_comm]
      rw [h1, map_smul, Kry.eigenvector hcol heig j, smul_comm]
    · have hag := (haMat_kry B).agrees heig hinv (z := z) rfl 0 (by omega)
      rw [pow_zero, B.zero] at hag
      conv_rhs => rw [← show (1 : V →ₗ[ℂ] V) ψ = ψ from rfl, ← hag]
      apply Finset.sum_congr rfl
      intro j _
      rw [pow_zero, one_smul]

/-- The small matrix of a Hermitian Hamiltonian. -/
theorem haMat_herm {H : V →ₗ[ℂ] V} (hH : H.IsSymmetric) {ψ : V} (hψ : ‖ψ‖ = 1) {m : ℕ} {s : Ar V}
    (B : ABuilt H ψ m s) : (haMat (m + 1) s.h).IsHermitian := by
  ext i j
  rw [Matrix.conjTranspose_apply, B.proj hψ j i, B.proj hψ i j, Complex.star_def, inner_conj_symm,
    hH]

theorem herm_eigen {n : ℕ} {A : Matrix (Fin n) (Fin n) ℂ} (hA : A.IsHermitian) :
    A * (hA.eigenvectorUnitary : Matrix (Fin n) (Fin n) ℂ) =
      (hA.eigenvectorUnitary : Matrix (Fin n) (Fin n) ℂ) *
        Matrix.diagonal (fun j => (hA.eigenvalues j : ℂ)) := by
  ext i j
  rw [Matrix.mul_diagonal]
  have h := congrFun (hA.mulVec_eigenvectorBasis j) i
  rw [Pi.smul_apply, Complex.real_smul, mul_comm] at h
  exact h

/-- C105: with a Hermitian Hamiltonian a normalised wave function stays normalised and keeps its
mean energy, wherever the expansion ends. -/
theorem C105_arnoldi_keeps_norm_and_energy (L : GenDiag) (H : V →ₗ[ℂ] V) (hH : H.IsSymmetric)
    {maxorder : ℕ} (ho : 3 ≤ maxorder) (dt conv : ℝ) (tau : ℂ) (ht : tau.re = 0) (stale : ℕ → V)
    (order0 : ℕ) (ψ φ : V) (hψ : ‖ψ‖ = 1)
    (hres : underrun ≤ ‖H ψ - (inner ℂ ψ (H ψ) : ℂ) • ψ‖)
    (h : arStep L H maxorder dt conv tau stale order0 ψ = some φ) :
    ‖φ‖ = 1 ∧ (inner ℂ φ (H φ) : ℂ) = inner ℂ ψ (H ψ) := by
  obtain ⟨m, B, hle, hend⟩ := ar_build (dt := dt) (conv := conv) (stale := stale)
    (order0 := order0) ho hres
  obtain ⟨c, hc, hφ⟩ := ar_some B h
  set s := arBuild H maxorder dt conv stale order0 ψ with hs
  have O := B.orth hψ
  let z : Fin (m + 1) := ⟨0, by omega⟩
  have hA := haMat_herm hH hψ B
  set U : Matrix (Fin (m + 1)) (Fin (m + 1)) ℂ :=
    (hA.eigenvectorUnitary : Matrix (Fin (m + 1)) (Fin (m + 1)) ℂ) with hU
  have hU1 : U.conjTranspose * U = 1 := by
    have := Unitary.coe_star_mul_self hA.eigenvectorUnitary
    rwa [Matrix.star_eq_conjTranspose] at this
  have hU2 : U * U.conjTranspose = 1 := mul_eq_one_comm.1 hU1
  have hcU := arCoef_unitary hc hU2 (herm_eigen hA) z rfl
  constructor
  · have hform := herm_form (M := 1) (f := fun _ => 1) (lam := hA.eigenvalues) hU1 (by
      rw [Matrix.one_mul, Matrix.diagonal_one, Matrix.mul_one]) ht z
    rw [← hcU, Matrix.one_mulVec, Matrix.one_apply_eq] at hform
    have h3 : (inner ℂ φ φ : ℂ) = 1 := by
      rw [hφ, sum_norm O (le_refl _), hform]
    rw [inner_self_eq_norm_sq_to_K] at h3
    have h4 : ‖φ‖ ^ 2 = 1 := by
      have h5 : ((‖φ‖ ^ 2 : ℝ) : ℂ) = 1 := by rw [Complex.ofReal_pow]; exact h3
      exact_mod_cast h5
    nlinarith [norm_nonneg φ]
  · have hform := herm_form (M := haMat (m + 1) s.h) (lam := hA.eigenvalues) hU1 (herm_eigen hA)
      ht z
    rw [← hcU, B.proj hψ z z] at hform
    have hz0 : s.q z = ψ := B.zero
    rw [hz0] at hform
    rw [← hform, hφ, map_sum, sum_inner]
    simp only [dotProduct, Matrix.mulVec, Pi.star_apply]
    apply Finset.sum_congr rfl
    intro i _
    rw [inner_smul_left, inner_sum]
    congr 1
    apply Finset.sum_congr rfl
    intro j _
    rw [map_smul, inner_smul_right, B.proj hψ i j]
    ring

/-- C105: a normalised eigenfunction gets its phase, whatever was left in the buffers by earlier
calls. -/
theorem C105_arnoldi_eigenfunction (L : GenDiag) (H : V →ₗ[ℂ] V) {maxorder : ℕ}
    (ho : 3 ≤ maxorder) (dt conv : ℝ) (tau : ℂ) (stale : ℕ → V) (order0 : ℕ) (h0 : 2 ≤ order0)
    (ψ φ : V) (hψ : ‖ψ‖ = 1) (E : ℂ) (hE : H ψ = E • ψ)
    (h : arStep L H maxorder dt conv tau stale order0 ψ = some φ) :
    φ = Complex.exp (E * tau) • ψ := by
  have hin : (inner ℂ ψ (H ψ) : ℂ) = E := by
    rw [hE, inner_smul_right, inner_self_eq_norm_sq_to_K, hψ]
    simp
  obtain ⟨q0, hord, h00, hi0⟩ := ar_build_eigen (dt := dt) (conv := conv) (stale := stale)
    (order0 := order0) ho h0 (ψ := ψ) (H := H) (by
      rw [hin, hE, sub_self, norm_zero]
      exact underrun_pos)
  rw [hin] at h00
  unfold arStep at h
  simp only at h
  set s := arBuild H maxorder dt conv stale order0 ψ with hs
  rw [hord] at h
  unfold arPropagate at h
  obtain ⟨n, rfl⟩ : ∃ n, order0 = n + 1 := ⟨order0 - 1, by omega⟩
  let z : Fin (n + 1) := ⟨0, by omega⟩
  cases hc : arCoef L (n + 1) s.h tau with
  | none => rw [hc] at h; cases h
  | some c =>
    rw [hc] at h
    obtain rfl := Option.some.inj h
    rw [combine_eq _ _ _ _ q0 (by omega), sum_arr _ _ _ (le_refl _) (fun i hi => by omega)]
    obtain ⟨hZ, hcz⟩ := arCoef_some hc
    have hv : (haMat (n + 1) s.h).mulVec (fun i => if i = z then 1 else 0) =
        E • (fun i => if i = z then (1 : ℂ) else 0) := by
      funext i
      simp only [Matrix.mulVec, dotProduct, Pi.smul_apply, smul_eq_mul, mul_ite, mul_one, mul_zero,
        Finset.sum_ite_eq', Finset.mem_univ, if_true]
      by_cases hi : i = z
      · rw [if_pos hi, hi]
        exact h00
      · rw [if_neg hi]
        exact hi0 i (fun h => hi (Fin.ext h))
    have hci : ∀ i, c i = Complex.exp (E * tau) * if i = z then 1 else 0 := by
      intro i
      rw [hcz z rfl i]
      have := coef_eigen (L.eigen (n + 1) (haMat (n + 1) s.h)) hZ (fun x => Complex.exp (x * tau)) hv i
      rw [← this]
      apply Finset.sum_congr rfl
      intro j _
      congr 2
      simp [Matrix.mulVec, dotProduct]
    rw [Finset.sum_eq_single z]
    · rw [hci, if_pos rfl, mul_one]
      show _ • s.q 0 = _
      rw [q0]
    · intro i _ hi
      rw [hci, if_neg hi, mul_zero, zero_smul]
    · simp

/-! ### Concrete cases -/

open Classical in
/-- A solver that satisfies the contract and finds a basis of eigenvectors whenever there is one. -/
noncomputable def exactGen : GenDiag where
  eval n A := if h : ∃ p : Matrix (Fin n) (Fin n) ℂ × (Fin n → ℂ),
    IsUnit p.1.det ∧ A * p.1 = p.1 * Matrix.diagonal p.2 then h.choose.2 else 0
  evec n A := if h : ∃ p : Matrix (Fin n) (Fin n) ℂ × (Fin n → ℂ),
    IsUnit p.1.det ∧ A * p.1 = p.1 * Matrix.diagonal p.2 then h.choose.1 else 0
  eigen n A := by
    by_cases h : ∃ p : Matrix (Fin n) (Fin n) ℂ × (Fin n → ℂ),
      IsUnit p.1.det ∧ A * p.1 = p.1 * Matrix.diagonal p.2
    · rw [dif_pos h, dif_pos h]
      exact h.choose_spec.2
    · rw [dif_neg h, dif_neg h, Matrix.mul_zero, Matrix.zero_mul]

theorem exactGen_some {n : ℕ} {h : ℕ → ℕ → ℂ} (tau : ℂ) (Z : Matrix (Fin n) (Fin n) ℂ) (d : Fin n → ℂ)
    (hZ : IsUnit Z.det) (hd : haMat n h * Z = Z * Matrix.diagonal d) :
    (arCoef exactGen n h tau).isSome := by
  have hex : ∃ p : Matrix (Fin n) (Fin n) ℂ × (Fin n → ℂ),
      IsUnit p.1.det ∧ haMat n h * p.1 = p.1 * Matrix.diagonal p.2 := ⟨(Z, d), hZ, hd⟩
  have : IsUnit (exactGen.evec n (haMat n h)).det := by
    unfold exactGen
    simp only
    rw [dif_pos hex]
    exact hex.choose_spec.1
  unfold arCoef
  simp only
  rw [if_pos this]
  rfl

/-- With a Hermitian Hamiltonian and a normalised wave function there is a step. -/
theorem exactGen_defined (H : V →ₗ[ℂ] V) (hH : H.IsSymmetric) {maxorder : ℕ} (ho : 3 ≤ maxorder)
    (dt conv : ℝ) (tau : ℂ) (stale : ℕ → V) (order0 : ℕ) (ψ : V) (hψ : ‖ψ‖ = 1)
    (hres : underrun ≤ ‖H ψ - (inner ℂ ψ (H ψ) : ℂ) • ψ‖) :
    ∃ φ, arStep exactGen H maxorder dt conv tau stale order0 ψ = some φ := by
  obtain ⟨m, B, _, _⟩ := ar_build (dt := dt) (conv := conv) (stale := stale)
    (order0 := order0) ho hres
  have hA := haMat_herm hH hψ B
  have hu : IsUnit (hA.eigenvectorUnitary : Matrix (Fin (m + 1)) (Fin (m + 1)) ℂ).det := by
    rw [← Matrix.isUnit_iff_isUnit_det]
    exact ⟨⟨hA.eigenvectorUnitary, star (hA.eigenvectorUnitary : Matrix (Fin (m + 1)) (Fin (m + 1)) ℂ),
      Unitary.coe_mul_star_self _, Unitary.coe_star_mul_self _⟩, rfl⟩
  have h1 := exactGen_some tau _ _ hu (herm_eigen hA)
  obtain ⟨c, hc⟩ := Option.isSome_iff_exists.1 h1
  unfold arStep
  simp only
  rw [B.order]
  unfold arPropagate
  rw [hc]
  exact ⟨_, rfl⟩

theorem chain3_res : underrun ≤ ‖chain3 (vec3 1 0 0) -
    (inner ℂ (vec3 1 0 0) (chain3 (vec3 1 0 0)) : ℂ) • vec3 1 0 0‖ := by
  rw [chain3_apply]
  have h1 : (inner ℂ (vec3 1 0 0) (vec3 0 (1 + 0) 0) : ℂ) = 0 := by
    simp [vec3, EuclideanSpace.inner_eq_star_dotProduct, dotProduct, Fin.sum_univ_three]
  have h2 : ‖vec3 0 (1 + 0) 0‖ = 1 := by
    rw [EuclideanSpace.norm_eq]
    simp [vec3, Fin.sum_univ_three]
  rw [h1, zero_smul, sub_zero, h2]
  unfold underrun
  norm_num

/-- Non-vacuity: the chain of three sites has a step of three terms, with norm and energy. -/
example (dt : ℝ) (stale : ℕ → EuclideanSpace ℂ (Fin 3)) (order0 : ℕ) :
    ∃ φ : ℂ → EuclideanSpace ℂ (Fin 3),
      (∀ tau, arStep exactGen chain3 3 dt 0 tau stale order0 (vec3 1 0 0) = some (φ tau)) ∧
      (∃ n, 2 ≤ n ∧ AgreesTo n chain3 (vec3 1 0 0) φ) ∧ ∀ t : ℝ, ‖φ (-Complex.I * t)‖ = 1 := by
  choose φ hφ using fun tau => exactGen_defined chain3 chain3_symm (le_refl 3) dt 0 tau stale order0
    (vec3 1 0 0) vec3_norm chain3_res
  refine ⟨φ, hφ, ?_, ?_⟩
  · obtain ⟨n, h1, _, h2, _⟩ := C105_arnoldi_agrees_with_series exactGen chain3 (le_refl 3) dt 0 stale
      order0 (vec3 1 0 0) φ chain3_res hφ
    exact ⟨n, h1, h2⟩
  · intro t
    exact (C105_arnoldi_keeps_norm_and_energy exactGen chain3 chain3_symm (le_refl 3) dt 0 _ (by simp)
      stale order0 _ _ vec3_norm chain3_res (hφ _)).1

/-- The energies of a single level. -/
noncomputable def level1 (e : ℂ) : ℂ →ₗ[ℂ] ℂ := e • LinearMap.id

theorem level1_apply (e x : ℂ) : level1 e x = e * x := rfl

theorem level1_res (x : ℂ) (hx : ‖x‖ = 1) :
    ‖(level1 1) x - (inner ℂ x (level1 1 x) : ℂ) • x‖ < underrun := by
  have : (inner ℂ x x : ℂ) = 1 := by rw [inner_self_eq_norm_sq_to_K, hx]; simp
  rw [level1_apply, one_mul, this, one_smul, sub_self, norm_zero]
  exact underrun_pos

/-- The small matrix of an eigenfunction, with a vector `x` left in the buffer. -/
theorem level1_mat (dt : ℝ) (x : ℂ) :
    haMat 2 (arBuild (level1 1) 3 dt 0 (fun _ => x) 2 1).h = !![1, x; 0, x * (starRingEnd ℂ) x] := by
  have hres := level1_res 1 (by simp)
  obtain ⟨q0, hord, h00, hi0⟩ := ar_build_eigen (dt := dt) (conv := 0) (stale := fun _ => x)
    (order0 := 2) (le_refl 3) (le_refl 2) hres
  set s := arBuild (level1 1) 3 dt 0 (fun _ => x) 2 1 with hs
  have h01 : s.h 0 1 = x ∧ s.h 1 1 = x * (starRingEnd ℂ) x := by
    have hl : s.h 0 1 = (inner ℂ (s.q 0) (level1 1 (s.q 1)) : ℂ) ∧
        s.h 1 1 = (inner ℂ (s.q 1) (level1 1 (s.q 1)) : ℂ) := by
      have : s.order = 2 := hord
      rw [hs] at this ⊢
      unfold arBuild at this ⊢
      simp only at this ⊢
      rw [this]
      constructor
      · rw [last_col, if_pos ⟨by omega, rfl⟩]
      · rw [last_col, if_pos ⟨by omega, rfl⟩]
    have hq1 : s.q 1 = x := by
      rw [hs]
      unfold arBuild
      simp only [show 3 - 1 = 1 + 1 from rfl]
      rw [arLoop]
      simp only [show 1 - 1 = 0 by omega, Function.update_self]
      rw [if_pos]
      · simp
      · rw [orthLoop_succ]
        simp only [orthLoop, List.range_zero, List.foldl_nil, Function.update_self]
        rw [neg_one_mul, neg_smul, ← sub_eq_add_neg]
        exact hres
    rw [hl.1, hl.2, q0, hq1]
    refine ⟨by simp [level1_apply], ?_⟩
    rw [level1_apply, one_mul]
    simp [Complex.mul_conj, Complex.normSq_eq_norm_sq]
  ext i j
  fin_cases i <;> fin_cases j <;> simp [haMat, h00, hi0, h01, level1_apply]

/-- Non-vacuity of the eigenfunction case: a single level, with empty buffers. -/
example (dt : ℝ) (tau : ℂ) :
    ∃ φ, arStep exactGen (level1 1) 3 dt 0 tau (fun _ => 0) 2 1 = some φ ∧ φ = Complex.exp tau := by
  have h1 := exactGen_some (n := 2) (h := (arBuild (level1 1) 3 dt 0 (fun _ => 0) 2 1).h) tau 1
    ![1, 0] (by simp) (by
      rw [level1_mat, Matrix.mul_one, Matrix.one_mul]
      ext i j
      fin_cases i <;> fin_cases j <;> simp)
  obtain ⟨c, hc⟩ := Option.isSome_iff_exists.1 h1
  have h2 : ∃ φ, arStep exactGen (level1 1) 3 dt 0 tau (fun _ => 0) 2 1 = some φ := by
    unfold arStep
    simp only
    rw [(ar_build_eigen (dt := dt) (conv := 0) (stale := fun _ => (0 : ℂ)) (order0 := 2) (le_refl 3)
      (le_refl 2) (level1_res 1 (by simp))).2.1]
    unfold arPropagate
    rw [hc]
    exact ⟨_, rfl⟩
  obtain ⟨φ, hφ⟩ := h2
  refine ⟨φ, hφ, ?_⟩
  have := C105_arnoldi_eigenfunction exactGen (level1 1) (le_refl 3) dt 0 tau (fun _ => 0) 2
    (le_refl 2) 1 φ (by simp) 1 (by simp [level1_apply]) hφ
  simpa using this

/-- C105, violated: an eigenfunction has no step when the buffers contain, from an earlier call, a
wave function that overlaps with it: `_order` is not reset, the old vector enters the matrix, and
the matrix need not have a basis of eigenvectors. -/
theorem C105_violated_old_vectors (L : GenDiag) (dt : ℝ) (tau : ℂ) :
    arStep L (level1 1) 3 dt 0 tau (fun _ => 1) 2 1 = none := by
  have hm := level1_mat dt 1
  have hord := (ar_build_eigen (dt := dt) (conv := 0) (stale := fun _ => (1 : ℂ)) (order0 := 2)
    (le_refl 3) (le_refl 2) (level1_res 1 (by simp))).2.1
  unfold arStep
  simp only
  rw [hord]
  unfold arPropagate
  cases hc : arCoef L 2 (arBuild (level1 1) 3 dt 0 (fun _ => 1) 2 1).h tau with
  | none => rfl
  | some c =>
    exfalso
    obtain ⟨hZ, _⟩ := arCoef_some hc
    have he := L.eigen 2 (haMat 2 (arBuild (level1 1) 3 dt 0 (fun _ => 1) 2 1).h)
    rw [hm] at he hZ
    set A : Matrix (Fin 2) (Fin 2) ℂ := !![1, 1; 0, 1 * (starRingEnd ℂ) 1] with hA
    set Z := L.evec 2 A
    set d := L.eval 2 A
    have hW : Z⁻¹ * Z = 1 := mul_eq_one_comm.1 hZ
    -- the second row
    have hd : ∀ j, (Z 0 j + Z 1 j = Z 0 j * d j) ∧ (Z 1 j = Z 1 j * d j) := by
      intro j
      have h0 := congrFun (congrFun he 0) j
      have h1 := congrFun (congrFun he 1) j
      rw [Matrix.mul_diagonal, Matrix.mul_apply, Fin.sum_univ_two] at h0 h1
      simp [hA] at h0 h1
      exact ⟨h0, by rw [← h1]⟩
    have hz1 : ∀ j, Z 1 j = 0 := by
      intro j
      obtain ⟨h0, h1⟩ := hd j
      by_contra hne
      have : d j = 1 := by
        have h2 : Z 1 j * (d j - 1) = 0 := by linear_combination -h1
        rcases mul_eq_zero.1 h2 with h3 | h3
        · exact absurd h3 hne
        · exact sub_eq_zero.1 h3
      rw [this, mul_one] at h0
      exact hne (by linear_combination h0)
    have h11 := congrFun (congrFun hZ 1) 1
    rw [Matrix.mul_apply, Fin.sum_univ_two, hz1 0, hz1 1, Matrix.one_apply_eq] at h11
    simp at h11

/-- C105, violated: a wave function of norm below one loses norm in a step of a single level with
energy one, where the time evolution is only a phase. -/
theorem C105_violated_unnormalised (dt : ℝ) (stale : ℕ → ℂ) (order0 : ℕ) :
    ∃ (tau ψ : ℂ), tau.re = 0 ∧ 0 < ‖ψ‖ ∧ (level1 1).IsSymmetric ∧
      (∃ φ, arStep exactGen (level1 1) 3 dt 0 tau stale order0 ψ = some φ) ∧
      ∀ (L : GenDiag) (φ : ℂ), arStep L (level1 1) 3 dt 0 tau stale order0 ψ = some φ →
        ‖φ‖ = ‖ψ‖ / 3 := by
  have hss : Real.sqrt (2 / 3) * Real.sqrt (2 / 3) = 2 / 3 := Real.mul_self_sqrt (by norm_num)
  set r := Real.sqrt (2 / 3) with hr
  have hrpos : 0 < r := Real.sqrt_pos.2 (by norm_num)
  set x : ℂ := (r : ℂ) with hx
  have hxx : x * x = 2 / 3 := by
    rw [hx, ← Complex.ofReal_mul, hss]
    push_cast
    ring
  have hxne : x ≠ 0 := by rw [hx]; exact_mod_cast hrpos.ne'
  have hxc : (starRingEnd ℂ) x = x := Complex.conj_ofReal r
  have hin : ∀ a b : ℂ, (inner ℂ a b : ℂ) = b * (starRingEnd ℂ) a := fun a b => by
    simp [inner]
  have hw1 : orthLoop (Function.update stale 0 x) 0 1 (level1 1 x) (fun _ _ => 0) =
      (x / 3, setEntry (fun _ _ => 0) 0 0 (2 / 3)) := by
    rw [orthLoop_succ]
    simp only [orthLoop, List.range_zero, List.foldl_nil, Function.update_self, level1_apply, one_mul,
      hin, hxc, hxx, smul_eq_mul]
    congr 1
    ring
  have hn1 : ‖x / 3‖ = r / 3 := by
    rw [norm_div, hx, Complex.norm_real, Real.norm_of_nonneg hrpos.le]
    norm_num
  have hbig : ¬ (r / 3 < underrun) := by
    unfold underrun
    have : (1 / 10 : ℝ) ≤ r := by nlinarith
    norm_num
    linarith
  have hq1 : ((1 / (r / 3) : ℝ) : ℂ) • (x / 3) = 1 := by
    rw [smul_eq_mul]
    push_cast
    rw [← hx]
    field_simp
  -- the basis and the matrix
  obtain ⟨s, hs, hq, hord, hmat⟩ : ∃ s, arBuild (level1 1) 3 dt 0 stale order0 x = s ∧
      (s.q 0 = x ∧ s.q 1 = 1) ∧ s.order = 2 ∧ haMat 2 s.h = !![2 / 3, x; x / 3, 1] := by
    refine ⟨_, rfl, ?_⟩
    have hl : arLoop (level1 1) dt ‖x‖ 0 (3 - 1) 1
        { q := Function.update stale 0 x, h := (fun _ _ => 0), order := order0 } =
        { q := Function.update (Function.update stale 0 x) 1 1,
          h := (orthLoop (Function.update (Function.update stale 0 x) 1 1) 1 2 1
            (setEntry (setEntry (fun _ _ => 0) 0 0 (2 / 3)) 1 0 ((r / 3 : ℝ) : ℂ))).2,
          order := 2 } := by
      rw [show 3 - 1 = 1 + 1 from rfl, arLoop]
      simp only [show 1 - 1 = 0 by omega, Function.update_self, hw1, hn1]
      rw [if_neg hbig, if_neg (not_lt.2 (norm_nonneg _)), hq1, arLoop]
      have e1 : Function.update (Function.update stale 0 x) 1 1 (1 + 1 - 1) = 1 :=
        Function.update_self _ _ _
      simp only [e1, level1_apply, one_mul]
      rw [if_pos]
      · have hzero : (orthLoop (Function.update (Function.update stale 0 x) 1 1) (1 + 1 - 1) (1 + 1) 1
            (setEntry (setEntry (fun _ _ => 0) 0 0 (2 / 3)) 1 0 ((r / 3 : ℝ) : ℂ))).1 = 0 := by
          rw [orthLoop_succ, orthLoop_succ]
          simp only [orthLoop, List.range_zero, List.foldl_nil, Function.update_self,
            Function.update_of_ne (show (0 : ℕ) ≠ 1 by omega), hin, hxc, smul_eq_mul, map_one]
          ring
        rw [hzero, norm_zero]
        exact underrun_pos
    unfold arBuild
    simp only [hl]
    refine ⟨⟨?_, ?_⟩, trivial, ?_⟩
    · rw [Function.update_of_ne (by omega), Function.update_self]
    · rw [Function.update_self]
    · ext i j
      have e1 : Function.update (Function.update stale 0 x) 1 1 (2 - 1) = 1 :=
        Function.update_self _ _ _
      have e0 : Function.update (Function.update stale 0 x) 1 1 0 = x := by
        rw [Function.update_of_ne (by omega), Function.update_self]
      have e2 : Function.update (Function.update stale 0 x) 1 1 1 = 1 :=
        Function.update_self _ _ _
      simp only [haMat]
      rw [last_col]
      fin_cases i <;> fin_cases j
      · simp [orthLoop_other, setEntry]
      · simp [hin, e0, e1, level1_apply, hxc]
      · simp [orthLoop_other, setEntry, hx]
      · simp [hin, e2, e1, level1_apply]
  -- the eigenvectors
  have hZdet : IsUnit (!![1, 1; x, -x / 2] : Matrix (Fin 2) (Fin 2) ℂ).det := by
    rw [Matrix.det_fin_two_of]
    refine (Ne.isUnit ?_)
    intro h0
    apply hxne
    linear_combination (-2 / 3 : ℂ) * h0
  have hZeig : haMat 2 s.h * !![1, 1; x, -x / 2] =
      !![1, 1; x, -x / 2] * Matrix.diagonal ![4 / 3, 1 / 3] := by
    rw [hmat]
    ext i j
    rw [Matrix.mul_diagonal, Matrix.mul_apply, Fin.sum_univ_two]
    fin_cases i <;> fin_cases j
    · simp; linear_combination hxx
    · simp; linear_combination (-1 / 2 : ℂ) * hxx
    · simp; ring
    · simp; ring
  have hb := hs
  refine ⟨(Real.pi : ℂ) * Complex.I, x, by simp, ?_, ?_, ?_, ?_⟩
  · rw [hx, Complex.norm_real, Real.norm_of_nonneg hrpos.le]
    exact hrpos
  · intro a b
    simp [level1_apply]
  · obtain ⟨c, hc⟩ := Option.isSome_iff_exists.1 (exactGen_some ((Real.pi : ℂ) * Complex.I) _ _ hZdet hZeig)
    unfold arStep
    simp only
    rw [hb, hord]
    unfold arPropagate
    rw [hc]
    exact ⟨_, rfl⟩
  · intro L φ h
    unfold arStep at h
    simp only at h
    rw [hb, hord] at h
    unfold arPropagate at h
    cases hc : arCoef L 2 s.h ((Real.pi : ℂ) * Complex.I) with
    | none => rw [hc] at h; cases h
    | some c =>
      rw [hc] at h
      obtain rfl := Option.some.inj h
      have hdec := arCoef_decomp hc 0 rfl 2 ![4 / 3, 1 / 3]
        ![![1 / 3, x / 3], ![2 / 3, -x / 3]]
        (by
          intro k
          rw [hmat]
          funext i
          fin_cases k <;> fin_cases i <;> simp [Matrix.mulVec, dotProduct] <;> ring_nf <;>
            (try simp only [show x ^ 2 = 2 / 3 by rw [pow_two, hxx]]) <;> (try ring_nf))
        (by
          intro j
          fin_cases j <;> simp [Fin.sum_univ_two] <;> ring_nf)
      have hexp : Complex.exp (4 / 3 * ((Real.pi : ℂ) * Complex.I)) =
          -Complex.exp (1 / 3 * ((Real.pi : ℂ) * Complex.I)) := by
        rw [show (4 / 3 * ((Real.pi : ℂ) * Complex.I)) =
          (Real.pi : ℂ) * Complex.I + 1 / 3 * ((Real.pi : ℂ) * Complex.I) by ring, Complex.exp_add,
          Complex.exp_pi_mul_I]
        ring
      set w := Complex.exp (1 / 3 * ((Real.pi : ℂ) * Complex.I)) with hw
      have hwn : ‖w‖ = 1 := by
        rw [hw, Complex.norm_exp]
        simp
      have c0 : c 0 = w / 3 := by
        rw [hdec, Fin.sum_univ_two]
        show Complex.exp (4 / 3 * ((Real.pi : ℂ) * Complex.I)) * (1 / 3) + w * (2 / 3) = _
        rw [hexp]
        ring
      have c1 : c 1 = -2 * x / 3 * w := by
        rw [hdec, Fin.sum_univ_two]
        show Complex.exp (4 / 3 * ((Real.pi : ℂ) * Complex.I)) * (x / 3) + w * (-x / 3) = _
        rw [hexp]
        ring
      have hres : combine s.q (arr c) x 2 = -(x / 3) * w := by
        unfold combine
        rw [show List.range (2 - 1) = [0] from rfl]
        simp only [List.foldl_cons, List.foldl_nil, arr]
        rw [dif_pos (show 0 < 2 by omega), dif_pos (show 0 + 1 < 2 by omega),
          show (⟨0, by omega⟩ : Fin 2) = 0 from rfl, show (⟨0 + 1, by omega⟩ : Fin 2) = 1 from rfl,
          c0, c1]
        simp only [smul_eq_mul]
        rw [hq.2]
        ring
      rw [hres, norm_mul, norm_neg, hwn, mul_one, norm_div]
      norm_num

end QDng.Krylov
