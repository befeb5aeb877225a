import Verif.Accur.KryProps

/-
Concrete cases for C273 and C274: a chain of three sites.
-/

namespace QDng.Accur

open QDng.Chexp QDng.Krylov QDng.Krylov.Spec

section

variable {V : Type} [NormedAddCommGroup V] [InnerProductSpace ℂ V] [FiniteDimensional ℂ V]

omit [FiniteDimensional ℂ V] in
theorem eq_of_components {n : ℕ} (b : OrthonormalBasis (Fin n) ℂ V) (v u : V)
    (h : ∀ i, inner ℂ (b i) v = inner ℂ (b i) u) : v = u := by
  rw [← b.sum_repr' v, ← b.sum_repr' u]
  simp only [h]

/-- The vector that evolves from a point of a solution is the solution. -/
theorem evolved_solution (H : V →ₗ[ℂ] V) (hH : Hermitian H) (psi : ℝ → V) (hp : Solves H psi) (t s : ℝ) (φ : V)
    (h : Evolved H (-Complex.I * s) (psi t) φ) : φ = psi (t + s) := by
  obtain ⟨N, b, l, hl⟩ := eigenbasis H hH
  obtain ⟨n, d, v, hv, hsum, hφ⟩ := h
  refine eq_of_components b _ _ (fun i => ?_)
  rw [solution_component H hH b l hl (-Complex.I) psi hp, ← hφ, ← hsum, inner_sum, inner_sum,
    Finset.mul_sum]
  refine Finset.sum_congr rfl (fun j _ => ?_)
  rw [inner_smul_right]
  have h1 := diag_component b H (fun i => (l i : ℂ)) hl (v j) i
  rw [hv, inner_smul_right] at h1
  by_cases h0 : inner ℂ (b i) (v j) = 0
  · rw [h0, mul_zero, mul_zero]
  · rw [mul_right_cancel₀ h0 h1]
    congr 2
    ring

/-- Krylov vectors stay independent. -/
theorem krylov_solution (H : V →ₗ[ℂ] V) (hH : Hermitian H) (psi : ℝ → V) (hp : Solves H psi) (t s : ℝ) (n : ℕ)
    (h : LinearIndependent ℂ (krylov H (psi t) n)) : LinearIndependent ℂ (krylov H (psi (t + s)) n) := by
  obtain ⟨N, b, l, hl⟩ := eigenbasis H hH
  rw [Fintype.linearIndependent_iff] at h ⊢
  intro g hg
  refine h g ?_
  refine eq_of_components b _ _ (fun i => ?_)
  have h1 : inner ℂ (b i) (∑ k, g k • krylov H (psi (t + s)) n k) = inner ℂ (b i) (0 : V) := by rw [hg]
  rw [inner_zero_right]
  rw [inner_zero_right] at h1
  have e : ∀ v : V, inner ℂ (b i) (∑ k, g k • krylov H v n k) = (∑ k : Fin n, g k * (l i : ℂ) ^ (k : ℕ)) * inner ℂ (b i) v := by
    intro v
    rw [inner_sum, Finset.sum_mul]
    refine Finset.sum_congr rfl (fun k _ => ?_)
    rw [inner_smul_right]
    unfold krylov
    rw [pow_component H b l hl, mul_assoc]
  rw [e, solution_component H hH b l hl (-Complex.I) psi hp] at h1
  rw [e]
  rcases mul_eq_zero.1 h1 with h2 | h2
  · rw [h2, zero_mul]
  · rcases mul_eq_zero.1 h2 with h3 | h3
    · exact absurd h3 (Complex.exp_ne_zero _)
    · rw [h3, mul_zero]

/-- The Hamiltonian of a solution is a solution. -/
theorem apply_solution (H : V →ₗ[ℂ] V) (psi : ℝ → V) (hp : Solves H psi) (a : ℂ) :
    Solves H (fun t => H (psi t) - a • psi t) := by
  intro t
  have h1 : HasDerivAt (fun t => H (psi t)) (H ((-Complex.I) • H (psi t))) t := by
    have := ((LinearMap.toContinuousLinearMap H).restrictScalars ℝ).hasFDerivAt.comp_hasDerivAt t (hp t)
    exact this
  have h2 := h1.sub ((hp t).const_smul a)
  have e : H ((-Complex.I) • H (psi t)) - a • (-Complex.I) • H (psi t) = (-Complex.I) • H (H (psi t) - a • psi t) := by
    rw [map_smul, map_sub, map_smul]
    module
  rw [e] at h2
  exact h2

/-- Solutions keep their norm. -/
theorem solution_norm_eq (H : V →ₗ[ℂ] V) (hH : Hermitian H) (psi : ℝ → V) (hp : Solves H psi) (t : ℝ) :
    ‖psi t‖ = ‖psi 0‖ := by
  have hz : Solves H (fun _ => (0 : V)) := fun t => by simpa using hasDerivAt_const t (0 : V)
  have h1 := solution_norm H hH psi _ hp hz 0 t
  have h2 := solution_norm H hH psi _ hp hz t (-t)
  simp only [sub_zero, zero_add, add_neg_cancel] at h1 h2
  exact le_antisymm h1 h2

/-- The energy of a solution is constant. -/
theorem solution_energy (H : V →ₗ[ℂ] V) (hH : Hermitian H) (psi : ℝ → V) (hp : Solves H psi) (t : ℝ) :
    (inner ℂ (psi t) (H (psi t)) : ℂ) = inner ℂ (psi 0) (H (psi 0)) := by
  obtain ⟨N, b, l, hl⟩ := eigenbasis H hH
  rw [← b.sum_inner_mul_inner, ← b.sum_inner_mul_inner]
  refine Finset.sum_congr rfl (fun i _ => ?_)
  have h := solution_component H hH b l hl (-Complex.I) psi hp 0 t i
  rw [zero_add] at h
  rw [diag_component b H (fun i => (l i : ℂ)) hl, diag_component b H (fun i => (l i : ℂ)) hl, ← inner_conj_symm, h,
    ← inner_conj_symm (psi 0), map_mul, ← Complex.exp_conj]
  have e : Complex.exp ((starRingEnd ℂ) (-Complex.I * l i * t)) * Complex.exp (-Complex.I * l i * t) = 1 := by
    rw [← Complex.exp_add]
    simp
  linear_combination ((starRingEnd ℂ) (inner ℂ (b i) (psi 0)) * (l i : ℂ) * inner ℂ (b i) (psi 0)) * e

end

abbrev V3 := EuclideanSpace ℂ (Fin 3)

theorem chain3_within : Within chain3 (-2) 2 := by
  intro a
  have ha : a = vec3 (a 0) (a 1) (a 2) := by
    ext i
    fin_cases i <;> rfl
  have e : (inner ℂ a (chain3 a) : ℂ).re = 2 * ((a 0).re * (a 1).re + (a 0).im * (a 1).im) +
      2 * ((a 1).re * (a 2).re + (a 1).im * (a 2).im) := by
    conv_lhs => rw [ha, chain3_apply]
    simp [vec3, EuclideanSpace.inner_eq_star_dotProduct, dotProduct, Fin.sum_univ_three]
    ring
  have e2 : ‖a‖ ^ 2 = (a 0).re ^ 2 + (a 0).im ^ 2 + ((a 1).re ^ 2 + (a 1).im ^ 2) + ((a 2).re ^ 2 + (a 2).im ^ 2) := by
    rw [EuclideanSpace.norm_sq_eq, Fin.sum_univ_three]
    simp only [← Complex.normSq_eq_norm_sq, Complex.normSq_apply]
    ring
  rw [e, e2]
  constructor
  · nlinarith [sq_nonneg ((a 0).re + (a 1).re), sq_nonneg ((a 0).im + (a 1).im), sq_nonneg ((a 1).re + (a 2).re),
      sq_nonneg ((a 1).im + (a 2).im), sq_nonneg (a 0).re, sq_nonneg (a 0).im, sq_nonneg (a 2).re, sq_nonneg (a 2).im]
  · nlinarith [sq_nonneg ((a 0).re - (a 1).re), sq_nonneg ((a 0).im - (a 1).im), sq_nonneg ((a 1).re - (a 2).re),
      sq_nonneg ((a 1).im - (a 2).im), sq_nonneg (a 0).re, sq_nonneg (a 0).im, sq_nonneg (a 2).re, sq_nonneg (a 2).im]

theorem chain3_solution : ∃ psi : ℝ → V3, Solves chain3 psi ∧ psi 0 = vec3 1 0 0 :=
  solution_exists chain3 chain3_symm (-Complex.I) (vec3 1 0 0)

theorem chain3_span (psi : ℝ → V3) (hp : Solves chain3 psi) (h0 : psi 0 = vec3 1 0 0) (t : ℝ) :
    LinearIndependent ℂ (krylov chain3 (psi t) 3) := by
  have := krylov_solution chain3 chain3_symm psi hp 0 t 3 (by rw [h0]; exact chain3_indep)
  rwa [zero_add] at this

theorem chain3_mem (psi : ℝ → V3) (hp : Solves chain3 psi) (h0 : psi 0 = vec3 1 0 0) (t : ℝ) :
    (chain3 ^ 3) (psi t) ∈ Submodule.span ℂ (Set.range (krylov chain3 (psi t) 3)) := by
  have h1 := chain3_span psi hp h0 t
  rw [h1.span_eq_top_of_card_eq_finrank (by simp)]
  trivial

/-- Non-vacuity: the chain of three sites, `n` steps of length 1/10. -/
example (n : ℕ) : ∃ (psi : ℝ → V3) (chi : ℕ → V3), Solves chain3 psi ∧ psi 0 = vec3 1 0 0 ∧ chi 0 = psi 0 ∧
    (∀ k, silStep exactTri chain3 3 (1 / 10) 0 (-Complex.I * (1 / 10 : ℝ)) (fun _ => 0) (chi k) = some (chi (k + 1))) ∧
    ‖chi n - psi (n * (1 / 10))‖ ≤ n / 375 := by
  obtain ⟨psi, hp, h0⟩ := chain3_solution
  have hn : ∀ t, ‖psi t‖ = 1 := fun t => by rw [solution_norm_eq chain3 chain3_symm psi hp, h0]; exact vec3_norm
  have hk : ∀ k : ℕ, silStep exactTri chain3 3 (1 / 10) 0 (-Complex.I * (1 / 10 : ℝ)) (fun _ => 0) (psi (k * (1 / 10))) =
      some (psi ((k + 1 : ℕ) * (1 / 10))) := by
    intro k
    have hs := C104_sil_defined_when_independent exactTri chain3 (le_refl 3) (1 / 10) 0 (-Complex.I * (1 / 10 : ℝ))
      (fun _ => 0) (psi (k * (1 / 10))) (chain3_span psi hp h0 _)
    obtain ⟨φ, hφ⟩ := Option.isSome_iff_exists.1 hs
    have h1 := C104_sil_exact_on_invariant_space _ _ chain3_symm (le_refl 3) _ _ (le_refl 0) _ _ _ _
      (hn _) (chain3_mem psi hp h0 _) hφ
    rw [hφ, evolved_solution chain3 chain3_symm psi hp _ _ _ h1]
    congr 2
    push_cast
    ring
  refine ⟨psi, fun k => psi (k * (1 / 10)), hp, h0, by simp, hk, ?_⟩
  have := C273_many exactTri chain3 chain3_symm 2 (by norm_num) chain3_within (le_refl 3) (1 / 10) 0 (le_refl 0) (1 / 10)
    (fun _ _ => 0) psi hp (hn 0) (fun k => psi (k * (1 / 10))) (by simp) hk n
  refine this.trans (le_of_eq ?_)
  rw [abs_of_pos (by norm_num)]
  norm_num [Nat.factorial]
  ring

theorem chain3_rest (psi : ℝ → V3) (hp : Solves chain3 psi) (h0 : psi 0 = vec3 1 0 0) (t : ℝ) :
    1 / 10 ^ 11 ≤ ‖chain3 (psi t) - (inner ℂ (psi t) (chain3 (psi t)) : ℂ) • psi t‖ := by
  rw [solution_energy chain3 chain3_symm psi hp t]
  have := solution_norm_eq chain3 chain3_symm _ (apply_solution chain3 psi hp (inner ℂ (psi 0) (chain3 (psi 0)))) t
  rw [this, h0]
  exact chain3_res

/-- Non-vacuity: a step of the Arnoldi propagator for the chain of three sites. -/
example : ∃ (psi : ℝ → V3) (φ : V3), Solves chain3 psi ∧ psi 0 = vec3 1 0 0 ∧
    arStep exactGen chain3 3 (1 / 10) 0 (-Complex.I * (1 / 10 : ℝ)) (fun _ => 0) 0 (psi 0) = some φ ∧
    ‖φ - psi (0 + 1 / 10)‖ ≤ 1 / 375 := by
  obtain ⟨psi, hp, h0⟩ := chain3_solution
  have hn : ‖psi 0‖ = 1 := by rw [h0]; exact vec3_norm
  obtain ⟨φ, hφ⟩ := exactGen_defined chain3 chain3_symm (le_refl 3) (1 / 10) 0 (-Complex.I * (1 / 10 : ℝ)) (fun _ => 0) 0
    (psi 0) hn (chain3_rest psi hp h0 0)
  refine ⟨psi, φ, hp, h0, hφ, ?_⟩
  obtain ⟨n, h2, h3, h4, h5⟩ := C274_step exactGen chain3 chain3_symm 2 chain3_within (le_refl 3) (1 / 10) 0 (1 / 10) _ 0
    psi hp 0 hn (chain3_rest psi hp h0 0) φ hφ
  rcases h5 (le_refl 0) with rfl | h5
  · refine h4.trans (le_of_eq ?_)
    rw [abs_of_pos (by norm_num)]
    norm_num [Nat.factorial]
  · refine h5.trans ?_
    rw [abs_of_pos (by norm_num)]
    norm_num

abbrev V2 := EuclideanSpace ℂ (Fin 2)

theorem swap2_within : Within swap2 (-1) 1 := by
  intro a
  have ha : a = vec2 (a 0) (a 1) := by
    ext i
    fin_cases i <;> rfl
  have e : (inner ℂ a (swap2 a) : ℂ).re = 2 * ((a 0).re * (a 1).re + (a 0).im * (a 1).im) := by
    conv_lhs => rw [ha, swap2_apply, vec2_inner]
    simp
    ring
  have e2 : ‖a‖ ^ 2 = (a 0).re ^ 2 + (a 0).im ^ 2 + ((a 1).re ^ 2 + (a 1).im ^ 2) := by
    rw [EuclideanSpace.norm_sq_eq, Fin.sum_univ_two]
    simp only [← Complex.normSq_eq_norm_sq, Complex.normSq_apply]
    ring
  rw [e, e2]
  constructor
  · nlinarith [sq_nonneg ((a 0).re + (a 1).re), sq_nonneg ((a 0).im + (a 1).im)]
  · nlinarith [sq_nonneg ((a 0).re - (a 1).re), sq_nonneg ((a 0).im - (a 1).im)]

theorem swap2_span (psi : ℝ → V2) (hp : Solves swap2 psi) (h0 : psi 0 = vec2 1 0) (t : ℝ) (n : ℕ) (hn : 2 ≤ n) (v : V2) :
    v ∈ Submodule.span ℂ (Set.range (krylov swap2 (psi t) n)) := by
  have h1 : LinearIndependent ℂ (krylov swap2 (psi 0) 2) := by
    rw [Fintype.linearIndependent_iff]
    intro g hg
    rw [Fin.sum_univ_two] at hg
    simp only [krylov, Fin.val_zero, Fin.val_one, pow_zero, pow_one, Module.End.one_apply, h0, swap2_apply, vec2_smul,
      vec2_add, mul_one, mul_zero, add_zero, zero_add] at hg
    have e0 := congrFun (congrArg WithLp.ofLp hg) 0
    have e1 := congrFun (congrArg WithLp.ofLp hg) 1
    intro i
    fin_cases i
    · exact e0
    · exact e1
  have h2 := krylov_solution swap2 swap2_symm psi hp 0 t 2 h1
  rw [zero_add] at h2
  have h3 : v ∈ Submodule.span ℂ (Set.range (krylov swap2 (psi t) 2)) := by
    rw [h2.span_eq_top_of_card_eq_finrank (by simp)]
    trivial
  refine Submodule.span_mono ?_ h3
  rintro _ ⟨k, rfl⟩
  exact ⟨⟨k, by omega⟩, rfl⟩

theorem swap2_rest (psi : ℝ → V2) (hp : Solves swap2 psi) (h0 : psi 0 = vec2 1 0) (t : ℝ) :
    1 / 10 ^ 11 ≤ ‖swap2 (psi t) - (inner ℂ (psi t) (swap2 (psi t)) : ℂ) • psi t‖ := by
  rw [solution_energy swap2 swap2_symm psi hp t]
  have := solution_norm_eq swap2 swap2_symm _ (apply_solution swap2 psi hp (inner ℂ (psi 0) (swap2 (psi 0)))) t
  rw [this, h0, swap2_apply, vec2_inner, vec2_smul, vec2_sub, vec2_norm]
  norm_num

/-- Non-vacuity: two coupled levels, `n` steps of length 1/10 with the Arnoldi propagator. -/
example (n : ℕ) : ∃ (psi : ℝ → V2) (chi : ℕ → V2), Solves swap2 psi ∧ psi 0 = vec2 1 0 ∧ chi 0 = psi 0 ∧
    (∀ k, arStep exactGen swap2 3 (1 / 10) 0 (-Complex.I * (1 / 10 : ℝ)) (fun _ => 0) 0 (chi k) = some (chi (k + 1))) ∧
    ‖chi n - psi (n * (1 / 10))‖ ≤ n / 3000 := by
  obtain ⟨psi, hp, h0⟩ := solution_exists swap2 swap2_symm (-Complex.I) (vec2 1 0)
  have hn : ∀ t, ‖psi t‖ = 1 := fun t => by
    rw [solution_norm_eq swap2 swap2_symm psi hp, h0, vec2_norm]
    simp
  have hk : ∀ k : ℕ, arStep exactGen swap2 3 (1 / 10) 0 (-Complex.I * (1 / 10 : ℝ)) (fun _ => 0) 0 (psi (k * (1 / 10))) =
      some (psi ((k + 1 : ℕ) * (1 / 10))) := by
    intro k
    choose φ hφ using fun tau => exactGen_defined swap2 swap2_symm (le_refl 3) (1 / 10) 0 tau (fun _ => 0) 0
      (psi (k * (1 / 10))) (hn _) (swap2_rest psi hp h0 _)
    obtain ⟨m, h2, _, _, _, h3⟩ := C105_arnoldi_agrees_with_series exactGen swap2 (le_refl 3) (1 / 10) 0 (fun _ => 0) 0
      (psi (k * (1 / 10))) φ (swap2_rest psi hp h0 _) hφ
    have h4 := h3 (hn _) (swap2_span psi hp h0 _ m h2 _) (-Complex.I * (1 / 10 : ℝ))
    rw [hφ, evolved_solution swap2 swap2_symm psi hp _ _ _ h4]
    congr 2
    push_cast
    ring
  refine ⟨psi, fun k => psi (k * (1 / 10)), hp, h0, by simp, hk, ?_⟩
  have := C274_many exactGen swap2 swap2_symm 1 (by norm_num) swap2_within (le_refl 3) (1 / 10) 0 (le_refl 0) (1 / 10)
    (fun _ _ => 0) (fun _ => 0) psi hp (hn 0) (fun k => psi (k * (1 / 10))) (by simp) (fun k => swap2_rest psi hp h0 _) hk n
  refine this.trans (le_of_eq ?_)
  rw [abs_of_pos (by norm_num), max_eq_left (by norm_num [Nat.factorial])]
  norm_num [Nat.factorial]
  ring

end QDng.Accur
