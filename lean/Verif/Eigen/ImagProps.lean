import Verif.Eigen.Lemmas
import Mathlib.Analysis.InnerProductSpace.PiL2

/-
C98: eigenfunctions by relaxation in imaginary time.
-/

namespace QDng.Eigen

variable {V : Type} [NormedAddCommGroup V] [InnerProductSpace ℂ V]

/-- **C98** (orthonormal basis, partial).  Whatever the propagator does: if the relaxation ends without an exception and the convergence
criterion is not just one, there are `nef` functions, they are orthonormal, the first `start` are those of the earlier run, the new ones
have been written to the files, and the energies are the expectation values of the functions.  The functions of the earlier run have to
be orthonormal. -/
theorem C98_orthonormal_partial (U : Nat → V → V) (H : V → V) (conv : ℝ) (hc : conv ≠ 1) (steps nef start : Int) (disk : List V) (ψ0 : V)
    (hd : Orthonormal ℂ fun i : Fin (disk.take start.toNat).length => (disk.take start.toNat)[i]) (r : St V)
    (hr : runImag U H conv steps nef start disk ψ0 = .ok r) :
    (r.P.length : Int) = nef ∧ (Orthonormal ℂ fun i : Fin r.P.length => r.P[i]) ∧
    r.P.take start.toNat = disk.take start.toNat ∧ r.files = (r.P.drop start.toNat).map some ∧
    r.energies = r.P.map fun ψ => (inner ℂ ψ (H ψ) : ℂ).re := by
  unfold runImag at hr
  split at hr
  swap
  · exact absurd hr (by simp)
  next hp =>
  simp only [paramsOk, Bool.and_eq_true, Bool.not_eq_true', decide_eq_false_iff_not, not_lt, gt_iff_lt] at hp
  obtain ⟨⟨⟨⟨h1, h2⟩, h3⟩, h4⟩, h5⟩ := hp
  cases hn : normalize ψ0 with
  | none => rw [hn] at hr; exact absurd hr (by simp)
  | some ψ =>
    rw [hn] at hr
    replace hr : imagTime U H conv steps.toNat nef.toNat start.toNat disk ψ = .ok r := hr
    unfold imagTime at hr
    split at hr
    · exact absurd hr (by simp)
    next hl =>
    have hl' : (disk.take start.toNat).length = start.toNat := not_not.1 hl
    obtain ⟨hg, hlen⟩ := efLoop_good U H conv (lt_of_le_of_ne h4 hc) steps.toNat (by omega) ψ (disk.take start.toNat)
      (nef.toNat - start.toNat) start.toNat _ r hl' ⟨orthonormal_on _ hd, ⟨[], by simp, rfl⟩, rfl⟩ hr
    obtain ⟨new, e1, e2⟩ := hg.pre
    refine ⟨by omega, on_orthonormal _ hg.on, ?_, ?_, hg.en⟩
    · rw [e1, List.take_left' hl']
    · rw [e2, e1, List.drop_left' hl']

/-- **C98** (too many functions).  If more functions than the dimension of the space are requested the calculation always ends with an
exception. -/
theorem C98_too_many [FiniteDimensional ℂ V] (U : Nat → V → V) (H : V → V) (conv : ℝ) (hc : conv ≠ 1) (steps nef : Int) (ψ0 : V)
    (hd : (Module.finrank ℂ V : Int) < nef) : ∃ st, runImag U H conv steps nef 0 [] ψ0 = .threw st := by
  cases hr : runImag U H conv steps nef 0 [] ψ0 with
  | threw st => exact ⟨st, rfl⟩
  | ok r =>
    exfalso
    obtain ⟨h1, h2, _⟩ := C98_orthonormal_partial U H conv hc steps nef 0 [] ψ0
      (on_orthonormal _ ⟨fun φ h => absurd h List.not_mem_nil, List.Pairwise.nil⟩) r hr
    have := h2.linearIndependent.fintype_card_le_finrank
    rw [Fintype.card_fin] at this
    omega

/-! ### Convergence -/

theorem project_sum (S : List V) (x : V) : ∀ d, S.foldl (fun d φ => d + (inner ℂ φ x : ℂ) • φ) d =
    d + (S.map fun φ => (inner ℂ φ x : ℂ) • φ).sum := by
  induction S with
  | nil => intro d; simp
  | cons φ S ih => intro d; rw [List.foldl_cons, ih, List.map_cons, List.sum_cons, add_assoc]

theorem project_sub (S : List V) (x y : V) : project S (x - y) = project S x - project S y := by
  unfold project
  rw [project_sum, project_sum, project_sum, zero_add, zero_add, zero_add]
  induction S with
  | nil => simp
  | cons φ S ih =>
    rw [List.map_cons, List.sum_cons, List.map_cons, List.sum_cons, List.map_cons, List.sum_cons, ih, inner_sub_right, sub_smul]
    abel

theorem project_inner (S : List V) (x y : V) (h : ∀ φ ∈ S, inner ℂ φ y = (0 : ℂ)) : inner ℂ (project S x) y = (0 : ℂ) := by
  unfold project
  rw [project_sum, zero_add]
  induction S with
  | nil => simp
  | cons φ S ih =>
    rw [List.map_cons, List.sum_cons, inner_add_left, inner_smul_left, h φ List.mem_cons_self,
      ih fun χ hχ => h χ (List.mem_cons_of_mem _ hχ), mul_zero, add_zero]

theorem project_norm (S : List V) (h : ON S) (x : V) : ‖x - project S x‖ ≤ ‖x‖ := by
  have h1 : inner ℂ (project S x) (x - project S x) = (0 : ℂ) := project_inner S x _ fun φ hφ => project_orth S h x φ hφ
  have h2 := norm_add_sq_eq_norm_sq_add_norm_sq_of_inner_eq_zero (𝕜 := ℂ) _ _ h1
  rw [add_sub_cancel] at h2
  by_contra hc
  push Not at hc
  have := mul_self_nonneg ‖project S x‖
  have := mul_self_lt_mul_self (norm_nonneg x) hc
  linarith

/-- `k` steps of the relaxation. -/
noncomputable def steps (U : V → V) (b : Bool) (S : List V) : Nat → V → Option V
  | 0, ψ => some ψ
  | k + 1, ψ => (relaxStep U b S ψ).bind (steps U b S k)

theorem relax_steps (U : V → V) (conv : ℝ) (b : Bool) (S : List V) : ∀ (n s : Nat) (d : ℝ) (ψ v : V),
    relax (fun _ => U) conv b S n s d ψ = some v → steps U b S n ψ = some v ∨ (v = ψ ∧ d ≤ conv) ∨
      ∃ u, (u = ψ ∨ ∃ w, relaxStep U b S w = some u) ∧ relaxStep U b S u = some v ∧ ‖(1 : ℂ) - inner ℂ u v‖ ≤ conv := by
  intro n
  induction n with
  | zero => intro s d ψ v h; exact Or.inl h
  | succ n ih =>
    intro s d ψ v h
    rw [relax] at h
    split at h
    · next hd =>
      cases hr : relaxStep U b S ψ with
      | none => simp only [hr] at h; exact absurd h (by simp)
      | some ψ' =>
        simp only [hr] at h
        rcases ih _ _ _ _ h with h1 | ⟨h1, h2⟩ | ⟨u, h1, h2, h3⟩
        · exact Or.inl (by rw [steps, hr]; exact h1)
        · subst h1
          exact Or.inr (Or.inr ⟨ψ, Or.inl rfl, hr, h2⟩)
        · refine Or.inr (Or.inr ⟨u, Or.inr ?_, h2, h3⟩)
          rcases h1 with h1 | h1
          · exact ⟨ψ, h1 ▸ hr⟩
          · exact h1
    · next hd => exact Or.inr (Or.inl ⟨(Option.some.inj h).symm, not_lt.1 hd⟩)

theorem dist_unit (u v : V) (hu : inner ℂ u u = (1 : ℂ)) (hv : inner ℂ v v = (1 : ℂ)) (c : ℝ) (h : ‖(1 : ℂ) - inner ℂ u v‖ ≤ c) :
    ‖v - u‖ ≤ Real.sqrt (2 * c) := by
  apply Real.le_sqrt_of_sq_le
  have nu : ‖u‖ ^ 2 = 1 := by
    have := inner_self_eq_norm_sq_to_K (𝕜 := ℂ) u
    rw [hu] at this
    have h2 : (1 : ℂ) = ((‖u‖ ^ 2 : ℝ) : ℂ) := by rw [this]; norm_num
    exact (Complex.ofReal_injective (by rw [← h2]; norm_num)).symm
  have nv : ‖v‖ ^ 2 = 1 := by
    have := inner_self_eq_norm_sq_to_K (𝕜 := ℂ) v
    rw [hv] at this
    have h2 : (1 : ℂ) = ((‖v‖ ^ 2 : ℝ) : ℂ) := by rw [this]; norm_num
    exact (Complex.ofReal_injective (by rw [← h2]; norm_num)).symm
  have h1 := norm_sub_sq (𝕜 := ℂ) u v
  rw [norm_sub_rev, h1, nu, nv]
  have h3 : (1 : ℝ) - (inner ℂ u v : ℂ).re ≤ c := by
    refine le_trans ?_ h
    have := Complex.re_le_norm ((1 : ℂ) - inner ℂ u v)
    simpa using this
  have h4 : RCLike.re (inner ℂ u v : ℂ) = (inner ℂ u v : ℂ).re := rfl
  rw [h4]
  linarith

/-- **C98** (residual).  The relaxation with a linear step `U` that does not enlarge the norm by more than `M`, in the complement of the
functions `S` found before, from a normalized function: its result is either the one of the maximum number of steps, or it is an
eigenfunction of the step in the complement of `S` up to a residual of `M * sqrt (2 * conv)`. -/
theorem C98_residual (U : V →ₗ[ℂ] V) (M : ℝ) (hM : ∀ x, ‖U x‖ ≤ M * ‖x‖) (conv : ℝ) (hc : conv < 1) (S : List V) (hS : ON S)
    (n : Nat) (ψ0 v : V) (h0 : ‖ψ0‖ = 1) (hv : relax (fun _ => U) conv true S n 0 1 ψ0 = some v) :
    steps U true S n ψ0 = some v ∨
    ∃ c : ℝ, 0 < c ∧ ‖(U v - project S (U v)) - (c : ℂ) • v‖ ≤ M * Real.sqrt (2 * conv) := by
  rcases relax_steps U conv true S n 0 1 ψ0 v hv with h | ⟨_, h⟩ | ⟨u, h1, h2, h3⟩
  · exact Or.inl h
  · exact absurd h (not_le.2 hc)
  · right
    have hu : inner ℂ u u = (1 : ℂ) := by
      rcases h1 with rfl | ⟨w, hw⟩
      · rw [inner_self_eq_norm_sq_to_K, h0]; norm_num
      · exact normalize_norm _ _ hw
    have hvv : inner ℂ v v = (1 : ℂ) := normalize_norm _ _ h2
    unfold relaxStep at h2
    rw [if_pos rfl] at h2
    obtain ⟨hne, hv'⟩ := normalize_some _ _ h2
    have hpos : 0 < ‖U u - project S (U u)‖ := norm_pos_iff.2 hne
    have hM0 : 0 ≤ M := by
      by_contra hneg
      push Not at hneg
      have h5 := hM u
      have h6 := norm_nonneg (U u)
      have h7 : ‖u‖ ≠ 0 := by
        intro h8
        rw [norm_eq_zero] at h8
        rw [h8, inner_zero_left] at hu
        exact zero_ne_one hu
      have h8 : 0 < ‖u‖ := lt_of_le_of_ne (norm_nonneg u) (Ne.symm h7)
      have := mul_neg_of_neg_of_pos hneg h8
      linarith
    refine ⟨‖U u - project S (U u)‖, hpos, ?_⟩
    have e1 : ((‖U u - project S (U u)‖ : ℝ) : ℂ) • v = U u - project S (U u) := by
      rw [hv', smul_smul, ← Complex.ofReal_mul, mul_one_div_cancel hpos.ne', Complex.ofReal_one, one_smul]
    rw [e1]
    have e2 : U v - project S (U v) - (U u - project S (U u)) = U (v - u) - project S (U (v - u)) := by
      rw [map_sub, project_sub]; abel
    rw [e2]
    calc _ ≤ ‖U (v - u)‖ := project_norm S hS _
      _ ≤ M * ‖v - u‖ := hM _
      _ ≤ _ := mul_le_mul_of_nonneg_left (dist_unit u v hu hvv conv h3) hM0

/-- **C98** (fixed point).  A normalized eigenfunction of the step with a positive eigenvalue, orthogonal to the functions found before,
is returned as it is, in one step. -/
theorem C98_eigenfunction (U : V →ₗ[ℂ] V) (conv : ℝ) (hc : 0 ≤ conv) (S : List V) (n : Nat) (φ : V) (hφ : ‖φ‖ = 1)
    (hS : ∀ χ ∈ S, inner ℂ χ φ = (0 : ℂ)) (lam : ℝ) (hl : 0 < lam) (he : U φ = (lam : ℂ) • φ) (b : Bool) :
    relax (fun _ => U) conv b S n 0 1 φ = some φ := by
  have h1 : project S ((lam : ℂ) • φ) = 0 := by
    unfold project
    rw [project_sum, zero_add]
    apply List.sum_eq_zero
    intro x hx
    obtain ⟨χ, hχ, rfl⟩ := List.mem_map.1 hx
    rw [inner_smul_right, hS χ hχ, mul_zero, zero_smul]
  have hne : (lam : ℂ) • φ ≠ 0 := by
    intro h
    rcases smul_eq_zero.1 h with h | h
    · exact hl.ne' (Complex.ofReal_injective h)
    · rw [h, norm_zero] at hφ; exact zero_ne_one hφ
  have h2 : relaxStep U b S φ = some φ := by
    unfold relaxStep
    have : (if b then U φ - project S (U φ) else U φ) = (lam : ℂ) • φ := by
      cases b
      · exact he
      · rw [if_pos rfl, he, h1, sub_zero]
    rw [this]
    unfold normalize
    rw [if_neg hne, norm_smul, hφ, mul_one, smul_smul, ← Complex.ofReal_mul, Complex.norm_real, Real.norm_eq_abs, abs_of_pos hl,
      one_div_mul_cancel hl.ne', Complex.ofReal_one, one_smul]
  have h3 : ‖(1 : ℂ) - inner ℂ φ φ‖ = 0 := by
    rw [inner_self_eq_norm_sq_to_K, hφ]; norm_num
  cases n with
  | zero => rfl
  | succ n =>
    rw [relax]
    split
    · rw [h2, Option.bind_some, h3]
      cases n with
      | zero => rfl
      | succ n => rw [relax, if_neg (not_lt.2 hc)]
    · rfl

/-- **C98** (violated for `conv = 1`).  The convergence criterion one is accepted and ends every relaxation before its first step: all
functions are the initial one and they are not orthogonal. -/
theorem C98_violated_conv_one (U : Nat → ℂ → ℂ) (H : ℂ → ℂ) (steps : Int) (hs : 1 ≤ steps) :
    ∃ r, runImag U H 1 steps 2 0 [] 1 = .ok r ∧ r.P = [1, 1] ∧ ¬ Orthonormal ℂ fun i : Fin r.P.length => r.P[i] := by
  have hp : paramsOk 2 0 steps 1 = true := by
    simp [paramsOk]; omega
  have hn : normalize (1 : ℂ) = some 1 := by
    unfold normalize
    rw [if_neg one_ne_zero]
    simp
  have hx : ∀ b (S : List ℂ) n, relax U 1 b S n 0 1 1 = some 1 := by
    intro b S n
    cases n with
    | zero => rfl
    | succ n => rw [relax, if_neg (lt_irrefl _)]
  refine ⟨{ P := [1, 1], files := [some 1, some 1], energies := [expec H 1, expec H 1] }, ?_, rfl, ?_⟩
  · unfold runImag
    rw [if_pos hp, hn]
    show imagTime U H 1 steps.toNat 2 0 [] 1 = _
    unfold imagTime
    rw [if_neg (by simp)]
    show efLoop U H 1 steps.toNat 1 2 0 _ = _
    rw [efLoop, hx]
    show efLoop U H 1 steps.toNat 1 1 1 _ = _
    rw [efLoop, hx]
    rfl
  · intro h
    have := (orthonormal_on _ h).2
    simp at this

/-- Non-vacuity of C98: a restart with one function of the earlier run, the second one is found in one step. -/
example : ∃ r, runImag (V := EuclideanSpace ℂ (Fin 2)) (fun _ => (LinearMap.id : EuclideanSpace ℂ (Fin 2) →ₗ[ℂ] _)) id (1 / 2) 5 2 1 [EuclideanSpace.single 0 1]
    (EuclideanSpace.single 1 1) = .ok r ∧ r.P = [EuclideanSpace.single 0 1, EuclideanSpace.single 1 1] := by
  have hn : normalize (EuclideanSpace.single (1 : Fin 2) (1 : ℂ)) = some (EuclideanSpace.single 1 1) := by
    unfold normalize
    rw [if_neg (by intro h; have := congrArg norm h; simp at this)]
    simp
  refine ⟨{ P := [EuclideanSpace.single 0 1, EuclideanSpace.single 1 1], files := [some (EuclideanSpace.single 1 1)],
            energies := [expec id (EuclideanSpace.single (0 : Fin 2) (1 : ℂ)), expec id (EuclideanSpace.single (1 : Fin 2) (1 : ℂ))] }, ?_, rfl⟩
  unfold runImag
  rw [if_pos (by simp [paramsOk]; norm_num), hn]
  show imagTime _ _ _ 5 2 1 _ _ = _
  unfold imagTime
  rw [if_neg (by simp)]
  show efLoop _ _ _ 5 _ 1 1 _ = _
  rw [efLoop, C98_eigenfunction LinearMap.id (1 / 2) (by norm_num) _ 5 (EuclideanSpace.single 1 1) (by simp) (by simp [EuclideanSpace.inner_single_left]) 1 (by norm_num)
    (by simp)]
  rfl

end QDng.Eigen
