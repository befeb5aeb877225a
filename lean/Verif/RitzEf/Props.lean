import Verif.RitzEf.Lemmas

/-
Properties C279-C282: eigenfunctions by the Lanczos method.
-/

namespace QDng.RitzEf

open QDng.Chexp QDng.Krylov

variable {V : Type} [NormedAddCommGroup V] [InnerProductSpace ℂ V]

/-! ### C279: what the functions and energies are -/

/-- C279: the method ends with an exception just if the propagator is not an Arnoldi propagator of order three or more. -/
theorem C279_needs_arnoldi (L : Solver) (H : V →ₗ[ℂ] V) (p : Propagator) (dt : ℝ) (stale : ℕ → V) (ψ0 : V) :
    run L H p dt stale ψ0 = .threw ↔ ∀ maxorder conv, p = .arnoldi maxorder conv → maxorder < 3 := by
  cases p with
  | other => simp [run]
  | arnoldi maxorder conv =>
    constructor
    · intro h k c hk
      cases hk
      by_contra h3
      unfold run at h
      simp only [if_neg h3] at h
      split at h <;> cases h
    · intro h
      unfold run
      simp only [if_pos (h maxorder conv rfl)]

/-- C279: let the initial wave function not be an eigenfunction.  For a Hamiltonian that need not be Hermitian there are between two and
`order` functions.  They are normalised and built from `ψ0, H ψ0, H² ψ0, ...`; the energies are the real parts of the expectation
values; what is missing to an eigenfunction is orthogonal to the whole space searched. -/
theorem C279_ritz_partial (L : Solver) (H : V →ₗ[ℂ] V) (maxorder : ℕ) (conv dt : ℝ) (stale : ℕ → V) (ψ0 : V) (r : Found V)
    (h : run L H (.arnoldi maxorder conv) dt stale ψ0 = .found r) (hs : 1 / 10 ^ 11 ≤ spread H ψ0) :
    2 ≤ r.n ∧ r.n ≤ maxorder ∧ ∀ i < r.n, ‖r.fn i‖ = 1 ∧ r.fn i ∈ powers H ψ0 r.n ∧
      r.en i = (inner ℂ (r.fn i) (H (r.fn i))).re ∧
      ∀ x ∈ powers H ψ0 r.n, inner ℂ x (H (r.fn i) - (inner ℂ (r.fn i) (H (r.fn i)) : ℂ) • r.fn i) = 0 := by
  obtain ⟨m, q, A, Z, e, hn, h1, hle, R, hr, hsp, -, -, -⟩ := run_core h hs
  rw [hn]
  refine ⟨by omega, hle, fun i hi => ?_⟩
  obtain ⟨f1, f2⟩ := hr ⟨i, hi⟩
  simp only at f1 f2
  rw [f1, f2, R.energy, ← hsp]
  exact ⟨R.norm _, fns_mem _, rfl, fun x hx => R.perp _ hx⟩

/-- C279: for a Hermitian Hamiltonian the functions are orthonormal and span the space searched, the Hamiltonian is diagonal between them
with the energies written, and no energy occurs twice. -/
theorem C279_hermitian_partial (L : Solver) (H : V →ₗ[ℂ] V) (hH : Hermitian H) (maxorder : ℕ) (conv dt : ℝ) (stale : ℕ → V) (ψ0 : V)
    (r : Found V) (h : run L H (.arnoldi maxorder conv) dt stale ψ0 = .found r) (hs : 1 / 10 ^ 11 ≤ spread H ψ0) :
    Orthonormal ℂ (fun i : Fin r.n => r.fn i) ∧ Submodule.span ℂ (Set.range fun i : Fin r.n => r.fn i) = powers H ψ0 r.n ∧
      (∀ i < r.n, ∀ j < r.n, inner ℂ (r.fn i) (H (r.fn j)) = if i = j then (r.en j : ℂ) else 0) ∧
      ∀ i < r.n, ∀ j < r.n, r.en i = r.en j → i = j := by
  obtain ⟨m, q, A, Z, e, hn, h1, hle, R, hr, hsp, hinj, -, -⟩ := run_core h hs
  obtain ⟨inj, re⟩ := hinj hH
  have on := R.orthonormal hH inj re
  obtain ⟨n, fn, en⟩ := r
  simp only at hn hr ⊢
  subst hn
  have hfn : (fun i : Fin (m + 1) => fn i) = fns q Z := by funext i; exact (hr i).1
  have hre : ∀ i : Fin (m + 1), ((en i : ℝ) : ℂ) = e i := by
    intro i
    rw [(hr i).2]
    exact Complex.ext (by simp) (by simp [re i])
  rw [hfn, ← hsp]
  refine ⟨on, R.span on, fun i hi j hj => ?_, fun i hi j hj hij => ?_⟩
  · have f1 := (hr ⟨i, hi⟩).1
    have f2 := (hr ⟨j, hj⟩).1
    have f3 := hre ⟨j, hj⟩
    simp only at f1 f2 f3
    rw [f1, f2, f3, R.elem _ (fns_mem _), orthonormal_iff_ite.1 on]
    simp only [Fin.mk.injEq]
    split <;> simp
  · have := inj (a₁ := ⟨i, hi⟩) (a₂ := ⟨j, hj⟩) (by rw [← hre, ← hre]; simp only; rw [hij])
    simpa using this

/-! ### C280: bounds -/

/-- The expectation value in the space of the functions. -/
theorem expec_sum {H : V →ₗ[ℂ] V} {n : ℕ} {fn : ℕ → V} {en : ℕ → ℝ} (on : Orthonormal ℂ (fun i : Fin n => fn i))
    (hd : ∀ i < n, ∀ j < n, inner ℂ (fn i) (H (fn j)) = if i = j then (en j : ℂ) else 0) {x : V}
    (hx : x ∈ Submodule.span ℂ (Set.range fun i : Fin n => fn i)) :
    ∃ w : Fin n → ℝ, (∀ i, 0 ≤ w i) ∧ ‖x‖ ^ 2 = ∑ i, w i ∧ (inner ℂ x (H x)).re = ∑ i : Fin n, en i * w i := by
  obtain ⟨c, rfl⟩ := (Submodule.mem_span_range_iff_exists_fun ℂ).1 hx
  refine ⟨fun i => ‖c i‖ ^ 2, fun i => by positivity, ?_, ?_⟩
  · have h1 : (inner ℂ (∑ i, c i • fn i) (∑ i, c i • fn i) : ℂ) = ((∑ i, ‖c i‖ ^ 2 : ℝ) : ℂ) := by
      rw [on.inner_sum, Complex.ofReal_sum]
      refine Finset.sum_congr rfl (fun i _ => ?_)
      rw [← Complex.normSq_eq_conj_mul_self, Complex.normSq_eq_norm_sq]
    rw [inner_self_eq_norm_sq_to_K] at h1
    exact Complex.ofReal_injective (by rw [Complex.ofReal_pow]; exact h1)
  · have h1 : (inner ℂ (∑ i, c i • fn i) (H (∑ i, c i • fn i)) : ℂ) = ((∑ i : Fin n, en i * ‖c i‖ ^ 2 : ℝ) : ℂ) := by
      rw [sum_inner, Complex.ofReal_sum]
      refine Finset.sum_congr rfl (fun i _ => ?_)
      rw [map_sum, inner_sum, Finset.sum_eq_single i]
      · rw [inner_smul_left, map_smul, inner_smul_right, hd i i.isLt i i.isLt, if_pos rfl, Complex.ofReal_mul,
          ← Complex.normSq_eq_norm_sq, Complex.normSq_eq_conj_mul_self]
        ring
      · intro j _ hj
        rw [inner_smul_left, map_smul, inner_smul_right, hd i i.isLt j j.isLt, if_neg (fun h => hj (Fin.ext h.symm))]
        ring
      · simp
    rw [h1, Complex.ofReal_re]

/-- C280: all energies are between the bounds of the energies of the Hamiltonian; in particular none is below the lowest one. -/
theorem C280_bounds (L : Solver) (H : V →ₗ[ℂ] V) (emin emax : ℝ) (hw : Within H emin emax) (maxorder : ℕ)
    (conv dt : ℝ) (stale : ℕ → V) (ψ0 : V) (r : Found V) (h : run L H (.arnoldi maxorder conv) dt stale ψ0 = .found r)
    (hs : 1 / 10 ^ 11 ≤ spread H ψ0) (i : ℕ) (hi : i < r.n) : emin ≤ r.en i ∧ r.en i ≤ emax := by
  obtain ⟨-, -, hr⟩ := C279_ritz_partial L H maxorder conv dt stale ψ0 r h hs
  obtain ⟨h1, -, h2, -⟩ := hr i hi
  have := hw (r.fn i)
  rw [h1, ← h2] at this
  simpa using this

/-- C280: the energies are the best ones in the space searched.  A wave function of this space, the initial one in particular, has an
energy between the lowest and the highest one. -/
theorem C280_best (L : Solver) (H : V →ₗ[ℂ] V) (hH : Hermitian H) (maxorder : ℕ) (conv dt : ℝ) (stale : ℕ → V) (ψ0 : V)
    (r : Found V) (h : run L H (.arnoldi maxorder conv) dt stale ψ0 = .found r) (hs : 1 / 10 ^ 11 ≤ spread H ψ0) (x : V)
    (hx : x ∈ powers H ψ0 r.n) (hx0 : x ≠ 0) : (∃ i < r.n, r.en i ≤ energy H x) ∧ ∃ i < r.n, energy H x ≤ r.en i := by
  obtain ⟨on, hsp, hd, -⟩ := C279_hermitian_partial L H hH maxorder conv dt stale ψ0 r h hs
  rw [← hsp] at hx
  obtain ⟨w, hw0, hn, he⟩ := expec_sum on hd hx
  have hpos : 0 < ‖x‖ ^ 2 := by have := norm_pos_iff.2 hx0; positivity
  have hE : energy H x * ‖x‖ ^ 2 = ∑ i : Fin r.n, r.en i * w i := by
    unfold energy
    rw [div_mul_cancel₀ _ hpos.ne', he]
  have hex : ∃ i, 0 < w i := by
    by_contra hc
    push Not at hc
    have : ∑ i, w i = 0 := Finset.sum_eq_zero fun i _ => le_antisymm (hc i) (hw0 i)
    rw [hn, this] at hpos
    exact lt_irrefl _ hpos
  obtain ⟨k, hk⟩ := hex
  constructor
  · by_contra hc
    push Not at hc
    have : ∑ i, energy H x * w i < ∑ i : Fin r.n, r.en i * w i :=
      Finset.sum_lt_sum (fun i _ => mul_le_mul_of_nonneg_right (hc i i.isLt).le (hw0 i))
        ⟨k, Finset.mem_univ k, mul_lt_mul_of_pos_right (hc k k.isLt) hk⟩
    rw [← Finset.mul_sum, ← hn, hE] at this
    exact lt_irrefl _ this
  · by_contra hc
    push Not at hc
    have : ∑ i : Fin r.n, r.en i * w i < ∑ i, energy H x * w i :=
      Finset.sum_lt_sum (fun i _ => mul_le_mul_of_nonneg_right (hc i i.isLt).le (hw0 i))
        ⟨k, Finset.mem_univ k, mul_lt_mul_of_pos_right (hc k k.isLt) hk⟩
    rw [← Finset.mul_sum, ← hn, hE] at this
    exact lt_irrefl _ this

/-- C280: the initial wave function is in the space searched. -/
theorem C280_initial (L : Solver) (H : V →ₗ[ℂ] V) (hH : Hermitian H) (maxorder : ℕ) (conv dt : ℝ) (stale : ℕ → V) (ψ0 : V)
    (r : Found V) (h : run L H (.arnoldi maxorder conv) dt stale ψ0 = .found r) (hs : 1 / 10 ^ 11 ≤ spread H ψ0) :
    ∃ i < r.n, r.en i ≤ energy H ψ0 := by
  obtain ⟨-, h0, -⟩ := run_found h
  obtain ⟨h2, -, -⟩ := C279_ritz_partial L H maxorder conv dt stale ψ0 r h hs
  exact (C280_best L H hH maxorder conv dt stale ψ0 r h hs ψ0 (Submodule.subset_span ⟨0, by omega, by simp⟩) h0).1

/-! ### C281: accuracy -/

/-- There is an eigenvalue within the residual of a normalised function. -/
theorem level_near [FiniteDimensional ℂ V] {H : V →ₗ[ℂ] V} (hH : Hermitian H) {x : V} (hx : ‖x‖ = 1) (e : ℝ) :
    ∃ l, IsLevel H l ∧ |l - e| ≤ ‖H x - (e : ℂ) • x‖ := by
  have hs : H.IsSymmetric := hH
  let b := hs.eigenvectorBasis rfl
  let l := hs.eigenvalues rfl
  have hl : ∀ i, H (b i) = (l i : ℂ) • b i := fun i => hs.apply_eigenvectorBasis rfl i
  have hcomp : ∀ i, inner ℂ (b i) (H x - (e : ℂ) • x) = ((l i - e : ℝ) : ℂ) * inner ℂ (b i) x := by
    intro i
    rw [inner_sub_right, inner_smul_right, ← hH, hl, inner_smul_left, Complex.conj_ofReal]
    push_cast
    ring
  by_contra hc
  push Not at hc
  have hlt : ∀ i, ‖H x - (e : ℂ) • x‖ < |l i - e| := fun i => hc (l i) ⟨b i, b.orthonormal.ne_zero i, hl i⟩
  have h1 : ‖H x - (e : ℂ) • x‖ ^ 2 = ∑ i, |l i - e| ^ 2 * ‖inner ℂ (b i) x‖ ^ 2 := by
    rw [← b.sum_sq_norm_inner_right]
    refine Finset.sum_congr rfl (fun i _ => ?_)
    rw [hcomp, norm_mul, mul_pow, Complex.norm_real, Real.norm_eq_abs]
  have h2 : ∑ i, ‖inner ℂ (b i) x‖ ^ 2 = 1 := by rw [b.sum_sq_norm_inner_right, hx, one_pow]
  have hex : ∃ i, 0 < ‖inner ℂ (b i) x‖ ^ 2 := by
    by_contra h3
    push Not at h3
    have : ∑ i, ‖inner ℂ (b i) x‖ ^ 2 = 0 := Finset.sum_eq_zero fun i _ => le_antisymm (h3 i) (by positivity)
    rw [this] at h2
    exact zero_ne_one h2
  obtain ⟨k, hk⟩ := hex
  have hsq : ∀ i, ‖H x - (e : ℂ) • x‖ ^ 2 < |l i - e| ^ 2 := fun i => pow_lt_pow_left₀ (hlt i) (norm_nonneg _) two_ne_zero
  have h3 : ∑ i, ‖H x - (e : ℂ) • x‖ ^ 2 * ‖inner ℂ (b i) x‖ ^ 2 < ∑ i, |l i - e| ^ 2 * ‖inner ℂ (b i) x‖ ^ 2 :=
    Finset.sum_lt_sum (fun i _ => mul_le_mul_of_nonneg_right (hsq i).le (by positivity))
      ⟨k, Finset.mem_univ k, mul_lt_mul_of_pos_right (hsq k) hk⟩
  rw [← Finset.mul_sum, h2, mul_one, ← h1] at h3
  exact lt_irrefl _ h3

/-- C281: for a Hermitian Hamiltonian each energy written is an eigenvalue up to the residual of the function.  If the error
estimate is not used and there are fewer functions than the order allows, every energy is an eigenvalue up to `1e-11`. -/
theorem C281_error [FiniteDimensional ℂ V] (L : Solver) (H : V →ₗ[ℂ] V) (hH : Hermitian H) (maxorder : ℕ) (conv dt : ℝ)
    (stale : ℕ → V) (ψ0 : V) (r : Found V) (h : run L H (.arnoldi maxorder conv) dt stale ψ0 = .found r)
    (hs : 1 / 10 ^ 11 ≤ spread H ψ0) (i : ℕ) (hi : i < r.n) :
    (∃ l, IsLevel H l ∧ |l - r.en i| ≤ ‖H (r.fn i) - (r.en i : ℂ) • r.fn i‖) ∧
      (conv ≤ 0 → r.n < maxorder → ‖H (r.fn i) - (r.en i : ℂ) • r.fn i‖ ≤ 1 / 10 ^ 11 ∧
        ∃ l, IsLevel H l ∧ |l - r.en i| ≤ 1 / 10 ^ 11) := by
  obtain ⟨-, -, hr⟩ := C279_ritz_partial L H maxorder conv dt stale ψ0 r h hs
  obtain ⟨l, hl1, hl2⟩ := level_near hH (hr i hi).1 (r.en i)
  refine ⟨⟨l, hl1, hl2⟩, fun hc hlt => ?_⟩
  obtain ⟨m, q, A, Z, e, hn, h1, hle, R, hfn, hsp, hinj, hend, hin⟩ := run_core h hs
  obtain ⟨inj, re⟩ := hinj hH
  rw [hn] at hi
  suffices hb : ‖H (r.fn i) - (r.en i : ℂ) • r.fn i‖ ≤ 1 / 10 ^ 11 from ⟨hb, l, hl1, hl2.trans hb⟩
  obtain ⟨f1, f2⟩ := hfn ⟨i, hi⟩
  have f3 : ((r.en i : ℝ) : ℂ) = e ⟨i, hi⟩ := by
    rw [f2]
    exact Complex.ext (by simp) (by simp [re])
  simp only at f1
  rw [f3, f1]
  rcases hend hc with h4 | ⟨c, hcn⟩
  · omega
  · -- the residual `d` is a multiple of the part of `H q_m` that is orthogonal to the space
    set d := H (fns q Z ⟨i, hi⟩) - e ⟨i, hi⟩ • fns q Z ⟨i, hi⟩ with hd
    set w := H (q m) - ∑ i ∈ Finset.range (m + 1), c i • q i with hw
    have hmem : ∃ y ∈ QS q (m + 1), d = Z (Fin.last m) ⟨i, hi⟩ • w + y := by
      refine ⟨d - Z (Fin.last m) ⟨i, hi⟩ • w, ?_, by abel⟩
      have e1 : H (fns q Z ⟨i, hi⟩) = Z (Fin.last m) ⟨i, hi⟩ • H (q m) + ∑ j : Fin m, Z j.castSucc ⟨i, hi⟩ • H (q j) := by
        unfold fns
        rw [map_sum, Fin.sum_univ_castSucc, add_comm]
        simp only [map_smul, Fin.val_castSucc, Fin.val_last]
      have e2 : d - Z (Fin.last m) ⟨i, hi⟩ • w = ∑ j : Fin m, Z j.castSucc ⟨i, hi⟩ • H (q j) - e ⟨i, hi⟩ • fns q Z ⟨i, hi⟩ +
          Z (Fin.last m) ⟨i, hi⟩ • ∑ i ∈ Finset.range (m + 1), c i • q i := by
        rw [hd, hw, e1, smul_sub]
        abel
      rw [e2]
      refine Submodule.add_mem _ (Submodule.sub_mem _ (Submodule.sum_mem _ fun j _ => Submodule.smul_mem _ _ (hin j j.isLt))
        (Submodule.smul_mem _ _ (fns_mem _))) (Submodule.smul_mem _ _ (Submodule.sum_mem _ fun j hj => Submodule.smul_mem _ _
          (q_mem_QS _ (Finset.mem_range.1 hj))))
    obtain ⟨y, hy, hdy⟩ := hmem
    have hz : ‖Z (Fin.last m) ⟨i, hi⟩‖ ≤ 1 := by
      have h5 := Finset.single_le_sum (f := fun r => ‖Z r ⟨i, hi⟩‖ ^ 2) (fun r _ => by positivity) (Finset.mem_univ (Fin.last m))
      rw [R.unit] at h5
      simpa using h5
    have h6 : ‖d‖ ^ 2 ≤ ‖d‖ * ‖w‖ := by
      have h7 : ((‖d‖ ^ 2 : ℝ) : ℂ) = Z (Fin.last m) ⟨i, hi⟩ * inner ℂ d w := by
        rw [Complex.ofReal_pow]
        have h8 : inner ℂ d d = (‖d‖ : ℂ) ^ 2 := inner_self_eq_norm_sq_to_K d
        have h9 : inner ℂ d y = 0 := by rw [← inner_conj_symm, R.perp _ hy, map_zero]
        rw [← h8]
        conv_lhs => enter [3]; rw [hdy]
        rw [inner_add_right, h9, add_zero, inner_smul_right]
      have h10 : ‖d‖ ^ 2 = ‖Z (Fin.last m) ⟨i, hi⟩ * inner ℂ d w‖ := by
        rw [← h7, Complex.norm_real, Real.norm_of_nonneg (by positivity)]
      rw [h10, norm_mul]
      calc ‖Z (Fin.last m) ⟨i, hi⟩‖ * ‖inner ℂ d w‖ ≤ 1 * (‖d‖ * ‖w‖) :=
            mul_le_mul hz (norm_inner_le_norm d w) (norm_nonneg _) zero_le_one
        _ = _ := one_mul _
    have h11 : ‖d‖ ≤ ‖w‖ := by
      rcases (norm_nonneg d).eq_or_lt with h0 | h0
      · rw [← h0]; exact norm_nonneg _
      · rw [sq] at h6
        exact le_of_mul_le_mul_left h6 h0
    exact h11.trans (le_of_lt hcn)

/-- C281: if the Hamiltonian does not lead out of the space searched, the functions are eigenfunctions with the energies as eigenvalues,
and every eigenvalue whose eigenfunction overlaps with the initial wave function is found. -/
theorem C281_invariant (L : Solver) (H : V →ₗ[ℂ] V) (hH : Hermitian H) (maxorder : ℕ) (conv dt : ℝ)
    (stale : ℕ → V) (ψ0 : V) (r : Found V) (h : run L H (.arnoldi maxorder conv) dt stale ψ0 = .found r)
    (hs : 1 / 10 ^ 11 ≤ spread H ψ0) (hinv : (H ^ r.n) ψ0 ∈ powers H ψ0 r.n) :
    (∀ i < r.n, H (r.fn i) = (r.en i : ℂ) • r.fn i) ∧
      ∀ (v : V) (l : ℝ), H v = (l : ℂ) • v → inner ℂ v ψ0 ≠ (0 : ℂ) → ∃ i < r.n, r.en i = l := by
  obtain ⟨hn2, -, hr⟩ := C279_ritz_partial L H maxorder conv dt stale ψ0 r h hs
  obtain ⟨on, hsp, hd, -⟩ := C279_hermitian_partial L H hH maxorder conv dt stale ψ0 r h hs
  have hmap : ∀ x ∈ powers H ψ0 r.n, H x ∈ powers H ψ0 r.n := by
    intro x hx
    refine Submodule.span_induction (p := fun x _ => H x ∈ powers H ψ0 r.n) ?_ ?_ ?_ ?_ hx
    · rintro _ ⟨k, hk, rfl⟩
      rw [← Module.End.mul_apply, ← pow_succ']
      by_cases h1 : k + 1 < r.n
      · exact Submodule.subset_span ⟨k + 1, h1, rfl⟩
      · rw [show k + 1 = r.n by omega]
        exact hinv
    · rw [map_zero]; exact Submodule.zero_mem _
    · intro x y _ _ h1 h2; rw [map_add]; exact Submodule.add_mem _ h1 h2
    · intro c x _ h1; rw [map_smul]; exact Submodule.smul_mem _ _ h1
  have hE : ∀ i < r.n, H (r.fn i) = (r.en i : ℂ) • r.fn i := by
    intro i hi
    obtain ⟨-, hm, -, hp⟩ := hr i hi
    have he := hd i hi i hi
    rw [if_pos rfl] at he
    rw [he] at hp
    have := hp (H (r.fn i) - (r.en i : ℂ) • r.fn i) (Submodule.sub_mem _ (hmap _ hm) (Submodule.smul_mem _ _ hm))
    exact sub_eq_zero.1 (inner_self_eq_zero.1 this)
  refine ⟨hE, fun v l hv hov => ?_⟩
  have h0 : ψ0 ∈ Submodule.span ℂ (Set.range fun i : Fin r.n => r.fn i) := by
    rw [hsp]
    exact Submodule.subset_span ⟨0, by omega, by simp⟩
  obtain ⟨c, hc⟩ := (Submodule.mem_span_range_iff_exists_fun ℂ).1 h0
  have hex : ∃ i : Fin r.n, inner ℂ v (r.fn i) ≠ (0 : ℂ) := by
    by_contra h1
    push Not at h1
    apply hov
    rw [← hc, inner_sum]
    exact Finset.sum_eq_zero fun i _ => by rw [inner_smul_right, h1 i, mul_zero]
  obtain ⟨i, hi⟩ := hex
  refine ⟨i, i.isLt, ?_⟩
  have h1 := hH v (r.fn i)
  rw [hv, hE i i.isLt, inner_smul_left, inner_smul_right, Complex.conj_ofReal] at h1
  exact (Complex.ofReal_injective (mul_right_cancel₀ hi h1)).symm

/-! ### C282: the option `diag` -/

open QDng.Eigen (IsDiag symm hMatrix combine) in
/-- C282: a diagonalization after the method (option `diag`) does not change the result, it sorts it: the energies come in ascending
order, each is one of the energies found before, and the function written for it is the one found before, up to the sign. -/
theorem C282 (L : Solver) (H : V →ₗ[ℂ] V) (hH : Hermitian H) (maxorder : ℕ) (conv dt : ℝ)
    (stale : ℕ → V) (ψ0 : V) (r : Found V) (h : run L H (.arnoldi maxorder conv) dt stale ψ0 = .found r)
    (hs : 1 / 10 ^ 11 ≤ spread H ψ0) (m : ℕ) (hm : r.n = m + 1) (d : Fin (m + 1) → ℝ) (S : Matrix (Fin (m + 1)) (Fin (m + 1)) ℝ)
    (hD : IsDiag (symm (hMatrix H (fun i : Fin (m + 1) => r.fn i) (fun i : Fin (m + 1) => r.en i))) d S) :
    StrictMono d ∧ ∃ p : Fin (m + 1) → Fin (m + 1), Function.Bijective p ∧ ∀ j, d j = r.en (p j) ∧
      (combine (fun i : Fin (m + 1) => r.fn i) S j = r.fn (p j) ∨ combine (fun i : Fin (m + 1) => r.fn i) S j = -r.fn (p j)) := by
  obtain ⟨on, -, hd, inj⟩ := C279_hermitian_partial L H hH maxorder conv dt stale ψ0 r h hs
  have hM : ∀ k l : Fin (m + 1), symm (hMatrix H (fun i : Fin (m + 1) => r.fn i) (fun i : Fin (m + 1) => r.en i)) k l =
      if k = l then r.en k else 0 := by
    intro k l
    unfold QDng.Eigen.symm hMatrix
    rcases lt_trichotomy k l with h1 | h1 | h1
    · rw [if_pos h1.le, if_pos h1, if_neg h1.ne, hd l (by omega) k (by omega), if_neg (fun h => h1.ne (Fin.ext h.symm))]
      simp
    · subst h1
      rw [if_pos (le_refl _), if_neg (lt_irrefl _), if_pos rfl]
    · rw [if_neg (not_le.2 h1), if_pos h1, if_neg h1.ne', hd k (by omega) l (by omega), if_neg (fun h => h1.ne' (Fin.ext h))]
      simp
  have hS : ∀ k j : Fin (m + 1), r.en k * S k j = d j * S k j := by
    intro k j
    rw [← hD.eig k j]
    simp only [hM, ite_mul, zero_mul, Finset.sum_ite_eq, Finset.mem_univ, if_true]
  have hex : ∀ j, ∃ k, S k j ≠ 0 := by
    intro j
    by_contra h1
    push Not at h1
    have := hD.orth j j
    simp [h1] at this
  choose p hp using hex
  have hdp : ∀ j, d j = r.en (p j) := fun j => (mul_right_cancel₀ (hp j) (hS (p j) j)).symm
  have hz : ∀ k j, k ≠ p j → S k j = 0 := by
    intro k j hkj
    by_contra h1
    have h2 := mul_right_cancel₀ h1 (hS k j)
    rw [hdp] at h2
    exact hkj (Fin.ext (inj _ (by omega) _ (by omega) h2))
  have hpi : Function.Injective p := by
    intro a b hab
    by_contra hne
    have h1 := hD.orth a b
    rw [if_neg hne, Finset.sum_eq_single (p a)] at h1
    · exact (mul_ne_zero (hp a) (by rw [hab]; exact hp b)) h1
    · intro k _ hk; rw [hz k a hk, zero_mul]
    · simp
  have hdi : Function.Injective d := by
    intro a b hab
    rw [hdp, hdp] at hab
    exact hpi (Fin.ext (inj _ (by omega) _ (by omega) hab))
  refine ⟨hD.asc.strictMono_of_injective hdi, p, Finite.injective_iff_bijective.1 hpi, fun j => ⟨hdp j, ?_⟩⟩
  have hsq : S (p j) j * S (p j) j = 1 := by
    have h1 := hD.orth j j
    rw [if_pos rfl, Finset.sum_eq_single (p j)] at h1
    · exact h1
    · intro k _ hk; rw [hz k j hk, zero_mul]
    · simp
  have hc : combine (fun i : Fin (m + 1) => r.fn i) S j = ((S (p j) j : ℝ) : ℂ) • r.fn (p j) := by
    rw [QDng.Eigen.combine_eq, Finset.sum_eq_single (p j)]
    · intro k _ hk; rw [hz k j hk]; simp
    · simp
  rw [hc]
  rcases mul_self_eq_one_iff.1 hsq with h1 | h1
  · left; rw [h1]; simp
  · right; rw [h1]; simp

/-! ### An eigenfunction as initial wave function -/

/-- The basis and the matrix, if the initial wave function is an eigenfunction. -/
theorem build_eigen {H : V →ₗ[ℂ] V} {m : ℕ} (hm : 2 ≤ m) {dt conv : ℝ} {ψ : V}
    (hres : ‖H ψ - (inner ℂ ψ (H ψ) : ℂ) • ψ‖ < underrun) :
    arBuild H (m + 1) dt conv (fun _ => 0) (m + 1) ψ =
      { q := Function.update (fun _ => 0) 0 ψ, h := fun i j => if i = 0 ∧ j = 0 then inner ℂ ψ (H ψ) else 0, order := m + 1 } := by
  have hw0 : orthLoop (Function.update (fun _ => 0) 0 ψ) 0 1 (H ψ) (fun _ _ => 0) =
      (H ψ - (inner ℂ ψ (H ψ) : ℂ) • ψ, setEntry (fun _ _ => 0) 0 0 (inner ℂ ψ (H ψ) : ℂ)) := by
    rw [orthLoop_succ]
    simp only [orthLoop, List.range_zero, List.foldl_nil, Function.update_self]
    rw [neg_one_mul, neg_smul, sub_eq_add_neg]
  obtain ⟨k, rfl⟩ : ∃ k, m = k + 1 := ⟨m - 1, by omega⟩
  have hl : arLoop H dt ‖ψ‖ conv (k + 1 + 1 - 1) 1
      { q := Function.update (fun _ => 0) 0 ψ, h := (fun _ _ => 0), order := k + 1 + 1 } =
      { q := Function.update (fun _ => 0) 0 ψ, h := setEntry (fun _ _ => 0) 0 0 (inner ℂ ψ (H ψ) : ℂ), order := k + 1 + 1 } := by
    rw [show k + 1 + 1 - 1 = k + 1 by omega, arLoop]
    simp only [show 1 - 1 = 0 by omega, Function.update_self, hw0]
    rw [if_pos hres]
  unfold arBuild
  simp only [hl]
  congr 1
  funext i j
  rw [last_col]
  split
  · rename_i h1
    rw [if_neg (by omega), Function.update_of_ne (show k + 1 + 1 - 1 ≠ 0 by omega), map_zero, inner_zero_right]
  · unfold setEntry
    rfl

open Polynomial in
/-- The eigenvalues of a diagonal matrix with one element other than zero. -/
theorem one_level {m : ℕ} {E : ℝ} (hE : E ≠ 0) {e : Fin (m + 1) → ℂ}
    (he : (Matrix.diagonal fun i : Fin (m + 1) => if i = 0 then (E : ℂ) else 0).charpoly = ∏ i, (X - C (e i))) :
    ∃ k, e k = E ∧ ∀ i, i ≠ k → e i = 0 := by
  rw [Matrix.charpoly_diagonal] at he
  have hr : ∀ d : Fin (m + 1) → ℂ, (∏ i, (X - C (d i))).roots = Finset.univ.val.map d := by
    intro d
    rw [Polynomial.roots_prod _ _ (Finset.prod_ne_zero_iff.2 fun i _ => X_sub_C_ne_zero _)]
    simp
  have h1 := congrArg Polynomial.roots he
  rw [hr, hr] at h1
  have hcases : ∀ i, e i = E ∨ e i = 0 := by
    intro i
    have : e i ∈ Finset.univ.val.map e := Multiset.mem_map_of_mem e (Finset.mem_univ i)
    rw [← h1] at this
    obtain ⟨j, _, hj⟩ := Multiset.mem_map.1 this
    by_cases h0 : j = 0
    · left; rw [← hj, if_pos h0]
    · right; rw [← hj, if_neg h0]
  have hk : ∃ k, e k = E := by
    have : (E : ℂ) ∈ Finset.univ.val.map (fun i : Fin (m + 1) => if i = 0 then (E : ℂ) else 0) :=
      Multiset.mem_map.2 ⟨(0 : Fin (m + 1)), Finset.mem_univ (0 : Fin (m + 1)), if_pos rfl⟩
    rw [h1] at this
    obtain ⟨j, _, hj⟩ := Multiset.mem_map.1 this
    exact ⟨j, hj⟩
  obtain ⟨k, hk⟩ := hk
  refine ⟨k, hk, fun i hi => (hcases i).resolve_left fun hiE => ?_⟩
  have hsum : ∑ i, e i = E := by
    have := congrArg Multiset.sum h1
    have h2 : (Finset.univ.val.map e).sum = ∑ i, e i := rfl
    rw [h2] at this
    rw [← this]
    show ∑ i : Fin (m + 1), (if i = 0 then (E : ℂ) else 0) = E
    simp
  let x : Fin (m + 1) → ℝ := fun i => (e i).re / E
  have hx0 : ∀ j, 0 ≤ x j := by
    intro j
    rcases hcases j with h | h
    · simp [x, h, hE]
    · simp [x, h]
  have hxs : ∑ j, x j = 1 := by
    simp only [x]
    rw [← Finset.sum_div, ← Complex.re_sum, hsum, Complex.ofReal_re, div_self hE]
  have h3 : ∑ j ∈ {i, k}, x j ≤ ∑ j, x j := Finset.sum_le_sum_of_subset_of_nonneg (Finset.subset_univ _) fun j _ _ => hx0 j
  rw [Finset.sum_pair hi, hxs] at h3
  simp only [x, hiE, hk, Complex.ofReal_re, div_self hE] at h3
  norm_num at h3

/-- C279 (violated): if the initial wave function is an eigenfunction with an energy other than zero, `order` functions are written
although only one is found.  One is the initial wave function with its energy, up to a factor; the others are zero, with the
energy zero, whatever the eigenvalues of the Hamiltonian are.  The vectors of the basis that were never set are memory with undefined
content (src/qdlib/WFBuffer.cpp:275-276); here they are zero. -/
theorem C279_violated_eigenfunction (L : Solver) (H : V →ₗ[ℂ] V) (maxorder : ℕ) (ho : 3 ≤ maxorder) (conv dt : ℝ) (ψ0 : V) (h0 : ψ0 ≠ 0)
    (E : ℝ) (hE0 : E ≠ 0) (hE : H ψ0 = (E : ℂ) • ψ0) :
    ∃ r, run L H (.arnoldi maxorder conv) dt (fun _ => 0) ψ0 = .found r ∧ r.n = maxorder ∧
      ∃ k < r.n, r.en k = E ∧ (∃ c : ℂ, r.fn k = c • ψ0 ∧ ‖r.fn k‖ = 1) ∧ ∀ i < r.n, i ≠ k → r.en i = 0 ∧ r.fn i = 0 := by
  obtain ⟨hn, hc, hsp, he4⟩ := unit_facts H h0
  have hrun : run L H (.arnoldi maxorder conv) dt (fun _ => 0) ψ0 =
      .found (lanczosEF L H maxorder dt conv (fun _ => 0) (((1 / ‖ψ0‖ : ℝ) : ℂ) • ψ0)) := by
    unfold run QDng.Eigen.normalize
    simp only [if_neg (show ¬ maxorder < 3 by omega), if_neg h0]
  set ψ := ((1 / ‖ψ0‖ : ℝ) : ℂ) • ψ0 with hψ
  have hEψ : H ψ = (E : ℂ) • ψ := by rw [hψ, map_smul, hE, smul_comm]
  have hin : (inner ℂ ψ (H ψ) : ℂ) = E := by
    rw [hEψ, inner_smul_right, inner_self_eq_norm_sq_to_K, hn]
    simp
  have hres : ‖H ψ - (inner ℂ ψ (H ψ) : ℂ) • ψ‖ < underrun := by
    rw [hin, hEψ, sub_self, norm_zero]
    exact underrun_pos
  refine ⟨_, hrun, ?_⟩
  obtain ⟨m, rfl⟩ : ∃ m, maxorder = m + 1 := ⟨maxorder - 1, by omega⟩
  unfold lanczosEF
  generalize hs : arBuild H (m + 1) dt conv (fun _ => 0) (m + 1) ψ = s
  rw [build_eigen (show 2 ≤ m by omega) hres] at hs
  subst hs
  simp only
  set A := haMat (m + 1) (fun i j => if i = 0 ∧ j = 0 then (inner ℂ ψ (H ψ) : ℂ) else 0) with hAdef
  have hA : A = Matrix.diagonal fun i : Fin (m + 1) => if i = 0 then (E : ℂ) else 0 := by
    ext i j
    rw [hAdef, haMat, hin, Matrix.diagonal_apply]
    simp only [Fin.val_eq_zero_iff]
    by_cases h1 : i = j
    · subst h1; simp
    · rw [if_neg h1, if_neg (fun h => h1 (by rw [h.1, h.2]))]
  obtain ⟨k, hk, hoth⟩ := one_level hE0 (e := L.eval (m + 1) A) (by rw [← hA]; exact L.roots _ _)
  set Z := normCols (L.evec (m + 1) A) with hZ
  have heig : A * Z = Z * Matrix.diagonal (L.eval (m + 1) A) := normCols_eigen (L.eigen _ _)
  have hunit : ∀ c, ∑ r, ‖Z r c‖ ^ 2 = 1 := fun c => normCols_unit (L.nonzero _ _ c)
  have hrow : ∀ j i, (if j = 0 then (E : ℂ) else 0) * Z j i = Z j i * L.eval (m + 1) A i := by
    intro j i
    have := congrFun (congrFun heig j) i
    rw [Matrix.mul_diagonal] at this
    rw [← this, hA, Matrix.diagonal_mul]
  have hfn : ∀ i : Fin (m + 1), ritzFn (Function.update (fun _ => 0) 0 ψ) Z i = Z 0 i • ψ := by
    intro i
    rw [ritzFn_eq, Finset.sum_eq_single 0]
    · simp
    · intro j _ hj
      rw [Function.update_of_ne (show (j : ℕ) ≠ 0 from fun h => hj (Fin.ext h)), smul_zero]
    · simp
  have hEc : (E : ℂ) ≠ 0 := by exact_mod_cast hE0
  refine ⟨trivial, k, k.isLt, ?_, ⟨Z 0 k * ((1 / ‖ψ0‖ : ℝ) : ℂ), ?_, ?_⟩, fun i hi hik => ?_⟩
  · unfold realAt
    rw [dif_pos k.isLt]
    simp only [Fin.eta, hk, Complex.ofReal_re]
  · rw [hfn, hψ, smul_smul]
  · rw [hfn, norm_smul, hn, mul_one]
    have h1 := hunit k
    rw [Finset.sum_eq_single 0] at h1
    · exact (pow_eq_one_iff_of_nonneg (norm_nonneg _) two_ne_zero).1 h1
    · intro j _ hj
      have h2 := hrow j k
      rw [if_neg hj, zero_mul, hk] at h2
      rw [(mul_eq_zero.1 h2.symm).resolve_right hEc]
      simp
    · simp
  · have hne : (⟨i, hi⟩ : Fin (m + 1)) ≠ k := fun h => hik (congrArg Fin.val h)
    have h1 := hoth ⟨i, hi⟩ hne
    constructor
    · unfold realAt
      rw [dif_pos hi, h1, Complex.zero_re]
    · have h2 := hrow 0 ⟨i, hi⟩
      rw [if_pos rfl, h1, mul_zero] at h2
      have h3 := hfn ⟨i, hi⟩
      simp only at h3
      rw [h3, (mul_eq_zero.1 h2).resolve_left hEc, zero_smul]

end QDng.RitzEf
