import Verif.Eigen.Lemmas
import Mathlib.Analysis.InnerProductSpace.PiL2

/-
C99: eigenfunctions from the autocorrelation function.
-/

namespace QDng.Eigen

open scoped BigOperators ComplexConjugate

variable {V : Type} [NormedAddCommGroup V] [InnerProductSpace ℂ V]

/-! ### Roots of unity -/

/-- `exp (2πi m s / N)`. -/
noncomputable def ph (N : Nat) (m : ℤ) (s : Nat) : ℂ := Complex.exp (2 * Real.pi * Complex.I * m * s / N)

theorem ph_mul (N : Nat) (m m' : ℤ) (s : Nat) : ph N m s * ph N m' s = ph N (m + m') s := by
  unfold ph
  rw [← Complex.exp_add]
  congr 1
  push_cast
  ring

theorem ph_conj (N : Nat) (m : ℤ) (s : Nat) : conj (ph N m s) = ph N (-m) s := by
  unfold ph
  rw [← Complex.exp_conj]
  congr 1
  simp only [map_div₀, map_mul, Complex.conj_ofReal, Complex.conj_I, map_ofNat, map_natCast, map_intCast]
  push_cast
  ring

theorem ph_pow (N : Nat) (m : ℤ) (s : Nat) : ph N m s = ph N m 1 ^ s := by
  unfold ph
  rw [← Complex.exp_nat_mul]
  congr 1
  push_cast
  ring

theorem ph_zero (N : Nat) (s : Nat) : ph N 0 s = 1 := by
  unfold ph; simp

theorem ph_dvd (N : Nat) (hN : 0 < N) (m : ℤ) : ph N m 1 = 1 ↔ (N : ℤ) ∣ m := by
  have hN' : (N : ℂ) ≠ 0 := Nat.cast_ne_zero.2 hN.ne'
  unfold ph
  rw [Complex.exp_eq_one_iff]
  constructor
  · rintro ⟨n, hn⟩
    refine ⟨n, ?_⟩
    have h1 : (2 * Real.pi * Complex.I) * ((m : ℂ) - N * n) = 0 := by
      field_simp at hn
      push_cast at hn
      linear_combination (2 * (Real.pi : ℂ) * Complex.I) * hn
    rcases mul_eq_zero.1 h1 with h2 | h2
    · exact absurd h2 Complex.two_pi_I_ne_zero
    · have h3 : (m : ℂ) = ((N * n : ℤ) : ℂ) := by push_cast; linear_combination h2
      exact_mod_cast h3
  · rintro ⟨n, rfl⟩
    refine ⟨n, ?_⟩
    push_cast
    field_simp

theorem sum_ph (N : Nat) (hN : 0 < N) (m : ℤ) :
    ∑ s ∈ Finset.range N, ph N m s = if (N : ℤ) ∣ m then (N : ℂ) else 0 := by
  have h1 : ∑ s ∈ Finset.range N, ph N m s = ∑ s ∈ Finset.range N, ph N m 1 ^ s :=
    Finset.sum_congr rfl fun s _ => ph_pow N m s
  rw [h1]
  split
  · next h => rw [(ph_dvd N hN m).2 h]; simp
  · next h =>
    have hne : ph N m 1 ≠ 1 := fun e => h ((ph_dvd N hN m).1 e)
    rw [geom_sum_eq hne]
    have : ph N m 1 ^ N = 1 := by
      rw [← ph_pow]
      unfold ph
      rw [Complex.exp_eq_one_iff]
      have hN' : (N : ℂ) ≠ 0 := Nat.cast_ne_zero.2 hN.ne'
      exact ⟨m, by field_simp⟩
    rw [this, sub_self, zero_div]

/-! ### The functions of the propagation -/

/-- The setting of the theorems: the initial function is a combination of orthonormal eigenfunctions `φ k` of the Hamiltonian with
energies `E k`, the propagator multiplies each with `exp (-i E dt)`, and the energies are multiples `m k` of the resolution
`2π / (N dt)` of the spectrum in its range. -/
structure Spectral {ι : Type} [Fintype ι] (N : Nat) (dt : ℝ) (H U : V →ₗ[ℂ] V) (ψ0 : V) (φ : ι → V) (c : ι → ℂ) (E : ι → ℝ)
    (m : ι → ℤ) : Prop where
  on : Orthonormal ℂ φ
  hH : ∀ k, H (φ k) = (E k : ℂ) • φ k
  hU : ∀ k, U (φ k) = Complex.exp (-(Complex.I * (E k * dt : ℝ))) • φ k
  dec : ψ0 = ∑ k, c k • φ k
  grid : ∀ k, E k = m k * (2 * Real.pi / (dt * N))
  lo : ∀ k, -((N - N / 2 : Nat) : ℤ) ≤ m k
  hi : ∀ k, m k < ((N / 2 : Nat) : ℤ)

section

variable {ι : Type} [Fintype ι] {N : Nat} {dt : ℝ} {H U : V →ₗ[ℂ] V} {ψ0 : V} {φ : ι → V} {c : ι → ℂ} {E : ι → ℝ} {m : ι → ℤ}

theorem phase_ph (hN : 0 < N) (hdt : dt ≠ 0) (mm : ℤ) (s : Nat) :
    Complex.exp (Complex.I * ((mm * (2 * Real.pi / (dt * N))) * s * dt : ℝ)) = ph N mm s := by
  have hN' : (N : ℂ) ≠ 0 := Nat.cast_ne_zero.2 hN.ne'
  have hd : (dt : ℂ) ≠ 0 := fun h => hdt (Complex.ofReal_injective h)
  unfold ph
  congr 1
  push_cast
  field_simp

theorem traj_eq (h : Spectral N dt H U ψ0 φ c E m) (hN : 0 < N) (hdt : dt ≠ 0) (s : Nat) :
    propagated U ψ0 s = ∑ k, (c k * ph N (-m k) s) • φ k := by
  induction s with
  | zero =>
    rw [propagated, h.dec]
    refine Finset.sum_congr rfl fun k _ => ?_
    unfold ph; simp
  | succ s ih =>
    rw [propagated, ih, map_sum]
    refine Finset.sum_congr rfl fun k _ => ?_
    rw [map_smul, h.hU, smul_smul]
    congr 1
    have h1 : Complex.exp (-(Complex.I * (E k * dt : ℝ))) = ph N (-m k) 1 := by
      rw [← phase_ph hN hdt, h.grid]
      congr 1
      push_cast
      ring
    rw [h1, mul_assoc, ph_pow N (-m k) s, ← pow_succ, ← ph_pow]

theorem autocorr_eq (h : Spectral N dt H U ψ0 φ c E m) (hN : 0 < N) (hdt : dt ≠ 0) (h0 : ‖ψ0‖ = 1) (s : Nat) :
    autocorr (propagated U ψ0) s = ∑ k, ((‖c k‖ ^ 2 : ℝ) : ℂ) * ph N (m k) s := by
  have hg : inner ℂ (propagated U ψ0 s) (propagated U ψ0 0) = ∑ k, ((‖c k‖ ^ 2 : ℝ) : ℂ) * ph N (m k) s := by
    rw [traj_eq h hN hdt s, traj_eq h hN hdt 0, h.on.inner_sum]
    refine Finset.sum_congr rfl fun k _ => ?_
    rw [map_mul, ph_conj, neg_neg]
    have : ph N (-m k) 0 = 1 := by unfold ph; simp
    rw [this, mul_one]
    have h2 : conj (c k) * c k = ((‖c k‖ ^ 2 : ℝ) : ℂ) := by
      rw [mul_comm, Complex.mul_conj, Complex.normSq_eq_norm_sq]
    rw [← h2]
    ring
  unfold autocorr
  split
  · next hs =>
    subst hs
    rw [← hg]
    show (1 : ℂ) = inner ℂ ψ0 ψ0
    rw [inner_self_eq_norm_sq_to_K, h0]
    norm_num
  · exact hg

theorem list_sum_range {M : Type} [AddCommMonoid M] (f : Nat → M) (n : Nat) :
    ((List.range n).map f).sum = ∑ s ∈ Finset.range n, f s := by
  induction n with
  | zero => rfl
  | succ n ih => rw [List.range_succ, List.map_append, List.sum_append, ih, Finset.sum_range_succ]; simp

theorem dft_eq (h : Spectral N dt H U ψ0 φ c E m) (hN : 0 < N) (hdt : dt ≠ 0) (h0 : ‖ψ0‖ = 1) (k : Nat) :
    dft N (autocorr (propagated U ψ0)) k = ∑ j, if (N : ℤ) ∣ m j - k then ((N * ‖c j‖ ^ 2 : ℝ) : ℂ) else 0 := by
  unfold dft
  rw [list_sum_range]
  have h1 : ∀ s : Nat, Complex.exp (-(2 * Real.pi * Complex.I * s * k / N)) = ph N (-k) s := by
    intro s
    unfold ph
    congr 1
    push_cast
    ring
  have h2 : ∀ s ∈ Finset.range N, autocorr (propagated U ψ0) s * Complex.exp (-(2 * Real.pi * Complex.I * s * k / N)) =
      ∑ j, ((‖c j‖ ^ 2 : ℝ) : ℂ) * ph N (m j - k) s := by
    intro s _
    rw [autocorr_eq h hN hdt h0, h1, Finset.sum_mul]
    refine Finset.sum_congr rfl fun j _ => ?_
    rw [mul_assoc, ph_mul, ← sub_eq_add_neg]
  rw [Finset.sum_congr rfl h2, Finset.sum_comm]
  refine Finset.sum_congr rfl fun j _ => ?_
  rw [← Finset.mul_sum, sum_ph N hN]
  split
  · push_cast; ring
  · rw [mul_zero]

theorem integrate_eq (E : ℝ) (traj : Nat → V) : ∀ (n s : Nat) (ψ : V), integrate dt E traj n s ψ =
    ψ + ∑ i ∈ Finset.range n, Complex.exp (Complex.I * (E * (s + i : Nat) * dt : ℝ)) • traj (s + i) := by
  intro n
  induction n with
  | zero => intro s ψ; simp [integrate]
  | succ n ih =>
    intro s ψ
    rw [integrate, ih, Finset.sum_range_succ', add_assoc, add_zero, add_comm (Finset.sum _ _)]
    congr 2
    refine Finset.sum_congr rfl fun i _ => ?_
    rw [show s + 1 + i = s + (i + 1) by omega]

theorem integrate_spec (h : Spectral N dt H U ψ0 φ c E m) (hN : 0 < N) (hdt : dt ≠ 0) (mm : ℤ) (e : ℝ)
    (he : e = mm * (2 * Real.pi / (dt * N))) :
    integrate dt e (propagated U ψ0) (N - 1) 1 (propagated U ψ0 0) =
      ∑ j, (if (N : ℤ) ∣ mm - m j then (N : ℂ) * c j else 0) • φ j := by
  have h1 : integrate dt e (propagated U ψ0) (N - 1) 1 (propagated U ψ0 0) =
      ∑ s ∈ Finset.range N, ph N mm s • propagated U ψ0 s := by
    rw [integrate_eq]
    obtain ⟨n, rfl⟩ : ∃ n, N = n + 1 := ⟨N - 1, by omega⟩
    rw [Nat.add_sub_cancel, Finset.sum_range_succ', add_comm]
    congr 1
    · refine Finset.sum_congr rfl fun i _ => ?_
      rw [he, phase_ph hN hdt, Nat.add_comm 1 i]
    · have : ph (n + 1) mm 0 = 1 := by unfold ph; simp
      rw [this, one_smul]
  rw [h1]
  have h2 : ∀ s ∈ Finset.range N, ph N mm s • propagated U ψ0 s = ∑ j, (c j * ph N (mm - m j) s) • φ j := by
    intro s _
    rw [traj_eq h hN hdt, Finset.smul_sum]
    refine Finset.sum_congr rfl fun j _ => ?_
    rw [smul_smul]
    congr 1
    rw [mul_left_comm, ph_mul, ← sub_eq_add_neg]
  rw [Finset.sum_congr rfl h2, Finset.sum_comm]
  refine Finset.sum_congr rfl fun j _ => ?_
  rw [← Finset.sum_smul, ← Finset.mul_sum, sum_ph N hN]
  congr 1
  split
  · ring
  · rw [mul_zero]

/-! ### Peaks -/

theorem power_length (N : Nat) (traj : Nat → V) : (power N traj).length = N := by
  unfold power; simp

theorem power_getD (N : Nat) (traj : Nat → V) (i : Nat) (hi : i < N) : (power N traj).getD i 0 = ‖dft N (autocorr traj) i‖ := by
  unfold power
  simp [List.getD_eq_getElem?_getD, List.getElem?_map, List.getElem?_range hi]

theorem power_nonneg (N : Nat) (traj : Nat → V) : ∀ x ∈ power N traj, 0 ≤ x := by
  intro x hx
  unfold power at hx
  obtain ⟨k, _, rfl⟩ := List.mem_map.1 hx
  exact norm_nonneg _

theorem part_subset (l : List ℝ) (b e : Nat) : ∀ x ∈ Peak.Spec.part l b e, x ∈ l := by
  intro x hx
  unfold Peak.Spec.part at hx
  exact List.mem_of_mem_drop (List.mem_of_mem_take hx)

theorem peaks_pos (tol : ℝ) (ht : 0 ≤ tol) (width : Option Nat) (hw : ∀ w, width = some w → 0 < w) (N : Nat) (traj : Nat → V) (k : Int)
    (hk : k ∈ peaks tol width (power N traj)) : ∃ i : Nat, k = i ∧ i < N ∧ dft N (autocorr traj) i ≠ 0 := by
  have hfin : ∀ i : Nat, i < N → 0 < (power N traj).getD i 0 → dft N (autocorr traj) i ≠ 0 := by
    intro i hi h
    rw [power_getD N traj i hi] at h
    exact norm_pos_iff.1 h
  cases width with
  | none =>
    obtain ⟨i, h1, h2, h3⟩ := Peak.C96_inside_partial Real.sqrt Real.sqrt_nonneg tol ht _ (power_nonneg N traj) k hk
    rw [power_length] at h2
    refine ⟨i, h1, h2, hfin i h2 (lt_of_le_of_lt ?_ h3)⟩
    exact add_nonneg (Peak.average_nonneg _ (power_nonneg N traj)) (mul_nonneg ht (Real.sqrt_nonneg _))
  | some w =>
    obtain ⟨i, hi, rfl⟩ := List.mem_map.1 hk
    have := ((Peak.C97_window_partial Real.sqrt tol w (hw w rfl) (power N traj)).2 i).1 hi
    obtain ⟨h1, h2⟩ := this
    have h3 := h1.2.1
    rw [power_length] at h3
    refine ⟨i, rfl, by omega, hfin i (by omega) (lt_of_le_of_lt ?_ h2)⟩
    exact add_nonneg (Peak.average_nonneg _ fun x hx => power_nonneg N traj x (part_subset _ _ _ x hx))
      (mul_nonneg ht (Real.sqrt_nonneg _))

/-- The multiple that belongs to an index. -/
def fold (N : Nat) (i : Nat) : ℤ := if (i : ℤ) < ((N / 2 : Nat) : ℤ) then i else i - N

theorem energyOf_fold (cdt : ℝ) (cs N i : Nat) : energyOf cdt cs N i = fold N i * (2 * Real.pi / (cdt * cs)) := by
  unfold energyOf fold
  split <;> norm_num

theorem fold_unique (N i : Nat) (hi : i < N) (mm : ℤ) (hlo : -((N - N / 2 : Nat) : ℤ) ≤ mm) (hhi : mm < ((N / 2 : Nat) : ℤ))
    (hd : (N : ℤ) ∣ mm - i) : mm = fold N i := by
  obtain ⟨q, hq⟩ := hd
  unfold fold
  have hN : (0 : ℤ) < N := by omega
  have h1 : N / 2 ≤ N := Nat.div_le_self _ _
  have hq1 : q < 1 := by
    by_contra hc
    have : (N : ℤ) * 1 ≤ N * q := mul_le_mul_of_nonneg_left (by omega) hN.le
    omega
  have hq2 : -2 < q := by
    by_contra hc
    have : (N : ℤ) * q ≤ N * (-2) := mul_le_mul_of_nonneg_left (by omega) hN.le
    omega
  have : q = 0 ∨ q = -1 := by omega
  rcases this with rfl | rfl
  · split <;> omega
  · split <;> omega

theorem range_unique (N : Nat) (a b : ℤ) (ha : -((N - N / 2 : Nat) : ℤ) ≤ a) (ha' : a < ((N / 2 : Nat) : ℤ))
    (hb : -((N - N / 2 : Nat) : ℤ) ≤ b) (hb' : b < ((N / 2 : Nat) : ℤ)) (hd : (N : ℤ) ∣ a - b) : a = b := by
  obtain ⟨q, hq⟩ := hd
  have h1 : N / 2 ≤ N := Nat.div_le_self _ _
  have hN : (0 : ℤ) < N := by omega
  have hq1 : q < 1 := by
    by_contra hc
    have : (N : ℤ) * 1 ≤ N * q := mul_le_mul_of_nonneg_left (by omega) hN.le
    omega
  have hq2 : -1 < q := by
    by_contra hc
    have : (N : ℤ) * q ≤ N * (-1) := mul_le_mul_of_nonneg_left (by omega) hN.le
    omega
  have : q = 0 := by omega
  subst this
  omega

/-- **C99** (the spectrum).  The spectrum has at each index the weight of the eigenfunctions whose energy belongs to that index, times
the number of steps; it vanishes elsewhere. -/
theorem C99_spectrum (h : Spectral N dt H U ψ0 φ c E m) (hN : 0 < N) (hdt : dt ≠ 0) (h0 : ‖ψ0‖ = 1) (i : Nat) (hi : i < N) :
    (power N (propagated U ψ0)).getD i 0 = ∑ k, if E k = energyOf dt N N i then N * ‖c k‖ ^ 2 else 0 := by
  have hdw : (2 * Real.pi / (dt * N)) ≠ 0 := by
    apply div_ne_zero (mul_ne_zero two_ne_zero Real.pi_ne_zero) (mul_ne_zero hdt _)
    exact Nat.cast_ne_zero.2 hN.ne'
  rw [power_getD N _ i hi, dft_eq h hN hdt h0]
  have h1 : ∀ k, (if (N : ℤ) ∣ m k - i then ((N * ‖c k‖ ^ 2 : ℝ) : ℂ) else 0) =
      ((if E k = energyOf dt N N i then N * ‖c k‖ ^ 2 else 0 : ℝ) : ℂ) := by
    intro k
    have hiff : (N : ℤ) ∣ m k - i ↔ E k = energyOf dt N N i := by
      rw [energyOf_fold, h.grid]
      constructor
      · intro hd; rw [fold_unique N i hi (m k) (h.lo k) (h.hi k) hd]
      · intro he
        have := mul_right_cancel₀ hdw he
        have h2 : m k = fold N i := by exact_mod_cast this
        rw [h2]
        unfold fold
        split
        · simp
        · exact ⟨-1, by ring⟩
    by_cases hk : (N : ℤ) ∣ m k - i
    · rw [if_pos hk, if_pos (hiff.1 hk)]
    · rw [if_neg hk, if_neg (fun e => hk (hiff.2 e)), Complex.ofReal_zero]
  rw [Finset.sum_congr rfl fun k _ => h1 k, ← Complex.ofReal_sum, Complex.norm_real, Real.norm_eq_abs, abs_of_nonneg]
  refine Finset.sum_nonneg fun k _ => ?_
  split
  · positivity
  · exact le_refl _

/-- What one index delivers. -/
theorem extract_spec (h : Spectral N dt H U ψ0 φ c E m) (hN : 0 < N) (hdt : dt ≠ 0) (h0 : ‖ψ0‖ = 1) (i : Nat) (hi : i < N)
    (hne : dft N (autocorr (propagated U ψ0)) i ≠ 0) :
    ∃ k, c k ≠ 0 ∧ m k = fold N i ∧ ∃ ψ, extract dt N dt N H (propagated U ψ0) i = (E k, some ψ, some (E k)) ∧ ‖ψ‖ = 1 ∧
      H ψ = (E k : ℂ) • ψ := by
  rw [dft_eq h hN hdt h0] at hne
  obtain ⟨k, _, hk⟩ := Finset.exists_ne_zero_of_sum_ne_zero hne
  have hd : (N : ℤ) ∣ m k - i := by
    by_contra hc
    rw [if_neg hc] at hk
    exact hk rfl
  rw [if_pos hd] at hk
  have hck : c k ≠ 0 := by
    intro e
    rw [e] at hk
    simp at hk
  have hm : m k = fold N i := fold_unique N i hi (m k) (h.lo k) (h.hi k) hd
  have hE : energyOf dt N N i = E k := by rw [energyOf_fold, ← hm, h.grid]
  have hint := integrate_spec h hN hdt (m k) (E k) (h.grid k)
  generalize hx : integrate dt (E k) (propagated U ψ0) (N - 1) 1 (propagated U ψ0 0) = x at hint
  have hNc : (N : ℂ) ≠ 0 := Nat.cast_ne_zero.2 hN.ne'
  have hx0 : x ≠ 0 := by
    intro e
    have h1 := h.on.inner_right_fintype (fun j => if (N : ℤ) ∣ m k - m j then (N : ℂ) * c j else 0) k
    rw [← hint, e, inner_zero_right, if_pos (by simp)] at h1
    exact mul_ne_zero hNc hck h1.symm
  have hHx : H x = (E k : ℂ) • x := by
    rw [hint, map_sum, Finset.smul_sum]
    refine Finset.sum_congr rfl fun j _ => ?_
    rw [map_smul]
    by_cases hj : (N : ℤ) ∣ m k - m j
    · have : m k = m j := range_unique N _ _ (h.lo k) (h.hi k) (h.lo j) (h.hi j) hj
      have hEj : E j = E k := by rw [h.grid, h.grid, this]
      rw [h.hH, hEj, smul_comm]
    · rw [if_neg hj, zero_smul, zero_smul, smul_zero]
  have hnx : normalize x = some (((1 / ‖x‖ : ℝ) : ℂ) • x) := by
    unfold normalize
    rw [if_neg hx0]
  refine ⟨k, hck, hm, ((1 / ‖x‖ : ℝ) : ℂ) • x, ?_, ?_, ?_⟩
  · show (energyOf dt N N i, normalize (integrate dt (energyOf dt N N i) (propagated U ψ0) (N - 1) 1 (propagated U ψ0 0)),
        (normalize (integrate dt (energyOf dt N N i) (propagated U ψ0) (N - 1) 1 (propagated U ψ0 0))).map (expec H)) = _
    rw [hE, hx, hnx]
    have he : expec H (((1 / ‖x‖ : ℝ) : ℂ) • x) = E k := by
      have h1 := normalize_norm x _ hnx
      unfold expec
      rw [map_smul, hHx, smul_comm, inner_smul_right, h1, mul_one, Complex.ofReal_re]
    simp only [Option.map_some, he]
  · rw [norm_smul, Complex.norm_real, Real.norm_eq_abs, abs_of_nonneg (by positivity), one_div,
      inv_mul_cancel₀ (norm_ne_zero_iff.2 hx0)]
  · rw [map_smul, hHx, smul_comm]

/-- **C99** (sound, partial).  Let the initial function be normalized and a combination of eigenfunctions whose energies lie on the grid
of the spectrum, and let no window function be used.  Then every result is an eigenfunction: the estimate of the energy is an eigenvalue
that takes part in the initial function, the function is a normalized eigenfunction for it, and the energy reported is that eigenvalue.
This holds for every tolerance and both ways to look for peaks. -/
theorem C99_eigenfunctions_partial (h : Spectral N dt H U ψ0 φ c E m) (hN : 0 < N) (hdt : dt ≠ 0) (h0 : ‖ψ0‖ = 1) (tol : ℝ) (ht : 0 ≤ tol)
    (width : Option Nat) (hw : ∀ w, width = some w → 0 < w) (r : ℝ × Option V × Option ℝ) (hr : r ∈ runAutocorr dt tol width N H U ψ0) :
    ∃ k, c k ≠ 0 ∧ r.1 = E k ∧ r.2.2 = some (E k) ∧ ∃ ψ, r.2.1 = some ψ ∧ ‖ψ‖ = 1 ∧ H ψ = (E k : ℂ) • ψ := by
  unfold runAutocorr autoCorrEF at hr
  obtain ⟨idx, hidx, rfl⟩ := List.mem_map.1 hr
  obtain ⟨i, rfl, hi, hne⟩ := peaks_pos tol ht width hw N _ idx hidx
  obtain ⟨k, h1, _, ψ, h2, h3, h4⟩ := extract_spec h hN hdt h0 i hi hne
  rw [h2]
  exact ⟨k, h1, rfl, rfl, ψ, rfl, h3, h4⟩

/-- **C99** (complete, partial).  An energy of that setting whose weight in the spectrum is above the threshold while the two
neighbours are below is found. -/
theorem C99_complete_partial (h : Spectral N dt H U ψ0 φ c E m) (hN : 0 < N) (hdt : dt ≠ 0) (h0 : ‖ψ0‖ = 1) (tol : ℝ) (ht : 0 ≤ tol)
    (i : Nat) (hi : i + 1 < N)
    (thr : ℝ) (hthr : thr = Peak.Spec.average (power N (propagated U ψ0)) +
      tol * Real.sqrt (Peak.Spec.variance (power N (propagated U ψ0))))
    (h1 : thr < (power N (propagated U ψ0)).getD i 0) (h2 : (power N (propagated U ψ0)).getD (i + 1) 0 < thr)
    (h3 : i = 0 ∨ (power N (propagated U ψ0)).getD (i - 1) 0 < thr) :
    ∃ k, m k = fold N i ∧ ∃ r ∈ runAutocorr dt tol none N H U ψ0, r.1 = E k ∧ r.2.2 = some (E k) := by
  have hpos : 0 ≤ thr := by
    rw [hthr]
    exact add_nonneg (Peak.average_nonneg _ (power_nonneg N _)) (mul_nonneg ht (Real.sqrt_nonneg _))
  have hmem : ((i : Nat) : Int) ∈ peaks tol none (power N (propagated U ψ0)) := by
    refine ((Peak.C96_peaks_partial Real.sqrt Real.sqrt_nonneg tol ht _ (power_nonneg N _)).2 i).2 ⟨i, rfl, i, i + 1, ?_⟩
    rw [← hthr, power_length]
    refine ⟨by omega, ⟨fun j hj hj2 => ?_, h3⟩, ⟨le_refl _, by omega, fun j hj hj2 => by omega, fun j hj hj2 => ?_⟩, h1,
      Or.inl ⟨hi, h2⟩⟩
    · rw [show j = i by omega]; exact h1.le
    · rw [show j = i by omega]
  have hne : dft N (autocorr (propagated U ψ0)) i ≠ 0 := by
    rw [power_getD N _ i (by omega)] at h1
    exact norm_pos_iff.1 (lt_of_le_of_lt hpos h1)
  obtain ⟨k, _, hm, ψ, e, _, _⟩ := extract_spec h hN hdt h0 i (by omega) hne
  refine ⟨k, hm, _, List.mem_map.2 ⟨i, hmem, rfl⟩, ?_, ?_⟩
  · rw [e]
  · rw [e]

/-- **C99** (violated for a propagation that is read from disk).  The estimate of the energy is wrong by the ratio of the total time of the
propagation and the one given in the input. -/
theorem C99_violated_read (h : Spectral N dt H U ψ0 φ c E m) (hN : 0 < N) (hdt : dt ≠ 0) (h0 : ‖ψ0‖ = 1) (tol : ℝ) (ht : 0 ≤ tol)
    (width : Option Nat) (hw : ∀ w, width = some w → 0 < w) (inputDt : ℝ) (inputSteps : Nat) (hi : inputDt * inputSteps ≠ 0)
    (r : ℝ × Option V × Option ℝ) (hr : r ∈ runRead inputDt inputSteps dt tol width N H (propagated U ψ0)) :
    ∃ k, c k ≠ 0 ∧ r.1 = E k * (dt * N / (inputDt * inputSteps)) := by
  unfold runRead autoCorrEF at hr
  obtain ⟨idx, hidx, rfl⟩ := List.mem_map.1 hr
  obtain ⟨i, rfl, hin, hne⟩ := peaks_pos tol ht width hw N _ idx hidx
  obtain ⟨k, h1, h2, _⟩ := extract_spec h hN hdt h0 i hin hne
  refine ⟨k, h1, ?_⟩
  show energyOf inputDt inputSteps N i = _
  rw [energyOf_fold, h.grid, h2]
  have hN' : (N : ℝ) ≠ 0 := Nat.cast_ne_zero.2 hN.ne'
  have : (inputDt : ℝ) ≠ 0 := left_ne_zero_of_mul hi
  have : (inputSteps : ℝ) ≠ 0 := right_ne_zero_of_mul hi
  field_simp

end

/-! ### An example: one state, four steps -/

/-- The energy of the example. -/
noncomputable def exE : ℝ := (1 : ℤ) * (2 * Real.pi / (1 * (4 : Nat)))

/-- The example meets the setting of C99. -/
theorem ex_spectral : Spectral (V := ℂ) (ι := Unit) 4 1 ((exE : ℂ) • LinearMap.id)
    (Complex.exp (-(Complex.I * (exE * 1 : ℝ))) • LinearMap.id) 1 (fun _ => 1) (fun _ => 1) (fun _ => exE) (fun _ => 1) where
  on := by
    rw [orthonormal_iff_ite]
    intro i j
    simp
  hH := fun _ => rfl
  hU := fun _ => rfl
  dec := by simp
  grid := fun _ => by simp only [exE]
  lo := fun _ => by norm_num
  hi := fun _ => by norm_num

theorem exE_ne : exE ≠ 0 := by
  unfold exE
  have := Real.pi_ne_zero
  norm_num

/-- The spectrum of the example. -/
theorem ex_power : power 4 (propagated ((Complex.exp (-(Complex.I * (exE * 1 : ℝ))) • LinearMap.id : ℂ →ₗ[ℂ] ℂ)) 1) = [0, 4, 0, 0] := by
  have hs : ∀ i < 4, (power 4 (propagated ((Complex.exp (-(Complex.I * (exE * 1 : ℝ))) • LinearMap.id : ℂ →ₗ[ℂ] ℂ)) 1)).getD i 0 =
      if i = 1 then 4 else 0 := by
    intro i hi
    rw [C99_spectrum ex_spectral (by norm_num) one_ne_zero (by simp) i hi]
    simp only [Finset.univ_unique, Finset.sum_singleton]
    have hd : (2 * Real.pi / (1 * ((4 : Nat) : ℝ))) ≠ 0 := by
      have := Real.pi_ne_zero
      norm_num
    have : exE = energyOf 1 4 4 i ↔ i = 1 := by
      rw [energyOf_fold]
      unfold exE
      constructor
      · intro e
        have := mul_right_cancel₀ hd e
        have h2 : (1 : ℤ) = fold 4 i := by exact_mod_cast this
        unfold fold at h2
        split at h2 <;> omega
      · rintro rfl
        congr 1
    by_cases h1 : i = 1
    · rw [if_pos (this.2 h1), if_pos h1]; norm_num
    · rw [if_neg (fun e => h1 (this.1 e)), if_neg h1]
  have hl := power_length 4 (propagated ((Complex.exp (-(Complex.I * (exE * 1 : ℝ))) • LinearMap.id : ℂ →ₗ[ℂ] ℂ)) 1)
  generalize power 4 (propagated ((Complex.exp (-(Complex.I * (exE * 1 : ℝ))) • LinearMap.id : ℂ →ₗ[ℂ] ℂ)) 1) = l at hs hl
  match l, hl with
  | [a, b, c, d], _ =>
    have h0 := hs 0 (by norm_num)
    have h1 := hs 1 (by norm_num)
    have h2 := hs 2 (by norm_num)
    have h3 := hs 3 (by norm_num)
    simp at h0 h1 h2 h3
    rw [h0, h1, h2, h3]

/-- The peaks of the example. -/
theorem ex_peaks : peaks 0 none [0, 4, 0, 0] = [1] := by
  have h1 : Peak.mean ([0, 4, 0, 0] : List ℝ) 0 4 = 1 := by
    simp [Peak.mean, Peak.sumLoop, Peak.item]
  show Peak.find Real.sqrt 0 [0, 4, 0, 0] = [1]
  unfold Peak.find Peak.threshold
  show Peak.findData (Peak.mean ([0, 4, 0, 0] : List ℝ) 0 4 + 0 * _) _ = _
  rw [h1, zero_mul, add_zero]
  simp [Peak.findData, Peak.findLoop, Peak.St.step, Peak.St.open', Peak.St.close, Peak.St.look, Peak.St.finish, Peak.item]
  norm_num

/-- Non-vacuity of C99: the calculation of the example has exactly one result, with the right energy. -/
example : ∃ ψ, runAutocorr (V := ℂ) 1 0 none 4 ((exE : ℂ) • LinearMap.id : ℂ →ₗ[ℂ] ℂ)
    (Complex.exp (-(Complex.I * (exE * 1 : ℝ))) • LinearMap.id : ℂ →ₗ[ℂ] ℂ) 1 = [(exE, some ψ, some exE)] := by
  unfold runAutocorr autoCorrEF
  rw [ex_power, ex_peaks]
  obtain ⟨k, _, _, ψ, h, _⟩ := extract_spec ex_spectral (by norm_num) one_ne_zero (by simp) 1 (by norm_num) (by
    have := power_getD 4 (propagated ((Complex.exp (-(Complex.I * (exE * 1 : ℝ))) • LinearMap.id : ℂ →ₗ[ℂ] ℂ)) 1) 1 (by norm_num)
    rw [ex_power] at this
    intro e
    rw [e, norm_zero] at this
    simp at this)
  exact ⟨ψ, congrArg (fun x => [x]) h⟩

/-- **C99** (violated, concrete).  The propagation of the example read from disk with `steps="8"` in the input: the one energy reported in
the spectrum is half of the eigenvalue. -/
theorem C99_violated_read_steps : (runRead (V := ℂ) 1 8 1 0 none 4 ((exE : ℂ) • LinearMap.id : ℂ →ₗ[ℂ] ℂ)
    (propagated (Complex.exp (-(Complex.I * (exE * 1 : ℝ))) • LinearMap.id : ℂ →ₗ[ℂ] ℂ) 1)).map Prod.fst = [exE / 2] ∧ exE / 2 ≠ exE := by
  constructor
  · unfold runRead autoCorrEF
    rw [ex_power, ex_peaks]
    show [energyOf 1 8 4 ((1 : Nat) : Int)] = _
    have : energyOf 1 8 4 ((1 : Nat) : Int) = exE / 2 := by
      rw [energyOf_fold]
      unfold exE fold
      norm_num
      ring
    rw [this]
  · have := exE_ne
    intro e
    apply this
    linarith

end QDng.Eigen
