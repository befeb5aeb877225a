import Mathlib.Algebra.BigOperators.Intervals
import Mathlib.Algebra.Order.BigOperators.Group.Finset
import Mathlib.RingTheory.RootsOfUnity.Complex
import Verif.OctFreq.Model

/-
Lemmas about the transformation of real data to the spectrum and back.
-/

namespace QDng.OctFreq

noncomputable section

/-- The base of the factors. -/
def w (N : Nat) : ℂ := Complex.exp (-(2 * Real.pi * Complex.I / N))

theorem w_prim {N : Nat} (hN : 0 < N) : IsPrimitiveRoot (w N) N := by
  have h := (Complex.isPrimitiveRoot_exp N (by omega)).inv
  rwa [← Complex.exp_neg] at h

theorem conj_w (N : Nat) : (starRingEnd ℂ) (w N) = (w N)⁻¹ := by
  rw [w, ← Complex.exp_conj, ← Complex.exp_neg]
  congr 1
  simp only [map_neg, map_div₀, map_mul, Complex.conj_ofReal, Complex.conj_I, map_natCast, map_ofNat]
  ring

theorem tw_eq (N j k : Nat) : tw N j k = (w N) ^ (j * k) := rfl

theorem tw_comm (N j k : Nat) : tw N j k = tw N k j := by rw [tw_eq, tw_eq, Nat.mul_comm]

theorem w_ne (N : Nat) : w N ≠ 0 := Complex.exp_ne_zero _

theorem conj_tw (N j k : Nat) : (starRingEnd ℂ) (tw N j k) = (tw N j k)⁻¹ := by
  rw [tw_eq, map_pow, conj_w, inv_pow]

/-- Orthogonality. -/
theorem tw_orth {N : Nat} (hN : 0 < N) (k l : Nat) (hk : k < N) (hl : l < N) :
    ∑ j ∈ Finset.range N, (starRingEnd ℂ) (tw N j l) * tw N j k = if l = k then (N : ℂ) else 0 := by
  have hz : ∀ j, (starRingEnd ℂ) (tw N j l) * tw N j k = ((w N) ^ k * ((w N) ^ l)⁻¹) ^ j := by
    intro j
    rw [conj_tw, tw_eq, tw_eq, mul_pow, inv_pow, ← pow_mul, ← pow_mul, Nat.mul_comm l j, Nat.mul_comm k j]
    ring
  rw [Finset.sum_congr rfl fun j _ => hz j]
  by_cases h : l = k
  · subst h
    rw [if_pos rfl, mul_inv_cancel₀ (pow_ne_zero _ (w_ne N))]
    simp
  · rw [if_neg h]
    have h1 : (w N) ^ k * ((w N) ^ l)⁻¹ ≠ 1 := by
      intro he
      have : (w N) ^ k = (w N) ^ l := by
        have := congrArg (· * (w N) ^ l) he
        simpa [mul_assoc, inv_mul_cancel₀ (pow_ne_zero l (w_ne N))] using this
      exact h ((w_prim hN).pow_inj hk hl this).symm
    have h2 := mul_geom_sum ((w N) ^ k * ((w N) ^ l)⁻¹) N
    have h3 : ((w N) ^ k * ((w N) ^ l)⁻¹) ^ N = 1 := by
      rw [mul_pow, inv_pow, ← pow_mul, ← pow_mul, Nat.mul_comm k, Nat.mul_comm l, pow_mul, pow_mul,
        (w_prim hN).pow_eq_one]
      simp
    rw [h3, sub_self] at h2
    exact (mul_eq_zero.1 h2).resolve_left (sub_ne_zero.2 h1)

/-- The factor of the mirrored component. -/
theorem tw_mirror {N : Nat} (hN : 0 < N) (j k : Nat) (hk : k ≤ N) : tw N j (N - k) = (starRingEnd ℂ) (tw N j k) := by
  rw [conj_tw]
  refine eq_inv_of_mul_eq_one_left ?_
  rw [tw_eq, tw_eq, ← pow_add, ← Nat.mul_add, Nat.sub_add_cancel hk, Nat.mul_comm, pow_mul, (w_prim hN).pow_eq_one,
    one_pow]

theorem r2c_mirror {N : Nat} (hN : 0 < N) (x : Nat → ℝ) (k : Nat) (hk : k ≤ N) :
    r2c N x (N - k) = (starRingEnd ℂ) (r2c N x k) := by
  unfold r2c
  rw [map_sum]
  refine Finset.sum_congr rfl fun j _ => ?_
  rw [tw_mirror hN j k hk, map_mul, Complex.conj_ofReal]

/-- The weight of a component `k < N`. -/
def ext (N : Nat) (m : Nat → ℝ) (k : Nat) : ℝ := if k ≤ N / 2 then m k else m (N - k)

theorem half_mul {N : Nat} (hN : 0 < N) (x : Nat → ℝ) (m : Nat → ℝ) (k : Nat) (hk : k < N) :
    half N (fun k => r2c N x k * (m k : ℂ)) k = r2c N x k * (ext N m k : ℂ) := by
  unfold half ext
  by_cases h : k ≤ N / 2
  · rw [if_pos h, if_pos h]
  · rw [if_neg h, if_neg h, map_mul, Complex.conj_ofReal]
    rw [r2c_mirror hN x k hk.le, Complex.conj_conj]

/-- A sum over the components does not change when each is replaced by the mirrored one. -/
theorem sum_mirror {N : Nat} (hN : 0 < N) (f : Nat → ℂ) (h0 : f N = f 0) :
    ∑ k ∈ Finset.range N, f (N - k) = ∑ k ∈ Finset.range N, f k := by
  obtain ⟨n, rfl⟩ : ∃ n, N = n + 1 := ⟨N - 1, by omega⟩
  rw [Finset.sum_range_succ' (fun k => f (n + 1 - k)), Finset.sum_range_succ' f]
  congr 1
  rw [← Finset.sum_range_reflect (fun k => f (k + 1)) n]
  refine Finset.sum_congr rfl fun k hk => ?_
  have := Finset.mem_range.1 hk
  congr 1
  omega

theorem tw_zero (N j : Nat) : tw N j 0 = 1 := by rw [tw_eq, Nat.mul_zero, pow_zero]

/-- What the transformation back gives is real. -/
theorem back_real {N : Nat} (hN : 0 < N) (x : Nat → ℝ) (m : Nat → ℝ) (j : Nat) :
    ((c2r N (fun k => r2c N x k * (m k : ℂ)) j : ℝ) : ℂ) =
      ∑ k ∈ Finset.range N, r2c N x k * (ext N m k : ℂ) * (starRingEnd ℂ) (tw N j k) := by
  have hs : ∑ k ∈ Finset.range N, half N (fun k => r2c N x k * (m k : ℂ)) k * (starRingEnd ℂ) (tw N j k) =
      ∑ k ∈ Finset.range N, r2c N x k * (ext N m k : ℂ) * (starRingEnd ℂ) (tw N j k) :=
    Finset.sum_congr rfl fun k hk => by rw [half_mul hN x m k (Finset.mem_range.1 hk)]
  unfold c2r
  rw [hs, ← Complex.conj_eq_iff_re, map_sum]
  -- the conjugate is the sum over the mirrored components
  let g : Nat → ℂ := fun k => if k = N then r2c N x 0 * (ext N m 0 : ℂ) * (starRingEnd ℂ) (tw N j 0)
    else r2c N x k * (ext N m k : ℂ) * (starRingEnd ℂ) (tw N j k)
  have hg : ∀ k ∈ Finset.range N, r2c N x k * (ext N m k : ℂ) * (starRingEnd ℂ) (tw N j k) = g k := fun k hk => by
    have := Finset.mem_range.1 hk
    show _ = if k = N then _ else _
    rw [if_neg (by omega)]
  rw [Finset.sum_congr rfl hg, ← sum_mirror hN g (by
    show (if N = N then _ else _) = if 0 = N then _ else _
    rw [if_pos rfl, if_neg (by omega)])]
  refine Finset.sum_congr rfl fun k hk => ?_
  have hk' := Finset.mem_range.1 hk
  by_cases h0 : k = 0
  · subst h0
    show _ = if N - 0 = N then _ else _
    rw [if_pos (Nat.sub_zero N), map_mul, map_mul, Complex.conj_ofReal, tw_zero]
    have : (starRingEnd ℂ) (r2c N x 0) = r2c N x 0 := by
      unfold r2c
      rw [map_sum]
      refine Finset.sum_congr rfl fun i _ => ?_
      rw [tw_zero, map_mul, Complex.conj_ofReal, map_one]
    rw [this]
    simp
  · show _ = if N - k = N then _ else _
    rw [if_neg (by omega), r2c_mirror hN x k hk'.le, tw_mirror hN j k hk'.le, map_mul, map_mul, Complex.conj_ofReal]
    congr 2
    have : ext N m (N - k) = ext N m k := by
      unfold ext
      by_cases h1 : k ≤ N / 2
      · rw [if_pos h1]
        by_cases h2 : N - k ≤ N / 2
        · rw [if_pos h2]; congr 1; omega
        · rw [if_neg h2]; congr 1; omega
      · rw [if_neg h1, if_pos (by omega)]
    rw [this]

/-- The spectrum of what the transformation back gives. -/
theorem r2c_back {N : Nat} (hN : 0 < N) (x : Nat → ℝ) (m : Nat → ℝ) (k : Nat) (hk : k < N) :
    r2c N (c2r N fun k => r2c N x k * (m k : ℂ)) k = N * (ext N m k : ℂ) * r2c N x k := by
  have h0 : r2c N (c2r N fun k => r2c N x k * (m k : ℂ)) k = ∑ j ∈ Finset.range N, ∑ l ∈ Finset.range N,
      r2c N x l * (ext N m l : ℂ) * (starRingEnd ℂ) (tw N j l) * tw N j k := by
    show ∑ j ∈ Finset.range N, _ * tw N j k = _
    refine Finset.sum_congr rfl fun j _ => ?_
    rw [back_real hN x m j, Finset.sum_mul]
  rw [h0, Finset.sum_comm]
  have h : ∀ l ∈ Finset.range N, ∑ j ∈ Finset.range N, r2c N x l * (ext N m l : ℂ) * (starRingEnd ℂ) (tw N j l) * tw N j k =
      if l = k then r2c N x k * (ext N m k : ℂ) * N else 0 := by
    intro l hl
    rw [Finset.sum_congr rfl fun j _ => mul_assoc (r2c N x l * (ext N m l : ℂ)) _ _, ← Finset.mul_sum,
      tw_orth hN k l hk (Finset.mem_range.1 hl)]
    split
    · next he => rw [he]
    · rw [mul_zero]
  rw [Finset.sum_congr rfl h, Finset.sum_ite_eq' (Finset.range N) k, if_pos (Finset.mem_range.2 hk)]
  ring

/-- Transformation and back. -/
theorem back_r2c {N : Nat} (hN : 0 < N) (x : Nat → ℝ) (j : Nat) (hj : j < N) :
    ∑ k ∈ Finset.range N, r2c N x k * (starRingEnd ℂ) (tw N j k) = N * (x j : ℂ) := by
  unfold r2c
  rw [Finset.sum_congr rfl fun k _ => Finset.sum_mul _ _ _, Finset.sum_comm]
  have h : ∀ i ∈ Finset.range N, ∑ k ∈ Finset.range N, (x i : ℂ) * tw N i k * (starRingEnd ℂ) (tw N j k) =
      if j = i then (x j : ℂ) * N else 0 := by
    intro i hi
    have := tw_orth hN i j (Finset.mem_range.1 hi) hj
    rw [Finset.sum_congr rfl fun k _ => show (x i : ℂ) * tw N i k * (starRingEnd ℂ) (tw N j k) =
      (x i : ℂ) * ((starRingEnd ℂ) (tw N k j) * tw N k i) by rw [tw_comm N i k, tw_comm N j k]; ring, ← Finset.mul_sum,
      this]
    split
    · next he => rw [he]
    · rw [mul_zero]
  rw [Finset.sum_congr rfl h, Finset.sum_ite_eq (Finset.range N) j, if_pos (Finset.mem_range.2 hj)]
  ring

theorem ext_low (N : Nat) (m : Nat → ℝ) (k : Nat) (hk : k ≤ N / 2) : ext N m k = m k := if_pos hk

theorem r2c_congr (N : Nat) (x y : Nat → ℝ) (h : ∀ j, j < N → x j = y j) (k : Nat) : r2c N x k = r2c N y k :=
  Finset.sum_congr rfl fun j hj => by rw [h j (Finset.mem_range.1 hj)]

/-- The spectrum behind a filter. -/
theorem filtered_spectrum {N : Nat} (hN : 0 < N) (m : Nat → ℝ) (x dst : Nat → ℝ) (k : Nat) (hk : k ≤ N / 2) :
    r2c N (filtered N (fun k => m k / N) x dst) k = (m k : ℂ) * r2c N x k := by
  have h : r2c N (filtered N (fun k => m k / N) x dst) k = r2c N (c2r N fun k => r2c N x k * ((m k / N : ℝ) : ℂ)) k :=
    r2c_congr N _ _ (fun j hj => if_pos hj) k
  rw [h, r2c_back hN x (fun k => m k / N) k (by omega), ext_low N _ k hk]
  push_cast
  rw [mul_div_cancel₀ _ (by exact_mod_cast hN.ne')]

/-- A filter that lets everything pass changes nothing. -/
theorem filtered_one {N : Nat} (m : Nat → ℝ) (hm : ∀ k, k ≤ N / 2 → m k = 1) (x : Nat → ℝ) :
    filtered N (fun k => m k / N) x x = x := by
  funext j
  unfold filtered
  split
  · next hj =>
    have hN : 0 < N := by omega
    have h := back_real hN x (fun k => m k / N) j
    have h2 : ∀ k ∈ Finset.range N, r2c N x k * ((ext N (fun k => m k / N) k : ℝ) : ℂ) * (starRingEnd ℂ) (tw N j k) =
        r2c N x k * (starRingEnd ℂ) (tw N j k) * (1 / N : ℂ) := by
      intro k hk
      have hk' := Finset.mem_range.1 hk
      have : ext N (fun k => m k / N) k = 1 / N := by
        unfold ext
        by_cases h1 : k ≤ N / 2
        · rw [if_pos h1]; simp only [hm k h1]
        · rw [if_neg h1]; simp only [hm (N - k) (by omega)]
      rw [this]
      push_cast
      ring
    rw [Finset.sum_congr rfl h2, ← Finset.sum_mul, back_r2c hN x j hj] at h
    have h3 : (N : ℂ) ≠ 0 := by exact_mod_cast hN.ne'
    rw [mul_comm (N : ℂ), mul_assoc, mul_one_div_cancel h3, mul_one] at h
    exact_mod_cast h
  · rfl

/-- A filter that lets nothing pass gives zero. -/
theorem filtered_zero {N : Nat} (m : Nat → ℝ) (hm : ∀ k, k ≤ N / 2 → m k = 0) (x dst : Nat → ℝ) (j : Nat) (hj : j < N) :
    filtered N (fun k => m k / N) x dst j = 0 := by
  unfold filtered
  rw [if_pos hj]
  have hN : 0 < N := by omega
  have h := back_real hN x (fun k => m k / N) j
  have h2 : ∀ k ∈ Finset.range N, r2c N x k * ((ext N (fun k => m k / N) k : ℝ) : ℂ) * (starRingEnd ℂ) (tw N j k) = 0 := by
    intro k hk
    have hk' := Finset.mem_range.1 hk
    have : ext N (fun k => m k / N) k = 0 := by
      unfold ext
      by_cases h1 : k ≤ N / 2
      · rw [if_pos h1]; simp only [hm k h1, zero_div]
      · rw [if_neg h1]; simp only [hm (N - k) (by omega), zero_div]
    rw [this]
    simp
  rw [Finset.sum_congr rfl h2, Finset.sum_const_zero] at h
  exact_mod_cast h

end

end QDng.OctFreq
