import Verif.Chexp.Values
import Mathlib.Topology.Algebra.Order.Floor

/-
Properties C265-C268: accuracy of the Chebychev propagator.
-/

namespace QDng.Chexp

open QDng.Propa QDng.Common QDng.Ops Filter Topology Nat

variable {V : Type} [NormedAddCommGroup V] [InnerProductSpace ℂ V] [FiniteDimensional ℂ V]

/-! ### C265: a step in real time -/

/-- A step in real time, with the error in terms of the error for one energy. -/
theorem real_step (H : V →ₗ[ℂ] V) (hH : Hermitian H) (emin emax : ℝ) (hlt : emin < emax)
    (hw : Within H emin emax) (g : Given) (h1 : g.emin = emin) (h2 : g.emax = emax) (hre : g.imaginary = false)
    (hns : g.scaling = none) (J I : Lib) (hJ : ∀ n x k, k < n → J.val n x k = besselJ k x) (c : Cheby V)
    (hs : setup (fun x => H x) g J I = .val c) (horder : 2 ≤ c.order)
    (psi : ℝ → V) (hp : Solves H psi) (t : ℝ)
    (nrm : V → ℝ) (k0 k1 k2 b p : ℕ) (hd : Different p k0 k1 k2 b) (σ : Store V) (hσ : σ p = psi t) :
    c.scaling = (emax - emin) / 2 ∧
    ∃ σ' m, c.applyIn g.imaginary nrm k0 k1 k2 b p σ = some σ' ∧ 2 ≤ m ∧ m ≤ c.order ∧
      (m < c.order → nrm (σ p) ≠ 0 ∧ |nrm (σ p) - nrm (σ' p)| / nrm (σ p) < g.prec) ∧
      ∀ B : ℝ, 0 ≤ B → (∀ x : ℝ, -1 ≤ x → x ≤ 1 →
        ‖∑ k ∈ Finset.range m, aterm (if g.forward then -Complex.I else Complex.I)
            (((emax - emin) / 2 * g.dt : ℝ) : ℂ) x k - Complex.exp ((if g.forward then -Complex.I else Complex.I) *
            (((emax - emin) / 2 * g.dt : ℝ) : ℂ) * x)‖ ≤ B) →
        ‖σ' p - psi (if g.forward then t + g.dt else t - g.dt)‖ ≤ B * ‖psi t‖ := by
  obtain ⟨a1, a2, a3, a4, a5, a6, a7, a8, n, a9, a10, -⟩ := setup_val _ _ _ _ _ hs
  rw [hre, h1, h2] at a6
  rw [hns, Option.getD_none, h1, h2, a6, a3] at a7
  have hex : exponent g = (if g.forward then -Complex.I else Complex.I) * g.dt := by
    unfold exponent
    rw [hre]
    cases g.forward <;> simp
  have hex' : exponent g = -Complex.I * g.dt ∨ exponent g = Complex.I * g.dt := by
    rw [hex]
    cases g.forward <;> simp
  have h73 := fun E (w1 : emin ≤ E) (w2 : E ≤ emax) => C73_real emin emax E g.dt hlt w1 w2 a1 (exponent g) hex'
  obtain ⟨hpos, him, _⟩ := h73 emin le_rfl hlt.le
  dsimp only at h73 hpos him
  rw [← a7] at hpos
  rw [← a6] at him
  have hoff : c.offset = ((c.offset.re : ℝ) : ℂ) := Complex.ext rfl (by simpa using him)
  have hsc : c.scaling = (emax - emin) / 2 := by
    rw [a7]
    unfold chebyScaling
    rw [if_neg, ← Complex.ofReal_sub, Complex.normSq_ofReal, Real.sqrt_mul_self (by linarith)]
    rw [← a6, him]
    have : |(exponent g).im| ≠ 0 := by rcases hex' with e | e <;> rw [e] <;> simp [a1]
    simpa using this
  obtain ⟨σ', m, s1, s2, s3, s4, s5, -⟩ := C31_real_partial c H (fun x => by rw [a2]) (by rw [a4]; exact a1)
    hpos.ne' (if g.forward then -Complex.I else Complex.I)
    ⟨by cases g.forward <;> simp, by rw [a3, a4, hex]⟩ horder a8 nrm k0 k1 k2 b p hd σ
  refine ⟨hsc, σ', m, by rw [hre]; exact s1, s2, s3, by rw [← a5]; exact s5, fun B hB0 hB => ?_⟩
  have he2 : (if g.forward then -Complex.I else Complex.I) ^ 2 = -1 := by cases g.forward <;> simp
  have key := series_error_of H hH (if g.forward then -Complex.I else Complex.I) (-Complex.I) 1
    c.scaling g.dt c.offset.re emin emax hw hpos.ne'
    (fun E w1 w2 => by
      obtain ⟨_, _, r1, r2⟩ := h73 E w1 w2
      rw [← a7, ← a6] at r1 r2
      exact ⟨r1, r2⟩)
    c.coeff m (fun k hk => by
      rw [a10 k (by omega), hre, show (if (false : Bool) = true then I else J) = J from rfl, hJ _ _ _ (by omega),
        besselJ_eq, he2, one_mul])
    psi hp t (if g.forward then g.dt else -g.dt) (by cases g.forward <;> simp) B hB0 (by rw [hsc]; exact hB)
  rw [← hoff, one_smul] at key
  have hph : ‖Complex.exp ((if g.forward then -Complex.I else Complex.I) * g.dt * c.offset)‖ = 1 := by
    rw [hoff, Complex.norm_exp]
    cases g.forward <;> simp
  rw [s4, hσ, a3, hex]
  rw [hph, norm_one, one_mul, one_mul] at key
  refine le_trans (le_of_eq ?_) key
  congr 2
  cases g.forward <;> simp [sub_eq_add_neg]

/-- C265: for every Hermitian Hamiltonian with all energies between the bounds, time step, direction and
wave function, one step of a propagator that was set up without a manual scaling gives the solution of the
Schrödinger equation one time step later (earlier, for a propagation backward in time) up to the bound for
the number `m` of terms that were used; that is the number chosen in the set-up unless the norm agreed with the
one of the input to the given precision.  The routine for the Bessel functions is exact. -/
theorem C265_step (H : V →ₗ[ℂ] V) (hH : Hermitian H) (emin emax : ℝ) (hlt : emin < emax)
    (hw : Within H emin emax) (g : Given) (h1 : g.emin = emin) (h2 : g.emax = emax) (hre : g.imaginary = false)
    (hns : g.scaling = none) (J I : Lib) (hJ : ∀ n x k, k < n → J.val n x k = besselJ k x) (c : Cheby V)
    (hs : setup (fun x => H x) g J I = .val c) (horder : 2 ≤ c.order)
    (psi : ℝ → V) (hp : Solves H psi) (t : ℝ)
    (nrm : V → ℝ) (k0 k1 k2 b p : ℕ) (hd : Different p k0 k1 k2 b) (σ : Store V) (hσ : σ p = psi t) :
    ∃ σ' m, c.applyIn g.imaginary nrm k0 k1 k2 b p σ = some σ' ∧ 2 ≤ m ∧ m ≤ c.order ∧
      ‖σ' p - psi (if g.forward then t + g.dt else t - g.dt)‖ ≤
        errorBound ((emax - emin) / 2 * |g.dt|) m * ‖psi t‖ ∧
      (m < c.order → nrm (σ p) ≠ 0 ∧ |nrm (σ p) - nrm (σ' p)| / nrm (σ p) < g.prec) := by
  obtain ⟨-, σ', m, s1, s2, s3, s4, s5⟩ := real_step H hH emin emax hlt hw g h1 h2 hre hns J I hJ c hs horder psi hp
    t nrm k0 k1 k2 b p hd σ hσ
  have hz : |(emax - emin) / 2 * g.dt| = (emax - emin) / 2 * |g.dt| := by
    rw [abs_mul, abs_of_pos (by linarith)]
  refine ⟨σ', m, s1, s2, s3, s5 _ (errorBound_nonneg _ (by rw [← hz]; exact abs_nonneg _) m) (fun x r1 r2 => ?_), s4⟩
  have := anger_error (if g.forward then -Complex.I else Complex.I) (((emax - emin) / 2 * g.dt : ℝ) : ℂ)
    (by cases g.forward <;> simp) _ r1 r2 m
  rwa [Complex.norm_real, Real.norm_eq_abs, restBound_eq, hz] at this

/-- C265: the bound goes to zero with the number of terms, for every energy range and time step. -/
theorem C265_converges (z : ℝ) (hz : 0 ≤ z) : Tendsto (errorBound z) atTop (𝓝 0) := by
  have h1 : Tendsto (fun n : ℕ => 2 * ((z / 2) ^ n / (n ! : ℝ)) * Real.exp (z / 2 + (z / 2) ^ 2)) atTop (𝓝 0) := by
    have := ((FloorSemiring.tendsto_pow_div_factorial_atTop (z / 2)).const_mul 2).mul_const
      (Real.exp (z / 2 + (z / 2) ^ 2))
    simpa using this
  refine squeeze_zero (fun n => errorBound_nonneg z hz n) (fun n => ?_) h1
  unfold errorBound
  refine mul_le_mul_of_nonneg_left (Real.exp_le_exp.2 ?_) (by positivity)
  have : (z / 2) ^ 2 / ((n : ℝ) + 1) ≤ (z / 2) ^ 2 := div_le_self (by positivity) (by linarith [n.cast_nonneg (α := ℝ)])
  linarith

/-! ### C266: the number of terms -/

theorem needed_spec (b : ℕ → ℝ) (d : ℝ) (order : ℕ) : ∀ n i, i ≤ order → order ≤ i + n →
    i ≤ chebyNeeded b d order n i ∧ chebyNeeded b d order n i ≤ order ∧
      (chebyNeeded b d order n i = order ∨
        |b (chebyNeeded b d order n i - 1) - b (chebyNeeded b d order n i - 2)| ≤ d) := by
  intro n
  induction n with
  | zero =>
    intro i h1 h2
    unfold chebyNeeded
    exact ⟨le_rfl, h1, Or.inl (by omega)⟩
  | succ n ih =>
    intro i h1 h2
    unfold chebyNeeded
    split_ifs with h
    · obtain ⟨q1, q2, q3⟩ := ih (i + 1) (by omega) (by omega)
      exact ⟨by omega, q2, q3⟩
    · refine ⟨le_rfl, h1, ?_⟩
      rcases Nat.lt_or_ge i order with h3 | h3
      · exact Or.inr (not_lt.1 fun h4 => h ⟨h3, h4⟩)
      · exact Or.inl (by omega)

/-- The number of terms chosen by a successful set-up when none is given. -/
theorem setup_order {V : Type} (h : V → V) (g : Given) (J I : Lib) (hre : g.imaginary = false)
    (hno : g.order = none) (hns : g.scaling = none)
    (hz : ∀ n x, J.zeroes n x = 0) (c : Cheby V) (hs : setup h g J I = .val c) :
    ∃ n : ℕ, 10 ≤ n ∧ (toInt (20 * c.scaling * g.dt)).natAbs ≤ n ∧ 2 ≤ c.order ∧ c.order ≤ n ∧
      (c.order = n ∨ |J.val n (c.scaling * g.dt) (c.order - 1) - J.val n (c.scaling * g.dt) (c.order - 2)| ≤ delta) := by
  obtain ⟨a1, a2, a3, a4, a5, a6, a7, a8, n, a9, a10, a11, a12⟩ := setup_val _ _ _ _ _ hs
  rw [hns, Option.getD_none] at a7
  rw [hno, Option.getD_none] at a12
  rw [hre, hno, ← a7] at a11
  rw [← a7] at a12
  unfold chebyOrder at a11
  simp only [Option.getD_none, Bool.false_eq_true, if_false] at a11
  rw [← a12] at a11
  have hn10 : 10 ≤ n ∧ (toInt (20 * c.scaling * g.dt)).natAbs ≤ n := by
    rw [a12]
    split_ifs with h <;> omega
  rw [if_neg (by omega), hz, Nat.sub_zero] at a11
  have a13 := Option.some.inj a11
  obtain ⟨q1, q2, q3⟩ := needed_spec (J.val n (c.scaling * g.dt)) delta n n 2 (by omega) (by omega)
  rw [a13] at q1 q2 q3
  exact ⟨n, hn10.1, hn10.2, q1, q2, q3⟩

theorem natAbs_toInt (x : ℝ) (hx : 0 ≤ x) : x ≤ ((toInt x).natAbs : ℝ) + 1 := by
  unfold toInt
  rw [if_pos hx]
  have h1 := (Int.lt_floor_add_one x).le
  have h2 : (0 : ℤ) ≤ ⌊x⌋ := Int.floor_nonneg.2 hx
  have h3 : (((⌊x⌋).natAbs : ℕ) : ℝ) = ((⌊x⌋ : ℤ) : ℝ) := by
    rw [Nat.cast_natAbs, abs_of_nonneg h2]
  rw [h3]
  exact h1

/-- C266: without a given number of terms and without a manual scaling, the number chosen by the program keeps the
error of a step below `10⁻¹⁰` of the norm of the wave function, for every Hamiltonian, energy range and time
step for which that number is at least one and a half times the product of half of the energy range and the
time step, plus one.  (That the series is not cut before by the criterion on the norm is `m = c.order`.)
Missing: smaller numbers of terms, which occur where two successive Bessel functions happen to agree, see
`C266_violated_crossing`. -/
theorem C266_enough_partial (H : V →ₗ[ℂ] V) (hH : Hermitian H) (emin emax : ℝ) (hlt : emin < emax)
    (hw : Within H emin emax) (g : Given) (h1 : g.emin = emin) (h2 : g.emax = emax) (hre : g.imaginary = false)
    (hns : g.scaling = none) (hno : g.order = none) (hdt : 0 < g.dt) (J I : Lib)
    (hJ : ∀ n x k, k < n → J.val n x k = besselJ k x) (hz : ∀ n x, J.zeroes n x = 0) (c : Cheby V)
    (hs : setup (fun x => H x) g J I = .val c)
    (hgap : 3 / 2 * ((emax - emin) / 2 * g.dt) + 1 ≤ c.order)
    (psi : ℝ → V) (hp : Solves H psi) (t : ℝ)
    (nrm : V → ℝ) (k0 k1 k2 b p : ℕ) (hd : Different p k0 k1 k2 b) (σ : Store V) (hσ : σ p = psi t) :
    ∃ σ' m, c.applyIn g.imaginary nrm k0 k1 k2 b p σ = some σ' ∧ 2 ≤ m ∧ m ≤ c.order ∧
      (m = c.order → ‖σ' p - psi (if g.forward then t + g.dt else t - g.dt)‖ ≤ 1 / 10 ^ 10 * ‖psi t‖) ∧
      (m < c.order → nrm (σ p) ≠ 0 ∧ |nrm (σ p) - nrm (σ' p)| / nrm (σ p) < g.prec) := by
  obtain ⟨n, n1, n2, n3, n4, n5⟩ := setup_order _ g J I hre hno hns hz c hs
  obtain ⟨hsc, σ', m, s1, s2, s3, s4, s5⟩ := real_step H hH emin emax hlt hw g h1 h2 hre hns J I hJ c hs n3 psi hp
    t nrm k0 k1 k2 b p hd σ hσ
  refine ⟨σ', m, s1, s2, s3, fun hm => s5 _ (by norm_num) (fun x r1 r2 => ?_), s4⟩
  have hz0 : 0 < (emax - emin) / 2 * g.dt := mul_pos (by linarith) hdt
  have he : ‖(if g.forward then -Complex.I else Complex.I)‖ = 1 := by cases g.forward <;> simp
  have he2 : (if g.forward then -Complex.I else Complex.I) ^ 2 = -1 := by cases g.forward <;> simp
  rw [hm]
  rcases n5 with h | h
  · have := anger_error (if g.forward then -Complex.I else Complex.I) (((emax - emin) / 2 * g.dt : ℝ) : ℂ)
      he _ r1 r2 c.order
    rw [Complex.norm_real, Real.norm_eq_abs, restBound_eq, abs_of_pos hz0] at this
    refine this.trans (estimate_bound _ hz0.le _ (by omega) ?_)
    have h3 := natAbs_toInt (20 * c.scaling * g.dt) (by rw [hsc]; nlinarith)
    rw [hsc] at h3
    have h4 : (((toInt (20 * c.scaling * g.dt)).natAbs : ℕ) : ℝ) ≤ c.order := by rw [h]; exact_mod_cast n2
    rw [hsc] at h4
    linarith
  · obtain ⟨k, hk⟩ : ∃ k, c.order = k + 2 := ⟨c.order - 2, by omega⟩
    rw [hk, show k + 2 - 1 = k + 1 by omega, show k + 2 - 2 = k by omega, hJ _ _ _ (by omega), hJ _ _ _ (by omega),
      hsc] at h
    rw [hk]
    have hgap' : 3 / 2 * ((emax - emin) / 2 * g.dt) ≤ k + 1 := by
      rw [hk] at hgap
      push_cast at hgap
      linarith
    refine (tail_error _ he he2 _ hz0 delta k hgap' h x r1 r2).trans ?_
    unfold delta
    norm_num

/-- C266: for a product of half of the energy range and the time step up to two thirds the number of terms is
always large enough. -/
theorem C266_small (H : V →ₗ[ℂ] V) (hH : Hermitian H) (emin emax : ℝ) (hlt : emin < emax)
    (hw : Within H emin emax) (g : Given) (h1 : g.emin = emin) (h2 : g.emax = emax) (hre : g.imaginary = false)
    (hns : g.scaling = none) (hno : g.order = none) (hdt : 0 < g.dt) (hsmall : (emax - emin) / 2 * g.dt ≤ 2 / 3)
    (J I : Lib) (hJ : ∀ n x k, k < n → J.val n x k = besselJ k x) (hz : ∀ n x, J.zeroes n x = 0) (c : Cheby V)
    (hs : setup (fun x => H x) g J I = .val c)
    (psi : ℝ → V) (hp : Solves H psi) (t : ℝ)
    (nrm : V → ℝ) (k0 k1 k2 b p : ℕ) (hd : Different p k0 k1 k2 b) (σ : Store V) (hσ : σ p = psi t) :
    ∃ σ' m, c.applyIn g.imaginary nrm k0 k1 k2 b p σ = some σ' ∧ 2 ≤ m ∧ m ≤ c.order ∧
      (m = c.order → ‖σ' p - psi (if g.forward then t + g.dt else t - g.dt)‖ ≤ 1 / 10 ^ 10 * ‖psi t‖) ∧
      (m < c.order → nrm (σ p) ≠ 0 ∧ |nrm (σ p) - nrm (σ' p)| / nrm (σ p) < g.prec) := by
  obtain ⟨n, n1, n2, n3, n4, n5⟩ := setup_order _ g J I hre hno hns hz c hs
  have n3' : (2 : ℝ) ≤ c.order := by exact_mod_cast n3
  exact C266_enough_partial H hH emin emax hlt hw g h1 h2 hre hns hno hdt J I hJ hz c hs (by linarith) psi hp t nrm
    k0 k1 k2 b p hd σ hσ

/-- C266: a set-up is refused for a time step of zero, for a given number of terms below three, where the routine
for the Bessel functions fails, and in real time for a given number of terms up to the product of half of the
energy range and the time step (no zeroes reported). -/
theorem C266_refuses {V : Type} (h : V → V) (g : Given) (emin emax : ℝ) (hlt : emin < emax) (h1 : g.emin = emin)
    (h2 : g.emax = emax) (hre : g.imaginary = false) (hns : g.scaling = none) (N : ℕ) (hN : g.order = some N) (J I : Lib)
    (hz : ∀ n x, J.zeroes n x = 0)
    (hbad : g.dt = 0 ∨ N < 3 ∨ J.ok N ((emax - emin) / 2 * g.dt) = false ∨ (N : ℝ) ≤ (emax - emin) / 2 * g.dt) :
    setup h g J I = .threw := by
  unfold setup
  by_cases hdt : g.dt = 0
  · rw [if_pos hdt]
  rw [if_neg hdt]
  dsimp only
  have hsc : chebyScaling (chebyOffset g.imaginary g.emin g.emax) (exponent g) g.emin g.emax = (emax - emin) / 2 := by
    rw [hre, h1, h2]
    have hoff : (chebyOffset false (emin : ℂ) emax).im = 0 := by
      unfold chebyOffset
      simp
    unfold chebyScaling
    rw [if_neg, ← Complex.ofReal_sub, Complex.normSq_ofReal, Real.sqrt_mul_self (by linarith)]
    have : |(exponent g).im| ≠ 0 := by
      unfold exponent
      rw [hre]
      cases g.forward <;> simp [hdt]
    rw [hoff]
    simpa using this
  rw [hsc, hns, hN, hre]
  dsimp only [Option.getD]
  rw [show (if (false : Bool) = true then I else J) = J from rfl]
  by_cases h3 : N < 3
  · rw [if_pos h3]
  rw [if_neg h3]
  by_cases h4 : J.ok N ((emax - emin) / 2 * g.dt) = false
  · rw [if_pos h4]
  rw [if_neg h4]
  have h5 : (N : ℝ) ≤ (emax - emin) / 2 * g.dt := by
    rcases hbad with h | h | h | h
    · exact absurd h hdt
    · exact absurd h h3
    · exact absurd h h4
    · exact h
  have ho : ∀ est, chebyOrder est (some N) (J.val N ((emax - emin) / 2 * g.dt)) delta
      (fun n => J.zeroes n ((emax - emin) / 2 * g.dt)) = some N := by
    intro est
    unfold chebyOrder
    simp only [Option.getD_some]
    rw [if_neg h3, hz, Nat.sub_zero]
  rw [ho]
  dsimp only
  rw [if_pos]
  refine ⟨by omega, rfl, ?_⟩
  unfold toInt
  rw [if_pos (le_trans (Nat.cast_nonneg N) h5), Int.le_floor]
  exact_mod_cast h5

theorem real_scaling (emin emax : ℝ) (hlt : emin < emax) (g : Given) (h1 : g.emin = emin) (h2 : g.emax = emax)
    (hre : g.imaginary = false) (hdt : g.dt ≠ 0) :
    chebyScaling (chebyOffset g.imaginary g.emin g.emax) (exponent g) g.emin g.emax = (emax - emin) / 2 ∧
      chebyOffset g.imaginary g.emin g.emax = (((emax + emin) / 2 : ℝ) : ℂ) := by
  have ho : chebyOffset g.imaginary g.emin g.emax = (((emax + emin) / 2 : ℝ) : ℂ) := by
    rw [hre, h1, h2]
    unfold chebyOffset
    simp only [Bool.not_false, if_true]
    rw [← Complex.ofReal_add]
    rfl
  refine ⟨?_, ho⟩
  rw [ho, h1, h2]
  unfold chebyScaling
  rw [if_neg, ← Complex.ofReal_sub, Complex.normSq_ofReal, Real.sqrt_mul_self (by linarith)]
  have : |(exponent g).im| ≠ 0 := by
    unfold exponent
    rw [hre]
    cases g.forward <;> simp [hdt]
  rw [Complex.ofReal_im]
  simpa using this

/-- C266 does not hold in general: there is a number `z` between one and two such that for energy bounds `-z` and
`z`, the time step one and every way to propagate (direction, precision), the program chooses two terms and
accepts them, because the first two Bessel functions agree; a state of zero energy, which should not change,
is changed by a fifth of its norm at least. -/
theorem C266_violated_crossing (J I : Lib) (hJ : ∀ n x k, k < n → J.val n x k = besselJ k x)
    (hok : ∀ n x, J.ok n x = true) (hz : ∀ n x, J.zeroes n x = 0) :
    ∃ z : ℝ, 1 < z ∧ z < 2 ∧ ∀ (forward : Bool) (prec : ℝ),
      ∃ c : Cheby V, setup (fun x => (0 : V →ₗ[ℂ] V) x) ⟨((-z : ℝ) : ℂ), (z : ℂ), 1, forward, false, none, none, prec⟩ J I = .val c ∧
        c.order = 2 ∧ Within (0 : V →ₗ[ℂ] V) (-z) z ∧
        ∀ (v : V), Solves (0 : V →ₗ[ℂ] V) (fun _ => v) ∧
          ∀ (nrm : V → ℝ) (k0 k1 k2 b p : ℕ), Different p k0 k1 k2 b → ∀ σ : Store V, σ p = v →
            ∃ σ', c.applyIn false nrm k0 k1 k2 b p σ = some σ' ∧ 1 / 5 * ‖v‖ ≤ ‖σ' p - v‖ := by
  obtain ⟨z, z1, z2, hz0⟩ := j_crossing
  refine ⟨z, z1, z2, fun forward prec => ?_⟩
  obtain ⟨hsc, hoff⟩ := real_scaling (-z) z (by linarith) ⟨((-z : ℝ) : ℂ), (z : ℂ), 1, forward, false, none, none, prec⟩
    rfl rfl rfl one_ne_zero
  have hsc' : (z - -z) / 2 = z := by ring
  rw [hsc'] at hsc
  have hint : toInt z = 1 := by
    unfold toInt
    rw [if_pos (by linarith), Int.floor_eq_iff]
    constructor <;> push_cast <;> linarith
  obtain ⟨e, hest⟩ : ∃ e, (toInt (20 * z * 1)).natAbs = e := ⟨_, rfl⟩
  have he : 10 ≤ e := by
    have := natAbs_toInt (20 * z * 1) (by linarith)
    rw [hest] at this
    by_contra hlt
    have h9 : (e : ℝ) ≤ 9 := by exact_mod_cast (by omega : e ≤ 9)
    linarith
  have hord : chebyOrder e none (J.val e (z * 1)) delta (fun n => J.zeroes n (z * 1)) = some 2 := by
    unfold chebyOrder
    simp only [Option.getD_none]
    rw [if_neg (by omega : ¬ e < 10), if_neg (by omega), hz, Nat.sub_zero]
    obtain ⟨e', rfl⟩ : ∃ e', e = e' + 1 := ⟨e - 1, by omega⟩
    unfold chebyNeeded
    rw [if_neg]
    rintro ⟨-, h⟩
    rw [show 2 - 1 = 1 by rfl, show 2 - 2 = 0 by rfl, hJ _ _ _ (by omega), hJ _ _ _ (by omega), mul_one, hz0,
      sub_self, abs_zero] at h
    unfold delta at h
    norm_num at h
  obtain ⟨c, hc, hc2⟩ := setup_intro (fun x => (0 : V →ₗ[ℂ] V) x)
    ⟨((-z : ℝ) : ℂ), (z : ℂ), 1, forward, false, none, none, prec⟩ J I z e e 2 one_ne_zero hsc
    (by dsimp only at hsc ⊢; rw [hsc]; exact hest) (by dsimp only [Option.getD]; rw [if_neg (by omega)]) (by omega) (hok _ _) hord
    (Or.inr (by dsimp only; rw [mul_one, hint]; norm_num)) (by omega)
  refine ⟨c, hc, hc2, fun a => ?_, fun v => ⟨fun t => ?_, fun nrm k0 k1 k2 b p hd σ hσ => ?_⟩⟩
  · rw [LinearMap.zero_apply, inner_zero_right, Complex.zero_re]
    have := sq_nonneg ‖a‖
    constructor <;> nlinarith
  · rw [LinearMap.zero_apply, smul_zero]
    exact hasDerivAt_const t v
  · obtain ⟨a1, a2, a3, a4, a5, a6, a7, a8, n, a9, a10, -⟩ := setup_val _ _ _ _ _ hc
    dsimp only at a3 a4 a6 a7 a10 hsc hoff
    have hsc2 : c.scaling = z := by rw [a7, Option.getD_none, a6, a3]; exact hsc
    have hoff2 : c.offset = 0 := by rw [a6, hoff]; norm_num
    have hex : exponent ⟨((-z : ℝ) : ℂ), (z : ℂ), 1, forward, false, none, none, prec⟩ =
        (if forward then -Complex.I else Complex.I) * ((1 : ℝ) : ℂ) := by
      unfold exponent
      cases forward <;> simp
    obtain ⟨σ', m, s1, s2, s3, s4, -, -⟩ := C31_real_partial c (0 : V →ₗ[ℂ] V) (fun x => by rw [a2])
      (by rw [a4]; exact one_ne_zero) (by rw [hsc2]; linarith) (if forward then -Complex.I else Complex.I)
      ⟨by cases forward <;> simp, by rw [a3, a4, hex]⟩ (by omega) a8 nrm k0 k1 k2 b p hd σ
    refine ⟨σ', s1, ?_⟩
    have hm : m = 2 := by omega
    have hX : scaled (0 : V →ₗ[ℂ] V) c.offset c.scaling = 0 := by
      ext x
      rw [scaled_apply, hoff2]
      simp
    rw [s4, hm, series_eq, Finset.sum_range_succ, Finset.sum_range_one, term_zero, term_one, hX, hoff2, hσ, mul_zero,
      Complex.exp_zero, mul_one, LinearMap.zero_apply, smul_zero, smul_zero, add_zero, a10 0 (by omega), if_pos rfl,
      one_mul, if_neg (by decide), hJ _ _ _ (by omega), hsc2, mul_one]
    have hv : ((besselJ 0 z : ℝ) : ℂ) • v - v = (((besselJ 0 z - 1 : ℝ)) : ℂ) • v := by
      push_cast
      rw [sub_smul, one_smul]
    rw [hv, norm_smul, Complex.norm_real, Real.norm_eq_abs]
    refine mul_le_mul_of_nonneg_right ?_ (norm_nonneg v)
    have := j_zero_small z z1.le z2.le
    rw [abs_of_nonpos (by linarith)]
    linarith

/-! ### C267: the criterion on the norm -/

/-- C267: where the series is cut before the chosen number of terms, the norm of the result differs from the one of
the input by less than the given precision (relative to the input).  Missing: that the result itself is that
close to the solution, see `C267_violated_cut`. -/
theorem C267_norm_partial (H : V →ₗ[ℂ] V) (hH : Hermitian H) (emin emax : ℝ) (hlt : emin < emax)
    (hw : Within H emin emax) (g : Given) (h1 : g.emin = emin) (h2 : g.emax = emax) (hre : g.imaginary = false)
    (hns : g.scaling = none) (J I : Lib) (hJ : ∀ n x k, k < n → J.val n x k = besselJ k x) (c : Cheby V)
    (hs : setup (fun x => H x) g J I = .val c) (horder : 2 ≤ c.order)
    (psi : ℝ → V) (hp : Solves H psi) (t : ℝ)
    (k0 k1 k2 b p : ℕ) (hd : Different p k0 k1 k2 b) (σ : Store V) (hσ : σ p = psi t) :
    ∃ σ', c.applyIn g.imaginary (fun v => ‖v‖) k0 k1 k2 b p σ = some σ' ∧
      (‖σ' p - psi (if g.forward then t + g.dt else t - g.dt)‖ ≤
          errorBound ((emax - emin) / 2 * |g.dt|) c.order * ‖psi t‖ ∨
        |‖psi t‖ - ‖σ' p‖| < g.prec * ‖psi t‖) := by
  obtain ⟨σ', m, s1, s2, s3, s4, s5⟩ := C265_step H hH emin emax hlt hw g h1 h2 hre hns J I hJ c hs horder psi hp t
    (fun v => ‖v‖) k0 k1 k2 b p hd σ hσ
  refine ⟨σ', s1, ?_⟩
  rcases Nat.lt_or_ge m c.order with h | h
  · obtain ⟨q1, q2⟩ := s5 h
    rw [hσ] at q1 q2
    right
    rwa [div_lt_iff₀ (lt_of_le_of_ne (norm_nonneg _) (Ne.symm q1))] at q2
  · left
    rwa [show m = c.order by omega] at s4

/-- The loop ends after the third term where the criterion is met. -/
theorem stops_at_three (c : Cheby V) (H : Module.End ℂ V) (hH : ∀ x, c.h x = H x) (e : ℂ) (hexp : c.exp = e)
    (he : e * e = -1) (horder : 3 ≤ c.order) (hlen : c.coeff.length = c.order) (nrm : V → ℝ) (k0 k1 k2 b p : Nat)
    (hd : Different p k0 k1 k2 b) (σ : Store V)
    (hstop : c.stopReal nrm (nrm (σ p)) (series H c.offset c.scaling c.phase e c.coeff 3 (σ p))) :
    ∃ σ', c.applyIn false nrm k0 k1 k2 b p σ = some σ' ∧
      σ' p = series H c.offset c.scaling c.phase e c.coeff 3 (σ p) := by
  obtain ⟨σ1, h1, h2, h3⟩ := start_before c H hH p k0 k1 k2 b hd σ (by omega)
  have hci : c.coeff[2]? = some c.coeff[2] := List.getElem?_eq_getElem (by omega)
  obtain ⟨hr, -⟩ := round_before c H hH 1 (by rw [hexp, he]) p k0 k1 k2 b hd (σ p) 2 le_rfl σ1 h2 _ hci
  have hp := hr.p
  rw [hexp] at hp
  refine ⟨c.round 1 p k0 k1 k2 b c.coeff[2] σ1, ?_, hp⟩
  unfold Cheby.applyIn
  rw [h1]
  dsimp only
  rw [if_neg (by decide)]
  obtain ⟨d, hd2⟩ : ∃ d, c.order - 2 = d + 1 := ⟨c.order - 3, by omega⟩
  rw [hd2]
  unfold Cheby.loopReal
  rw [hci]
  dsimp only
  rw [if_pos]
  rw [hp]
  exact hstop

theorem values_at_one : 0.9943 ≤ besselJ 0 1 + 2 * besselJ 2 1 ∧ besselJ 0 1 + 2 * besselJ 2 1 ≤ 0.9951 ∧
    1.05 ≤ (besselJ 0 1 - 2 * besselJ 2 1) ^ 2 + (2 * besselJ 1 1) ^ 2 := by
  have a1 := le_j 0 1 (by norm_num) (by norm_num) 2
  have a2 := j_le 0 1 (by norm_num) (by norm_num) 2
  have b1 := le_j 1 1 (by norm_num) (by norm_num) 1
  have c1 := le_j 2 1 (by norm_num) (by norm_num) 1
  have c2 := j_le 2 1 (by norm_num) (by norm_num) 1
  norm_num [Finset.sum_range_succ, jt, Nat.factorial] at a1 a2 b1 c1 c2
  refine ⟨by linarith, by linarith, ?_⟩
  have d1 : (0.535 : ℝ) ≤ besselJ 0 1 - 2 * besselJ 2 1 := by norm_num; linarith
  have d2 : (0.875 : ℝ) ≤ 2 * besselJ 1 1 := by norm_num; linarith
  have d3 := mul_self_le_mul_self (by norm_num) d1
  have d4 := mul_self_le_mul_self (by norm_num) d2
  nlinarith

/-- The operator that projects on `u`. -/
noncomputable def projection (u : V) : V →ₗ[ℂ] V := (innerSL ℂ u).toLinearMap.smulRight u

theorem projection_apply (u v : V) : projection u v = (inner ℂ u v) • u := rfl

theorem projection_hermitian (u : V) : Hermitian (projection u) := by
  intro a b
  rw [projection_apply, projection_apply, inner_smul_left, inner_smul_right, inner_conj_symm, mul_comm]

theorem projection_within (u : V) (hu : ‖u‖ = 1) (lo : ℝ) (hlo : lo ≤ 0) : Within (projection u) lo 1 := by
  intro a
  rw [projection_apply, inner_smul_right, ← inner_conj_symm, mul_comm, Complex.conj_mul']
  have h1 := norm_inner_le_norm (𝕜 := ℂ) a u
  rw [hu, mul_one] at h1
  have h2 : ((((‖inner ℂ a u‖ : ℝ) : ℂ) ^ 2).re) = ‖inner ℂ a u‖ ^ 2 := by
    rw [← Complex.ofReal_pow, Complex.ofReal_re]
  rw [h2]
  have h3 := pow_le_pow_left₀ (norm_nonneg _) h1 2
  have h4 := sq_nonneg ‖a‖
  have h5 := sq_nonneg ‖inner ℂ a u‖
  constructor
  · nlinarith
  · linarith

/-- C267 does not hold: for a Hamiltonian with the energies zero and one in the bounds `-1` and `1`, the time step one,
every number of terms from three on, every precision and every measure `f` of the norm there is a wave
function for which the series is cut after the third term, since the sum has the norm of the wave function by
chance; the result differs from the solution by more than a third of a percent, however small the precision
is. -/
theorem C267_violated_cut (u0 u1 : V) (hu0 : ‖u0‖ = 1) (hu1 : ‖u1‖ = 1) (hort : inner ℂ u0 u1 = (0 : ℂ))
    (J I : Lib) (hJ : ∀ n x k, k < n → J.val n x k = besselJ k x)
    (hok : ∀ n x, J.ok n x = true) (hz : ∀ n x, J.zeroes n x = 0) (forward : Bool) (prec : ℝ) (hprec : 0 < prec)
    (N : ℕ) (hN : 3 ≤ N) (f : ℝ → ℝ) (hf : ∀ x, 0 < x → f x ≠ 0) :
    ∃ c : Cheby V, setup (fun x => projection u1 x) ⟨((-1 : ℝ) : ℂ), ((1 : ℝ) : ℂ), 1, forward, false, some N, none, prec⟩ J I = .val c ∧
      c.order = N ∧ Hermitian (projection u1) ∧ Within (projection u1) (-1) 1 ∧
      ∃ psi : ℝ → V, Solves (projection u1) psi ∧ psi 0 ≠ 0 ∧
        ∀ (k0 k1 k2 b p : ℕ), Different p k0 k1 k2 b → ∀ σ : Store V, σ p = psi 0 →
          ∃ σ', c.applyIn false (fun v => f ‖v‖) k0 k1 k2 b p σ = some σ' ∧ ‖σ' p‖ = ‖psi 0‖ ∧
            1 / 300 * ‖psi 0‖ ≤ ‖σ' p - psi (if forward then 0 + 1 else 0 - 1)‖ := by
  obtain ⟨w1, w2, w3⟩ := values_at_one
  obtain ⟨hsc, hoff⟩ := real_scaling (-1) 1 (by norm_num)
    ⟨((-1 : ℝ) : ℂ), ((1 : ℝ) : ℂ), 1, forward, false, some N, none, prec⟩ rfl rfl rfl one_ne_zero
  rw [show ((1 : ℝ) - -1) / 2 = 1 by norm_num] at hsc
  have hint : toInt (1 * 1) = 1 := by
    unfold toInt
    rw [if_pos (by norm_num), Int.floor_eq_iff]
    constructor <;> push_cast <;> norm_num
  have hord : ∀ est, chebyOrder est (some N) (J.val N (1 * 1)) delta (fun n => J.zeroes n (1 * 1)) = some N := by
    intro est
    unfold chebyOrder
    simp only [Option.getD_some]
    rw [if_neg (by omega), hz, Nat.sub_zero]
  obtain ⟨c, hc, hc2⟩ := setup_intro (fun x => projection u1 x)
    ⟨((-1 : ℝ) : ℂ), ((1 : ℝ) : ℂ), 1, forward, false, some N, none, prec⟩ J I 1 _ N N one_ne_zero hsc rfl rfl hN
    (hok _ _) (hord _) (Or.inr (by dsimp only; rw [hint]; omega)) le_rfl
  refine ⟨c, hc, hc2, projection_hermitian u1, projection_within u1 hu1 (-1) (by norm_num), ?_⟩
  obtain ⟨a1, a2, a3, a4, a5, a6, a7, a8, n, a9, a10, -⟩ := setup_val _ _ _ _ _ hc
  dsimp only at a3 a4 a5 a6 a7 a10 hsc hoff
  have hsc2 : c.scaling = 1 := by rw [a7, Option.getD_none, a6, a3]; exact hsc
  have hoff2 : c.offset = 0 := by rw [a6, hoff]; norm_num
  obtain ⟨e, he⟩ : ∃ e : ℂ, (if forward then -Complex.I else Complex.I) = e := ⟨_, rfl⟩
  have hee : e * e = -1 := by rw [← he]; cases forward <;> simp
  have hex : c.exp = e := by
    unfold Cheby.exp
    rw [a3, a4, ← he]
    unfold exponent
    cases forward <;> simp
  have hph : c.phase = 1 := by
    unfold Cheby.phase
    rw [hoff2, mul_zero, Complex.exp_zero]
  -- the two weights
  set S := besselJ 0 1 + 2 * besselJ 2 1 with hS
  set R := besselJ 0 1 - 2 * besselJ 2 1 with hR
  set Q := 2 * besselJ 1 1 with hQ
  have hg1 : 0 < R ^ 2 + Q ^ 2 - 1 := by linarith
  have hg0 : 0 < 1 - S ^ 2 := by nlinarith
  set A := Real.sqrt (R ^ 2 + Q ^ 2 - 1) with hA
  set B := Real.sqrt (1 - S ^ 2) with hB
  have hA2 : A ^ 2 = R ^ 2 + Q ^ 2 - 1 := Real.sq_sqrt hg1.le
  have hB2 : B ^ 2 = 1 - S ^ 2 := Real.sq_sqrt hg0.le
  have hA0 : 0 < A := Real.sqrt_pos.2 hg1
  have hu00 : inner ℂ u0 u0 = (1 : ℂ) := by rw [inner_self_eq_norm_sq_to_K, hu0]; simp
  have hu11 : inner ℂ u1 u1 = (1 : ℂ) := by rw [inner_self_eq_norm_sq_to_K, hu1]; simp
  have hort' : inner ℂ u1 u0 = (0 : ℂ) := by rw [← inner_conj_symm, hort, map_zero]
  have hnorm : ∀ x y : ℂ, ‖x • u0 + y • u1‖ ^ 2 = ‖x‖ ^ 2 + ‖y‖ ^ 2 := by
    intro x y
    have := norm_add_sq_eq_norm_sq_add_norm_sq_of_inner_eq_zero (𝕜 := ℂ) (x • u0) (y • u1)
      (by rw [inner_smul_left, inner_smul_right, hort, mul_zero, mul_zero])
    rw [norm_smul, norm_smul, hu0, hu1, mul_one, mul_one] at this
    nlinarith
  have hv2 : ‖(A : ℂ) • u0 + (B : ℂ) • u1‖ ^ 2 = A ^ 2 + B ^ 2 := by
    rw [hnorm, Complex.norm_real, Complex.norm_real, Real.norm_eq_abs, Real.norm_eq_abs, sq_abs, sq_abs]
  have hvpos : 0 < ‖(A : ℂ) • u0 + (B : ℂ) • u1‖ := by
    rcases (norm_nonneg ((A : ℂ) • u0 + (B : ℂ) • u1)).lt_or_eq with h | h
    · exact h
    · rw [← h] at hv2
      nlinarith
  refine ⟨fun s => (A : ℂ) • u0 + ((B : ℂ) * Complex.exp (-Complex.I * s)) • u1, fun s => ?_, ?_, ?_⟩
  · have h1 : HasDerivAt (fun x : ℝ => -Complex.I * (x : ℂ)) (-Complex.I) s := by
      simpa using (Complex.ofRealCLM.hasDerivAt (x := s)).const_mul (-Complex.I)
    have h2 := ((h1.cexp.const_mul (B : ℂ)).smul_const u1).const_add ((A : ℂ) • u0)
    convert h2 using 1
    rw [projection_apply, inner_add_right, inner_smul_right, inner_smul_right, hort', hu11, smul_smul]
    congr 1
    ring
  · simp only [Complex.ofReal_zero, mul_zero, Complex.exp_zero, mul_one]
    exact norm_pos_iff.1 hvpos
  · intro k0 k1 k2 b p hd σ hσ
    simp only [Complex.ofReal_zero, mul_zero, Complex.exp_zero, mul_one] at hσ ⊢
    have hP : ∀ x y : ℂ, scaled (projection u1) c.offset c.scaling (x • u0 + y • u1) = y • u1 := by
      intro x y
      rw [scaled_apply, hoff2, hsc2, projection_apply, inner_add_right, inner_smul_right, inner_smul_right, hort', hu11]
      simp
    have c0 : c.coeff.getD 0 0 = (besselJ 0 1 : ℂ) := by
      rw [a10 0 (by omega), if_pos rfl, if_neg (by decide), hJ _ _ _ (by omega), hsc2, mul_one, one_mul]
    have c1 : c.coeff.getD 1 0 = 2 * (besselJ 1 1 : ℂ) := by
      rw [a10 1 (by omega), if_neg (by decide), if_neg (by decide), hJ _ _ _ (by omega), hsc2, mul_one]
    have c2 : c.coeff.getD 2 0 = 2 * (besselJ 2 1 : ℂ) := by
      rw [a10 2 (by omega), if_neg (by decide), if_neg (by decide), hJ _ _ _ (by omega), hsc2, mul_one]
    have hser : series (projection u1) c.offset c.scaling c.phase e c.coeff 3 (σ p) =
        ((A * S : ℝ) : ℂ) • u0 + ((B : ℂ) * ((R : ℂ) + e * Q)) • u1 := by
      have t1 : term (scaled (projection u1) c.offset c.scaling) e 1 (σ p) = (0 : ℂ) • u0 + (e * B) • u1 := by
        rw [term_one, hσ, hP, zero_smul, zero_add, smul_smul]
      rw [series_eq, Finset.sum_range_succ, Finset.sum_range_succ, Finset.sum_range_one, term_zero, t1,
        show (2 : ℕ) = 0 + 2 by rfl, term_step _ e 1 hee 0, zero_add, t1, hP, term_zero, hσ, hph, c0, c1, c2, hS, hR, hQ]
      generalize besselJ 0 1 = j0
      generalize besselJ 1 1 = j1
      generalize besselJ 2 1 = j2
      have h2e : 2 * e * (e * (B : ℂ)) = -2 * B := by
        rw [show 2 * e * (e * (B : ℂ)) = 2 * (e * e) * B by ring, hee]
        ring
      rw [smul_smul (2 * e), h2e]
      push_cast
      module
    have hS2 : ‖((A * S : ℝ) : ℂ) • u0 + ((B : ℂ) * ((R : ℂ) + e * Q)) • u1‖ = ‖(A : ℂ) • u0 + (B : ℂ) • u1‖ := by
      have hRQ : ‖(R : ℂ) + e * Q‖ ^ 2 = R ^ 2 + Q ^ 2 := by
        rw [← Complex.normSq_eq_norm_sq, ← he]
        cases forward <;> simp [Complex.normSq_apply] <;> ring
      have h1 := hnorm ((A * S : ℝ) : ℂ) ((B : ℂ) * ((R : ℂ) + e * Q))
      rw [norm_mul, mul_pow, hRQ, Complex.norm_real, Complex.norm_real, Real.norm_eq_abs, Real.norm_eq_abs, sq_abs,
        sq_abs, mul_pow] at h1
      have h2 : ‖((A * S : ℝ) : ℂ) • u0 + ((B : ℂ) * ((R : ℂ) + e * Q)) • u1‖ ^ 2 =
          ‖(A : ℂ) • u0 + (B : ℂ) • u1‖ ^ 2 := by
        rw [h1, hv2, hA2, hB2]
        ring
      exact (pow_left_inj₀ (norm_nonneg _) (norm_nonneg _) two_ne_zero).1 h2
    obtain ⟨σ', s1, s2⟩ := stops_at_three c (projection u1) (fun x => by rw [a2]) e hex hee (by omega) a8
      (fun v => f ‖v‖) k0 k1 k2 b p hd σ (by
        refine ⟨by rw [hσ]; exact hf _ hvpos, ?_, by rw [hoff2]; rfl⟩
        dsimp only
        rw [hser, hS2, hσ, sub_self, abs_zero, zero_div, a5]
        exact hprec)
    refine ⟨σ', s1, by rw [s2, hser, hS2], ?_⟩
    rw [s2, hser]
    have hcomp : ∀ y z : ℂ, ‖((A * S : ℝ) : ℂ) - A‖ ≤ ‖((A * S : ℝ) : ℂ) • u0 + y • u1 - ((A : ℂ) • u0 + z • u1)‖ := by
      intro y z
      rw [show ((A * S : ℝ) : ℂ) • u0 + y • u1 - ((A : ℂ) • u0 + z • u1) =
        (((A * S : ℝ) : ℂ) - A) • u0 + (y - z) • u1 by module]
      have h1 := hnorm (((A * S : ℝ) : ℂ) - A) (y - z)
      refine (sq_le_sq₀ (norm_nonneg _) (norm_nonneg _)).1 ?_
      rw [h1]
      exact le_add_of_nonneg_right (sq_nonneg _)
    refine le_trans ?_ (hcomp _ _)
    rw [← Complex.ofReal_sub, Complex.norm_real, Real.norm_eq_abs, show A * S - A = -(A * (1 - S)) by ring, abs_neg,
      abs_of_nonneg (mul_nonneg hA0.le (by linarith))]
    refine (sq_le_sq₀ (by positivity) (mul_nonneg hA0.le (by linarith))).1 ?_
    rw [mul_pow, mul_pow, hv2, hA2, hB2]
    have h1 : (0.0049 : ℝ) ^ 2 ≤ (1 - S) ^ 2 := pow_le_pow_left₀ (by norm_num) (by linarith) 2
    have h2 : 0.05 ≤ R ^ 2 + Q ^ 2 - 1 := by linarith
    have h3 : 1 - S ^ 2 ≤ 0.0114 := by nlinarith
    have h4 := mul_le_mul_of_nonneg_left h1 (by linarith : 0 ≤ R ^ 2 + Q ^ 2 - 1)
    generalize R ^ 2 + Q ^ 2 - 1 = G at h2 h4 ⊢
    generalize 1 - S ^ 2 = K at h3 ⊢
    generalize (1 - S) ^ 2 = L at h4 ⊢
    norm_num at h2 h3 h4 ⊢
    linarith

/-! ### C268: a step in imaginary time -/

/-- C268: a step in imaginary time, for every Hermitian Hamiltonian with all energies between the bounds (the
lower one not larger in size than the range), gives the solution of the equation `d/dt psi = -H psi` one time
step later (backward) or earlier (forward), times `exp(-z)` where `z` is the range times `1.05` times the time
step, up to the bound for the number of terms.  The routine for the Bessel functions is exact and returns
them scaled by `exp(-|x|)`, as asked for by the program.  Missing: the factor, see
`C268_violated_factor`. -/
theorem C268_scaled_partial (H : V →ₗ[ℂ] V) (hH : Hermitian H) (emin emax : ℝ) (hlt : emin < emax)
    (hsmall : |emin| ≤ emax - emin)
    (hw : Within H emin emax) (g : Given) (h1 : g.emin = emin) (h2 : g.emax = emax) (him : g.imaginary = true)
    (hns : g.scaling = none) (J I : Lib) (hI : ∀ n x k, k < n → I.val n x k = Real.exp (-|x|) * besselI k x)
    (c : Cheby V) (hs : setup (fun x => H x) g J I = .val c) (horder : 2 ≤ c.order)
    (psi : ℝ → V) (hp : Cools H psi) (t : ℝ)
    (nrm : V → ℝ) (k0 k1 k2 b p : ℕ) (hd : Different p k0 k1 k2 b) (σ : Store V) (hσ : σ p = psi t) :
    ∃ σ' m, c.applyIn g.imaginary nrm k0 k1 k2 b p σ = some σ' ∧ 2 ≤ m ∧ m ≤ c.order ∧
      ‖σ' p - (Real.exp (-((emax - emin) * 1.05 * |g.dt|)) : ℂ) • psi (if g.forward then t - g.dt else t + g.dt)‖ ≤
        Real.exp (-((emax - emin) * 1.05 * |g.dt|)) *
          Real.exp ((if g.forward then 1 else -1) * g.dt * (emin - |emin| * 0.05)) *
          errorBound ((emax - emin) * 1.05 * |g.dt|) m * ‖psi t‖ := by
  obtain ⟨a1, a2, a3, a4, a5, a6, a7, a8, n, a9, a10, -⟩ := setup_val _ _ _ _ _ hs
  rw [him, h1, h2] at a6
  rw [hns, Option.getD_none, h1, h2, a6, a3] at a7
  have hex : exponent g = (if g.forward then 1 else -1) * g.dt := by
    unfold exponent
    rw [him]
    cases g.forward <;> simp
  have hex' : exponent g = (g.dt : ℂ) ∨ exponent g = -(g.dt : ℂ) := by
    rw [hex]
    cases g.forward <;> simp
  have hns' : ∀ x : ℝ, Real.sqrt (Complex.normSq (x : ℂ)) = |x| := by
    intro x
    rw [Complex.normSq_ofReal, Real.sqrt_mul_self_eq_abs]
  have hoff : c.offset = ((emin - |emin| * 0.05 : ℝ) : ℂ) := by
    rw [a6]
    simp only [chebyOffset, Bool.not_true, Bool.false_eq_true, if_false]
    rw [hns']
    push_cast
    rfl
  have h73 := fun E (w1 : emin ≤ E) (w2 : E ≤ emax) =>
    C73_imaginary_partial emin emax E g.dt hlt w1 w2 hsmall (exponent g) hex'
  obtain ⟨hpos, _, _⟩ := h73 emin le_rfl hlt.le
  dsimp only at h73 hpos
  rw [← a7] at hpos
  have hsc : c.scaling = (emax - emin) * 1.05 := by
    rw [a7]
    unfold chebyScaling
    rw [if_pos, ← Complex.ofReal_sub, hns', abs_of_pos (by linarith)]
    right
    rcases hex' with e | e <;> rw [e] <;> simp
  obtain ⟨σ', m, s1, s2, s3, s4, -, -⟩ := C31_imaginary_partial c H (fun x => by rw [a2]) (by rw [a4]; exact a1)
    hpos.ne' (if g.forward then 1 else -1)
    ⟨by cases g.forward <;> simp, by rw [a3, a4, hex]⟩ horder a8 nrm k0 k1 k2 b p hd σ
  refine ⟨σ', m, by rw [him]; exact s1, s2, s3, ?_⟩
  have he2 : (if g.forward then (1 : ℂ) else -1) ^ 2 = 1 := by cases g.forward <;> simp
  have hz : |c.scaling * g.dt| = (emax - emin) * 1.05 * |g.dt| := by
    rw [abs_mul, abs_of_pos hpos, hsc]
  have key := series_error H hH (if g.forward then 1 else -1) (-1) (Real.exp (-|c.scaling * g.dt|) : ℂ)
    (by cases g.forward <;> simp)
    c.scaling g.dt (emin - |emin| * 0.05) emin emax hw hpos.ne'
    (fun E w1 w2 => by
      obtain ⟨_, _, r1, r2⟩ := h73 E w1 w2
      rw [← a7, ← a6, hoff, Complex.ofReal_re] at r1 r2
      exact ⟨by linarith, r2⟩)
    c.coeff m (fun k hk => by
      rw [a10 k (by omega), him, show (if (true : Bool) = true then I else J) = I from rfl, hI _ _ _ (by omega),
        Complex.ofReal_mul, besselI_eq, he2]
      ring)
    psi (fun s => by rw [neg_one_smul]; exact hp s) t (if g.forward then -g.dt else g.dt) (by cases g.forward <;> simp)
  rw [← hoff, hz] at key
  have hph : ‖Complex.exp ((if g.forward then 1 else -1) * g.dt * c.offset)‖ =
      Real.exp ((if g.forward then 1 else -1) * g.dt * (emin - |emin| * 0.05)) := by
    rw [hoff, Complex.norm_exp]
    congr 1
    cases g.forward <;> simp
  rw [s4, hσ, a3, hex]
  rw [hph, Complex.norm_real, Real.norm_eq_abs, abs_of_pos (Real.exp_pos _)] at key
  refine le_trans (le_of_eq ?_) key
  congr 2
  cases g.forward <;> simp [sub_eq_add_neg]

/-- C268 does not hold without the factor: for energy bounds zero and one, the time step one, both directions, every
number of terms and every precision, a step multiplies a state of zero energy, which should not change, by two
thirds at most. -/
theorem C268_violated_factor (g : Given) (h1 : g.emin = ((0 : ℝ) : ℂ)) (h2 : g.emax = ((1 : ℝ) : ℂ)) (him : g.imaginary = true)
    (hns : g.scaling = none) (hdt : g.dt = 1) (J I : Lib)
    (hI : ∀ n x k, k < n → I.val n x k = Real.exp (-|x|) * besselI k x)
    (c : Cheby V) (hs : setup (fun x => (0 : V →ₗ[ℂ] V) x) g J I = .val c) (horder : 2 ≤ c.order) (v : V)
    (nrm : V → ℝ) (k0 k1 k2 b p : ℕ) (hd : Different p k0 k1 k2 b) (σ : Store V) (hσ : σ p = v) :
    Cools (0 : V →ₗ[ℂ] V) (fun _ => v) ∧
    ∃ σ', c.applyIn g.imaginary nrm k0 k1 k2 b p σ = some σ' ∧ ‖σ' p‖ ≤ 2 / 3 * ‖v‖ := by
  have hcool : Cools (0 : V →ₗ[ℂ] V) (fun _ => v) := by
    intro t
    rw [LinearMap.zero_apply, neg_zero]
    exact hasDerivAt_const t v
  refine ⟨hcool, ?_⟩
  obtain ⟨σ', m, s1, s2, -, s4⟩ := C268_scaled_partial (0 : V →ₗ[ℂ] V)
    (fun a b => by rw [LinearMap.zero_apply, LinearMap.zero_apply, inner_zero_left, inner_zero_right])
    0 1 (by norm_num) (by norm_num) (fun a => by
      rw [LinearMap.zero_apply, inner_zero_right, Complex.zero_re]
      have := sq_nonneg ‖a‖
      constructor <;> nlinarith) g h1 h2 him hns J I hI c hs horder (fun _ => v) hcool 0 nrm k0 k1 k2 b p hd σ hσ
  refine ⟨σ', s1, ?_⟩
  rw [hdt, abs_one, mul_one, sub_zero, one_mul, abs_zero, zero_mul, sub_zero, mul_zero, Real.exp_zero, mul_one] at s4
  have q1 : Real.exp (-1.05) ≤ 0.368 := by
    have := Real.exp_neg_one_lt_d9
    have h := Real.exp_le_exp.2 (by norm_num : (-1.05 : ℝ) ≤ -1)
    refine h.trans (this.le.trans (by norm_num))
  have q2 : Real.exp (-1.05) * errorBound 1.05 m ≤ 0.28 := by
    unfold errorBound
    have f1 : (1.05 / 2 : ℝ) ^ m / (m ! : ℝ) ≤ (1.05 / 2) ^ 2 / 2 := by
      refine div_le_div₀ (by norm_num) (pow_le_pow_of_le_one (by norm_num) (by norm_num) s2) (by norm_num) ?_
      exact_mod_cast Nat.factorial_le s2
    have f2 : Real.exp (-1.05) * Real.exp (1.05 / 2 + (1.05 / 2) ^ 2 / ((m : ℝ) + 1)) ≤ 1 := by
      rw [← Real.exp_add, Real.exp_le_one_iff]
      have : (1.05 / 2 : ℝ) ^ 2 / ((m : ℝ) + 1) ≤ (1.05 / 2) ^ 2 :=
        div_le_self (by norm_num) (by linarith [m.cast_nonneg (α := ℝ)])
      norm_num at this ⊢
      linarith
    have f3 := Real.exp_pos (-1.05)
    have f4 : (0 : ℝ) ≤ (1.05 / 2 : ℝ) ^ m / (m ! : ℝ) := by positivity
    calc Real.exp (-1.05) * (2 * ((1.05 / 2) ^ m / (m ! : ℝ)) * Real.exp (1.05 / 2 + (1.05 / 2) ^ 2 / ((m : ℝ) + 1)))
        = 2 * ((1.05 / 2) ^ m / (m ! : ℝ)) * (Real.exp (-1.05) * Real.exp (1.05 / 2 + (1.05 / 2) ^ 2 / ((m : ℝ) + 1))) := by ring
      _ ≤ 2 * ((1.05 / 2) ^ 2 / 2) * 1 := by gcongr
      _ ≤ 0.28 := by norm_num
  have q3 := norm_le_norm_add_norm_sub' (σ' p) ((Real.exp (-1.05) : ℂ) • v)
  have q4 : ‖(Real.exp (-1.05) : ℂ) • v‖ = Real.exp (-1.05) * ‖v‖ := by
    rw [norm_smul, Complex.norm_real, Real.norm_eq_abs, abs_of_pos (Real.exp_pos _)]
  rw [q4] at q3
  have q5 := mul_le_mul_of_nonneg_right q2 (norm_nonneg v)
  have q6 := mul_le_mul_of_nonneg_right q1 (norm_nonneg v)
  have q7 := norm_nonneg v
  norm_num at q3 q5 q6 s4 ⊢
  linarith

end QDng.Chexp
