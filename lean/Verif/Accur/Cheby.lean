import Verif.Accur.Rk4
import Verif.Chexp.Props

/-
Property C272: the error of the Chebychev propagator over many steps.
-/

namespace QDng.Accur

open QDng.Chexp QDng.Propa QDng.Ops QDng.Common

variable {V : Type} [NormedAddCommGroup V] [InnerProductSpace ℂ V] [FiniteDimensional ℂ V]

theorem solution_bounded (H : V →ₗ[ℂ] V) (hH : Hermitian H) (psi : ℝ → V) (hp : Solves H psi) (t s : ℝ) :
    ‖psi (t + s)‖ ≤ ‖psi t‖ := by
  have h0 : Solves H (fun _ => (0 : V)) := fun t => by
    rw [map_zero, smul_zero]
    exact hasDerivAt_const t 0
  have := solution_norm H hH psi _ hp h0 t s
  rwa [sub_zero, sub_zero] at this

/-- Errors relative to the norm of the approximation grow like a power. -/
theorem many_relative (H : V →ₗ[ℂ] V) (hH : Hermitian H) (s e : ℝ) (he : 0 ≤ e) (psi : ℝ → V) (hp : Solves H psi)
    (chi : ℕ → V) (h0 : chi 0 = psi 0)
    (hstep : ∀ (n : ℕ) (phi : ℝ → V), Solves H phi → phi (n * s) = chi n →
      ‖chi (n + 1) - phi (n * s + s)‖ ≤ e * ‖chi n‖) (n : ℕ) :
    ‖chi n - psi (n * s)‖ ≤ ((1 + e) ^ n - 1) * ‖psi 0‖ := by
  have hg : ∀ k, ‖chi k‖ ≤ (1 + e) ^ k * ‖psi 0‖ := by
    intro k
    induction k with
    | zero => rw [h0, pow_zero, one_mul]
    | succ k ih =>
      obtain ⟨phi, hq, hphi0⟩ := solution_exists H hH (-Complex.I) (chi k)
      have hq' : Solves H (fun t => phi (t - k * s)) := fun t => by
        have := (hq (t - k * s)).scomp t ((hasDerivAt_id t).sub_const (k * s))
        have e2 : (1 : ℝ) • (-Complex.I • H (phi (t - k * s))) = -Complex.I • H (phi (t - k * s)) := one_smul _ _
        exact e2 ▸ this
      have h1 := hstep k _ hq' (by simp [hphi0])
      have h2 := solution_bounded H hH _ hq' (k * s) s
      have h3 : phi (k * s - k * s) = chi k := by rw [sub_self, hphi0]
      rw [h3] at h2
      have h4 := norm_le_norm_add_norm_sub' (chi (k + 1)) (phi (k * s + s - k * s))
      have h5 : ‖chi (k + 1)‖ ≤ (1 + e) * ‖chi k‖ := by linarith
      refine h5.trans ?_
      rw [pow_succ', mul_assoc]
      exact mul_le_mul_of_nonneg_left ih (by linarith)
  refine (many_steps H hH s e he psi hp chi h0 hstep n).trans ?_
  have h1 : ∑ k ∈ Finset.range n, ‖chi k‖ ≤ (∑ k ∈ Finset.range n, (1 + e) ^ k) * ‖psi 0‖ := by
    rw [Finset.sum_mul]
    exact Finset.sum_le_sum (fun k _ => hg k)
  have h2 := geom_sum_mul (1 + e) n
  rw [add_sub_cancel_left] at h2
  rw [← h2]
  have := mul_le_mul_of_nonneg_left h1 he
  linarith

/-- C272: with the criterion on the norm switched off, a run of `n` steps of the Chebychev propagator gives the solution
of the Schrödinger equation at the end up to `(1 + e) ^ n - 1` of the norm, `e` being the bound for one step with
the chosen number of terms. -/
theorem C272_many (H : V →ₗ[ℂ] V) (hH : Hermitian H) (emin emax : ℝ) (hlt : emin < emax)
    (hw : Within H emin emax) (g : Given) (h1 : g.emin = emin) (h2 : g.emax = emax) (hre : g.imaginary = false)
    (hns : g.scaling = none) (hprec : g.prec ≤ 0) (J I : Lib) (hJ : ∀ n x k, k < n → J.val n x k = besselJ k x)
    (c : Cheby V) (hs : setup (fun x => H x) g J I = .val c) (horder : 2 ≤ c.order)
    (psi : ℝ → V) (hp : Solves H psi) (k0 k1 k2 b p : ℕ) (hd : Different p k0 k1 k2 b) (σ : ℕ → Store V)
    (hσ : σ 0 p = psi 0)
    (hrun : ∀ k, c.applyIn g.imaginary (fun v => ‖v‖) k0 k1 k2 b p (σ k) = some (σ (k + 1))) (n : ℕ) :
    ‖σ n p - psi (n * (if g.forward then g.dt else -g.dt))‖ ≤
      ((1 + errorBound ((emax - emin) / 2 * |g.dt|) c.order) ^ n - 1) * ‖psi 0‖ := by
  have hr : 0 ≤ (emax - emin) / 2 * |g.dt| := mul_nonneg (by linarith) (abs_nonneg _)
  refine many_relative H hH (if g.forward then g.dt else -g.dt) _
    (by unfold errorBound; positivity) psi hp (fun k => σ k p) hσ (fun k phi hq hk => ?_) n
  obtain ⟨σ', m, s1, s2, s3, s4, s5⟩ := C265_step H hH emin emax hlt hw g h1 h2 hre hns J I hJ c hs horder phi hq
    (k * (if g.forward then g.dt else -g.dt)) (fun v => ‖v‖) k0 k1 k2 b p hd (σ k) hk.symm
  rw [hrun k, Option.some.injEq] at s1
  subst s1
  have hm : m = c.order := by
    rcases Nat.lt_or_ge m c.order with h | h
    · obtain ⟨t1, t2⟩ := s5 h
      have : 0 ≤ |‖σ k p‖ - ‖σ (k + 1) p‖| / ‖σ k p‖ := by positivity
      linarith
    · omega
  subst hm
  have e1 : (if g.forward then (k : ℝ) * (if g.forward then g.dt else -g.dt) + g.dt
      else (k : ℝ) * (if g.forward then g.dt else -g.dt) - g.dt) =
      k * (if g.forward then g.dt else -g.dt) + (if g.forward then g.dt else -g.dt) := by
    split_ifs <;> ring
  rw [e1, hk] at s4
  exact s4

end QDng.Accur
