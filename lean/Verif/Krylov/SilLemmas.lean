import Verif.Krylov.Lemmas
import Mathlib.Analysis.InnerProductSpace.Symmetric
import Mathlib.Analysis.InnerProductSpace.Orthonormal

namespace QDng.Krylov

open QDng.Krylov.Spec

variable {V : Type} [NormedAddCommGroup V] [InnerProductSpace ℂ V]

/-- The Lanczos recursion up to the vector `m`. -/
structure LRec (H : V →ₗ[ℂ] V) (ψ : V) (m : ℕ) (s : Lz V) : Prop where
  zero : s.q 0 = ψ
  step : ∀ j, j < m → H (s.q j) = (s.alpha j : ℂ) • s.q j + (s.beta j : ℂ) • s.q (j + 1) +
    (if j = 0 then 0 else (s.beta (j - 1) : ℂ) • s.q (j - 1))
  alpha : ∀ j, j < m → s.alpha j = (inner ℂ (s.q j) (H (s.q j)) : ℂ).re
  pos : ∀ j, j < m → 0 < s.beta j
  azero : ∀ j, m ≤ j → s.alpha j = 0
  bzero : ∀ j, m ≤ j → s.beta j = 0

/-- The vectors up to `m` are orthonormal. -/
def Orth (m : ℕ) (q : ℕ → V) : Prop :=
  ∀ i j, i ≤ m → j ≤ m → (inner ℂ (q i) (q j) : ℂ) = if i = j then 1 else 0

theorem inner_real {H : V →ₗ[ℂ] V} (hH : H.IsSymmetric) (x : V) :
    (((inner ℂ x (H x) : ℂ).re : ℝ) : ℂ) = inner ℂ x (H x) := by
  have h := hH x x
  have h2 : (starRingEnd ℂ) (inner ℂ x (H x)) = inner ℂ x (H x) := by
    rw [inner_conj_symm, h]
  exact Complex.conj_eq_iff_re.1 h2

theorem unit_vec {w : V} (hb : ‖w‖ ≠ 0) :
    (inner ℂ (((1 / ‖w‖ : ℝ) : ℂ) • w) (((1 / ‖w‖ : ℝ) : ℂ) • w) : ℂ) = 1 := by
  rw [inner_smul_left, inner_smul_right, Complex.conj_ofReal, inner_self_eq_norm_sq_to_K]
  have : (‖w‖ : ℂ) ≠ 0 := by exact_mod_cast hb
  push_cast
  simp only [Complex.coe_algebraMap]
  field_simp

theorem start_rec {H : V →ₗ[ℂ] V} {stale : ℕ → V} {ψ : V} {s : Lz V}
    (hs : silStart H stale ψ = some s) : LRec H ψ 1 s ∧ s.conv = 2 := by
  unfold silStart at hs
  simp only at hs
  set a := (inner ℂ ψ (H ψ) : ℂ).re with ha
  set w := H ψ - (a : ℂ) • ψ with hw
  split at hs
  · cases hs
  · rename_i hb
    obtain rfl := Option.some.inj hs
    have hbc : (‖w‖ : ℂ) ≠ 0 := by exact_mod_cast hb
    refine ⟨⟨?_, ?_, ?_, ?_, ?_, ?_⟩, rfl⟩
    · simp
    · intro j hj
      obtain rfl : j = 0 := by omega
      simp only [Function.update_self, if_true, add_zero]
      rw [Function.update_of_ne (by simp), Function.update_self, smul_smul]
      push_cast
      rw [mul_one_div_cancel hbc, one_smul, hw]
      abel
    · intro j hj
      obtain rfl : j = 0 := by omega
      simp [ha]
    · intro j hj
      obtain rfl : j = 0 := by omega
      simp only [Function.update_self]
      exact lt_of_le_of_ne (norm_nonneg _) (Ne.symm hb)
    · intro j hj
      simp only
      rw [Function.update_of_ne (by omega)]
    · intro j hj
      simp only
      rw [Function.update_of_ne (by omega)]

theorem start_orth {H : V →ₗ[ℂ] V} (hH : H.IsSymmetric) {stale : ℕ → V} {ψ : V} (hψ : ‖ψ‖ = 1)
    {s : Lz V} (hs : silStart H stale ψ = some s) : Orth 1 s.q := by
  unfold silStart at hs
  simp only at hs
  set a := (inner ℂ ψ (H ψ) : ℂ).re with ha
  set w := H ψ - (a : ℂ) • ψ with hw
  split at hs
  · cases hs
  · rename_i hb
    obtain rfl := Option.some.inj hs
    have hψψ : (inner ℂ ψ ψ : ℂ) = 1 := by rw [inner_self_eq_norm_sq_to_K, hψ]; simp
    have h01 : (inner ℂ ψ w : ℂ) = 0 := by
      rw [hw, inner_sub_right, inner_smul_right, hψψ, ha, inner_real hH]; ring
    have h10 : (inner ℂ w ψ : ℂ) = 0 := by rw [← inner_conj_symm, h01]; simp
    intro i j hi hj
    have hi' : i = 0 ∨ i = 1 := by omega
    have hj' : j = 0 ∨ j = 1 := by omega
    rcases hi' with rfl | rfl <;> rcases hj' with rfl | rfl
    · simp [hψ]
    · simp [inner_smul_right, h01]
    · simp [inner_smul_left, h10]
    · simpa using unit_vec hb

/-- One step of the recursion. -/
theorem step_rec {H : V →ₗ[ℂ] V} {ψ : V} {m : ℕ} {s : Lz V}
    (I : LRec H ψ (m + 1) s) {w : V} {a : ℝ}
    (ha : a = (inner ℂ (s.q (m + 1)) (H (s.q (m + 1))) : ℂ).re)
    (hw : w = H (s.q (m + 1)) - (a : ℂ) • s.q (m + 1) - (s.beta m : ℂ) • s.q m) (hb : ‖w‖ ≠ 0)
    (c : ℕ) :
    LRec H ψ (m + 2) { q := Function.update s.q (m + 2) (((1 / ‖w‖ : ℝ) : ℂ) • w),
                       alpha := Function.update s.alpha (m + 1) a,
                       beta := Function.update s.beta (m + 1) ‖w‖,
                       conv := c } := by
  have hbc : (‖w‖ : ℂ) ≠ 0 := by exact_mod_cast hb
  refine ⟨?_, ?_, ?_, ?_, ?_, ?_⟩
  · simp only
    rw [Function.update_of_ne (by omega)]
    exact I.zero
  · intro j hj
    simp only
    by_cases h1 : j = m + 1
    · subst h1
      rw [Function.update_of_ne (by omega), Function.update_self, Function.update_self,
        Function.update_self, if_neg (by omega), smul_smul]
      push_cast
      rw [mul_one_div_cancel hbc, one_smul, Function.update_of_ne (by omega), Function.update_of_ne (by omega), hw]
      abel
    · rw [Function.update_of_ne (by omega), Function.update_of_ne h1, Function.update_of_ne h1,
        Function.update_of_ne (by omega), I.step j (by omega)]
      by_cases h3 : j = 0
      · simp [h3]
      · rw [if_neg h3, if_neg h3, Function.update_of_ne (by omega), Function.update_of_ne (by omega)]
  · intro j hj
    simp only
    rw [Function.update_of_ne (show j ≠ m + 2 by omega)]
    by_cases h1 : j = m + 1
    · subst h1
      rw [Function.update_self, ha]
    · rw [Function.update_of_ne h1]
      exact I.alpha j (by omega)
  · intro j hj
    simp only
    by_cases h1 : j = m + 1
    · subst h1
      rw [Function.update_self]
      exact lt_of_le_of_ne (norm_nonneg _) (Ne.symm hb)
    · rw [Function.update_of_ne h1]
      exact I.pos j (by omega)
  · intro j hj
    simp only
    rw [Function.update_of_ne (by omega)]
    exact I.azero j (by omega)
  · intro j hj
    simp only
    rw [Function.update_of_ne (by omega)]
    exact I.bzero j (by omega)

/-- The residual is orthogonal to the vectors so far. -/
theorem residual_perp {H : V →ₗ[ℂ] V} (hH : H.IsSymmetric) {ψ : V} {m : ℕ} {s : Lz V}
    (I : LRec H ψ (m + 1) s) (O : Orth (m + 1) s.q) {w : V} {a : ℝ}
    (ha : a = (inner ℂ (s.q (m + 1)) (H (s.q (m + 1))) : ℂ).re)
    (hw : w = H (s.q (m + 1)) - (a : ℂ) • s.q (m + 1) - (s.beta m : ℂ) • s.q m) :
    ∀ j, j ≤ m + 1 → (inner ℂ (s.q j) w : ℂ) = 0 := by
  intro j hj
  rw [hw, inner_sub_right, inner_sub_right, inner_smul_right, inner_smul_right]
  by_cases h1 : j = m + 1
  · subst h1
    rw [O (m + 1) (m + 1) (by omega) (by omega), O (m + 1) m (by omega) (by omega), ha,
      inner_real hH, if_pos rfl, if_neg (by omega)]
    ring
  · rw [O j (m + 1) hj (by omega), if_neg h1, ← hH, I.step j (by omega), inner_add_left,
      inner_add_left, inner_smul_left, inner_smul_left, O j (m + 1) hj (by omega), if_neg h1,
      Complex.conj_ofReal]
    by_cases h2 : j = m
    · subst h2
      rw [O (j + 1) (j + 1) (by omega) (by omega), if_pos rfl, O j j (by omega) (by omega),
        if_pos rfl, Complex.conj_ofReal]
      by_cases h3 : j = 0
      · subst h3; simp
      · rw [if_neg h3, inner_smul_left, O (j - 1) (j + 1) (by omega) (by omega),
          if_neg (by omega)]
        ring
    · rw [O (j + 1) (m + 1) (by omega) (by omega), if_neg (by omega), O j m (by omega) (by omega),
        if_neg h2]
      by_cases h3 : j = 0
      · subst h3; simp
      · rw [if_neg h3, inner_smul_left, O (j - 1) (m + 1) (by omega) (by omega),
          if_neg (by omega)]
        ring

theorem step_orth {m : ℕ} {q : ℕ → V} (O : Orth (m + 1) q) {w : V} (hb : ‖w‖ ≠ 0)
    (hperp : ∀ j, j ≤ m + 1 → (inner ℂ (q j) w : ℂ) = 0) :
    Orth (m + 2) (Function.update q (m + 2) (((1 / ‖w‖ : ℝ) : ℂ) • w)) := by
  have hperp' : ∀ j, j ≤ m + 1 → (inner ℂ w (q j) : ℂ) = 0 := by
    intro j hj
    rw [← inner_conj_symm, hperp j hj]; simp
  intro i j hi hj
  by_cases h1 : i = m + 2
  · subst h1
    by_cases h2 : j = m + 2
    · subst h2
      rw [Function.update_self, if_pos rfl]
      exact unit_vec hb
    · rw [Function.update_self, Function.update_of_ne h2, inner_smul_left, hperp' j (by omega),
        mul_zero, if_neg (by omega)]
  · by_cases h2 : j = m + 2
    · subst h2
      rw [Function.update_self, Function.update_of_ne h1, inner_smul_right, hperp i (by omega),
        mul_zero, if_neg h1]
    · rw [Function.update_of_ne h1, Function.update_of_ne h2]
      exact O i j (by omega) (by omega)

theorem loop_inv {H : V →ₗ[ℂ] V} {ψ : V} {dt tol : ℝ} :
    ∀ (k m : ℕ) (s s' : Lz V) (it : ℕ), LRec H ψ (m + 1) s → s.conv = m + 2 →
      silLoop H dt tol k (m + 2) s = some (s', it) →
      ∃ l, LRec H ψ (l + 1) s' ∧ (H.IsSymmetric → Orth (m + 1) s.q → Orth (l + 1) s'.q) ∧
        s'.conv = l + 2 ∧ l ≤ m + k ∧
        ((it = l + 1 ∧ 0 < tol) ∨ (it = l + 2 ∧ l = m + k)) := by
  intro k
  induction k with
  | zero =>
    intro m s s' it I hc h
    simp only [silLoop, Option.some.injEq, Prod.mk.injEq] at h
    obtain ⟨rfl, rfl⟩ := h
    exact ⟨m, I, fun _ h => h, hc, by omega, Or.inr ⟨rfl, rfl⟩⟩
  | succ k ih =>
    intro m s s' it I hc h
    rw [silLoop] at h
    simp only [show m + 2 - 1 = m + 1 by omega, show m + 2 - 2 = m by omega] at h
    split at h
    · cases h
    · rename_i hb
      have I' := step_rec I rfl rfl hb (s.conv + 1)
      have hO : H.IsSymmetric → Orth (m + 1) s.q → _ := fun hH O =>
        step_orth O hb (residual_perp hH I O rfl rfl)
      split at h
      · rename_i he
        simp only [Option.some.injEq, Prod.mk.injEq] at h
        obtain ⟨rfl, rfl⟩ := h
        refine ⟨m + 1, I', hO, ?_, by omega, Or.inl ⟨by omega, ?_⟩⟩
        · simp only; omega
        · exact lt_of_le_of_lt (by unfold silErr; exact abs_nonneg _) he
      · obtain ⟨l, g1, gO, g2, g3, g4⟩ := ih (m + 1) _ s' it I' (by simp only; omega) h
        refine ⟨l, g1, fun hH O => gO hH (hO hH O), g2, by omega, ?_⟩
        rcases g4 with g4 | g4
        · exact Or.inl g4
        · exact Or.inr ⟨g4.1, by omega⟩

/-- What `BuildLZB` leaves: vectors between which the Hamiltonian is tridiagonal.  `m` is the index
of the last vector. -/
structure Built (H : V →ₗ[ℂ] V) (ψ : V) (order m : ℕ) (full : Prop) (s : Lz V) : Prop where
  zero : s.q 0 = ψ
  conv : s.conv = m + 1
  le : m + 1 ≤ order
  two : 1 ≤ m
  orth : H.IsSymmetric → ‖ψ‖ = 1 → Orth m s.q
  step : ∀ j, j < m → H (s.q j) = (s.alpha j : ℂ) • s.q j + (s.beta j : ℂ) • s.q (j + 1) +
    (if j = 0 then 0 else (s.beta (j - 1) : ℂ) • s.q (j - 1))
  alpha : ∀ j, j < m → s.alpha j = (inner ℂ (s.q j) (H (s.q j)) : ℂ).re
  pos : ∀ j, j < m → 0 < s.beta j
  bzero : ∀ j, m ≤ j → s.beta j = 0
  last : full → m + 1 = order ∧ s.alpha m = (inner ℂ (s.q m) (H (s.q m)) : ℂ).re

theorem build_inv {H : V →ₗ[ℂ] V} {order : ℕ} (ho : 3 ≤ order) {dt err : ℝ}
    {stale : ℕ → V} {ψ : V} {s : Lz V}
    (hs : silBuild H order dt err stale ψ = some s) :
    ∃ m, Built H ψ order m (err ≤ 0) s := by
  unfold silBuild at hs
  cases h0 : silStart H stale ψ with
  | none => rw [h0] at hs; cases hs
  | some s0 =>
    rw [h0] at hs
    simp only at hs
    obtain ⟨I0, c0⟩ := start_rec h0
    cases h1 : silLoop H dt (err * ‖ψ‖) (order - 2) 2 s0 with
    | none => rw [h1] at hs; cases hs
    | some r =>
      obtain ⟨s1, it⟩ := r
      rw [h1] at hs
      simp only [Option.some.injEq] at hs
      obtain ⟨l, I, hO, hc, hl, hit⟩ := loop_inv (order - 2) 0 s0 s1 it I0 (by simpa using c0) h1
      subst hs
      refine ⟨l + 1, ⟨I.zero, by simp only; omega, by omega, by omega,
        fun hH hψ => hO hH (start_orth hH hψ h0), ?_, ?_, I.pos, I.bzero, ?_⟩⟩
      · intro j hj
        simp only
        rcases hit with ⟨rfl, _⟩ | ⟨rfl, _⟩
        · by_cases h2 : j = l + 1 - 1
          · have h2' : j = l := by omega
            subst h2'
            simp only [Nat.add_sub_cancel, Function.update_self]
            rw [← I.alpha _ hj]
            exact I.step _ hj
          · rw [Function.update_of_ne h2]
            exact I.step _ hj
        · rw [Function.update_of_ne (by omega)]
          exact I.step _ hj
      · intro j hj
        simp only
        rcases hit with ⟨rfl, _⟩ | ⟨rfl, _⟩
        · by_cases h2 : j = l + 1 - 1
          · have h2' : j = l := by omega
            subst h2'
            simp only [Nat.add_sub_cancel, Function.update_self]
          · rw [Function.update_of_ne h2]
            exact I.alpha _ hj
        · rw [Function.update_of_ne (by omega)]
          exact I.alpha _ hj
      · intro he
        rcases hit with ⟨rfl, ht⟩ | ⟨rfl, hl'⟩
        · exact absurd ht (not_lt.2 (mul_nonpos_of_nonpos_of_nonneg he (norm_nonneg _)))
        · refine ⟨by omega, ?_⟩
          simp only
          rw [show l + 2 - 1 = l + 1 by omega, Function.update_self]

/-- The tridiagonal matrix with complex entries. -/
def triC (n : ℕ) (alpha beta : ℕ → ℝ) : Matrix (Fin n) (Fin n) ℂ :=
  (tri n alpha beta).map (fun x : ℝ => (x : ℂ))

theorem triC_col {n : ℕ} (alpha beta : ℕ → ℝ) (q : ℕ → V) (j : Fin n) (hj : j.val + 1 < n) :
    ∑ i, triC n alpha beta i j • q i = (alpha j : ℂ) • q j + (beta j : ℂ) • q (j.val + 1) +
      (if j.val = 0 then 0 else (beta (j.val - 1) : ℂ) • q (j.val - 1)) := by
  have hval : ∀ i : Fin n, triC n alpha beta i j • q i =
      (if i = j then (alpha j : ℂ) • q j else 0) +
      (if i = (⟨j.val + 1, hj⟩ : Fin n) then (beta j : ℂ) • q (j.val + 1) else 0) +
      (if i = (⟨j.val - 1, by omega⟩ : Fin n) then
        (if j.val = 0 then 0 else (beta (j.val - 1) : ℂ) • q (j.val - 1)) else 0) := by
    intro i
    simp only [triC, tri, Matrix.map_apply, Fin.ext_iff]
    by_cases h1 : i.val = j.val
    · rw [if_pos h1, if_pos h1, if_neg (by omega), h1]
      by_cases h2 : j.val = 0
      · simp [h2]
      · rw [if_neg (show ¬ j.val = j.val - 1 by omega)]; simp
    · rw [if_neg h1, if_neg h1]
      by_cases h2 : i.val = j.val + 1
      · rw [if_pos h2, if_pos h2, if_neg (show ¬ i.val = j.val - 1 by omega), h2]; simp
      · rw [if_neg h2, if_neg h2]
        by_cases h3 : j.val = i.val + 1
        · rw [if_pos h3, if_pos (by omega), if_neg (show ¬ j.val = 0 by omega),
            show j.val - 1 = i.val by omega]; simp
        · rw [if_neg h3]
          by_cases h4 : i.val = j.val - 1
          · rw [if_pos h4, if_pos (show j.val = 0 by omega)]; simp
          · rw [if_neg h4]; simp
  simp only [hval, Finset.sum_add_distrib, Finset.sum_ite_eq', Finset.mem_univ, if_true]

theorem Built.kry {H : V →ₗ[ℂ] V} {ψ : V} {order m : ℕ} {full : Prop} {s : Lz V}
    (B : Built H ψ order m full s) :
    Kry H s.q order (m + 1) (triC order s.alpha s.beta) := by
  refine ⟨?_, ?_, ?_⟩
  · intro i j h
    simp only [triC, tri, Matrix.map_apply]
    rw [if_neg (by omega), if_neg (by omega), if_neg (by omega)]
    simp
  · intro i j h1 h2
    simp only [triC, tri, Matrix.map_apply]
    rw [if_neg (by omega)]
    by_cases h3 : i.val = j.val + 1
    · rw [if_pos h3, B.bzero _ (by omega)]; simp
    · rw [if_neg h3, if_neg (by omega)]; simp
  · intro j hj
    have := B.le
    rw [triC_col _ _ _ j (by omega), B.step j (by omega)]

/-- The contract of LAPACK in complex numbers. -/
theorem triC_eigen (L : TriDiag) (n : ℕ) (a b : ℕ → ℝ) :
    triC n a b * (L.evec n a b).map (fun x : ℝ => (x : ℂ)) =
      (L.evec n a b).map (fun x : ℝ => (x : ℂ)) *
        Matrix.diagonal (fun j => (L.eval n a b j : ℂ)) := by
  ext i j
  have h := congrFun (congrFun (L.eigen n a b) i) j
  rw [Matrix.mul_apply, Matrix.mul_diagonal] at h
  rw [Matrix.mul_apply, Matrix.mul_diagonal]
  simp only [triC, Matrix.map_apply]
  rw [← Complex.ofReal_mul, ← h]
  push_cast
  rfl

theorem evec_orth (L : TriDiag) (n : ℕ) (a b : ℕ → ℝ) :
    (L.evec n a b).map (fun x : ℝ => (x : ℂ)) *
      ((L.evec n a b).map (fun x : ℝ => (x : ℂ))).transpose = 1 := by
  have h : L.evec n a b * (L.evec n a b).transpose = 1 := mul_eq_one_comm.1 (L.orth n a b)
  ext i j
  have h' := congrFun (congrFun h i) j
  rw [Matrix.mul_apply] at h'
  rw [Matrix.mul_apply]
  simp only [Matrix.transpose_apply, Matrix.map_apply] at *
  rw [show ((1 : Matrix (Fin n) (Fin n) ℂ) i j) = (((1 : Matrix (Fin n) (Fin n) ℝ) i j : ℝ) : ℂ) by
    simp only [Matrix.one_apply]; split <;> simp]
  rw [← h']
  push_cast
  rfl

theorem silCoef_eq (L : TriDiag) (n : ℕ) (a b : ℕ → ℝ) (tau : ℂ) (z : Fin n) (hz : z.val = 0)
    (i : Fin n) :
    silCoef L n a b tau i = ∑ j, (L.evec n a b).map (fun x : ℝ => (x : ℂ)) i j *
      (((L.evec n a b).map (fun x : ℝ => (x : ℂ))).transpose j z *
        (fun x => Complex.exp (x * tau)) (L.eval n a b j : ℂ)) := by
  unfold silCoef
  simp only [Matrix.mulVec, dotProduct]
  apply Finset.sum_congr rfl
  intro j _
  congr 1
  congr 1
  rw [Finset.sum_eq_single z]
  · simp [hz]
  · intro k _ hk
    rw [if_neg (fun h => hk (Fin.ext (by omega))), mul_zero]
  · simp

/-- The result of a step as a linear combination. -/
theorem Built.result {H : V →ₗ[ℂ] V} {ψ : V} {order m : ℕ} {full : Prop} {s : Lz V}
    (B : Built H ψ order m full s) (L : TriDiag) (tau : ℂ) :
    combine s.q (arr (silCoef L order s.alpha s.beta tau)) ψ s.conv =
      ∑ i, silCoef L order s.alpha s.beta tau i • s.q i ∧
    ∀ i : Fin order, m + 1 ≤ i.val → silCoef L order s.alpha s.beta tau i = 0 := by
  have hle := B.le
  let z : Fin order := ⟨0, by omega⟩
  have hz : ∀ i : Fin order, m + 1 ≤ i.val → silCoef L order s.alpha s.beta tau i = 0 := by
    intro i hi
    rw [silCoef_eq L order _ _ tau z rfl]
    exact B.kry.coef_zero (triC_eigen L _ _ _) (evec_orth L _ _ _) (z := z) rfl (by omega)
      (fun x => Complex.exp (x * tau)) i hi
  refine ⟨?_, hz⟩
  rw [combine_eq _ _ _ _ B.zero (by rw [B.conv]; omega), B.conv, sum_arr _ _ _ hle hz]

end QDng.Krylov
