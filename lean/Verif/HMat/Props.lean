import Verif.HMat.Lemmas
import Mathlib.Analysis.Complex.ExponentialBounds

/-
C178 (exponential of a matrix operator), C179 (energy bounds of a matrix operator), C180 (copies of a matrix
operator), C181 (application and transformation of a matrix operator) and C182 (energy bounds of a matrix dipole
operator).
-/

namespace QDng.HMat

open QDng.Common Matrix

variable {n : Nat}

/-! ### States -/

/-- The operator has the matrix `A` and what it has computed belongs to `A`. -/
def State (L : Lapack n) (A : RMat n) (o : Op n) : Prop :=
  o.mat = A ∧ ((o.x = none ∧ o.ds = none ∧ o.valid = false) ∨
    (o.x = some (L.vecs A) ∧ o.linked = true ∧ o.ds = some (L.vals A)))

/-- The operator has the matrix `A` and what it declares as valid belongs to `A`. -/
def Weak (L : Lapack n) (A : RMat n) (o : Op n) : Prop :=
  o.mat = A ∧ (o.valid = true → o.ds = some (L.vals A)) ∧
    ((o.x = none ∧ o.ds = none ∧ o.valid = false) ∨ (o.x.isSome ∧ o.linked = true ∧ o.ds.isSome))

theorem bound_state (L : Lapack n) (A : RMat n) (o : Op n) (h : State L A o) (i : Fin n) :
    ∃ o', o.bound L (some i) = .val (L.vals A i, o') ∧ State L A o' := by
  obtain ⟨rfl, ⟨h1, h2, h3⟩ | ⟨h1, h2, h3⟩⟩ := h
  · refine ⟨o.initDspace L, ?_, rfl, Or.inr ⟨rfl, by simp [Op.initDspace, h1], rfl⟩⟩
    unfold Op.bound
    rw [h3]
    rfl
  · by_cases hv : o.valid
    · refine ⟨o, ?_, rfl, Or.inr ⟨h1, h2, h3⟩⟩
      unfold Op.bound
      simp [hv, h3]
    · refine ⟨o.initDspace L, ?_, rfl, Or.inr ⟨rfl, by simp [Op.initDspace, h2], rfl⟩⟩
      unfold Op.bound
      rw [if_neg hv]
      rfl

theorem bound_weak (L : Lapack n) (A : RMat n) (o : Op n) (h : Weak L A o) (i : Fin n) :
    ∃ o', o.bound L (some i) = .val (L.vals A i, o') ∧ Weak L A o' := by
  obtain ⟨rfl, hv, hc⟩ := h
  by_cases hval : o.valid
  · refine ⟨o, ?_, rfl, hv, hc⟩
    unfold Op.bound
    simp [hval, hv hval]
  · refine ⟨o.initDspace L, ?_, rfl, fun _ => rfl, Or.inr ⟨rfl, ?_, rfl⟩⟩
    · unfold Op.bound
      rw [if_neg hval]
      rfl
    · rcases hc with ⟨h1, -, -⟩ | ⟨h1, h2, -⟩
      · simp [Op.initDspace, h1]
      · simp [Op.initDspace, h2]

theorem part_state {L : Lapack n} (hL : L.Ok) (A : RMat n) (o : Op n) (h : State L A o) (c : ℂ) (ψ : Fin n → ℂ) :
    ∃ o', o.part L c ψ = .val ((NormedSpace.exp (c • cpl (upper A))).mulVec ψ, o') ∧ State L A o' := by
  have hres : ∀ X d, X = L.vecs A → d = L.vals A →
      matVec X false (fun i => matVec X true ψ i * Complex.exp ((d i : ℂ) * c)) =
        (NormedSpace.exp (c • cpl (upper A))).mulVec ψ := by
    rintro X d rfl rfl
    rw [hL.decomp A, ← exp_decomp _ _ (hL.ortho A), ← sandwich]
  obtain ⟨rfl, ⟨h1, h2, h3⟩ | ⟨h1, h2, h3⟩⟩ := h
  · refine ⟨o.initDspace L, ?_, rfl, Or.inr ⟨rfl, by simp [Op.initDspace, h1], rfl⟩⟩
    unfold Op.part Op.expo Op.transform
    simp only [h2, Option.isNone_none, if_true, Op.initDspace, h1]
    rw [hres _ _ rfl rfl]
  · refine ⟨o, ?_, rfl, Or.inr ⟨h1, h2, h3⟩⟩
    unfold Op.part Op.expo Op.transform
    simp only [h3, Option.isNone_some, h2, h1, Bool.false_eq_true, if_false]
    rw [hres _ _ rfl rfl]

theorem part_weak (L : Lapack n) (A : RMat n) (o : Op n) (h : Weak L A o) (c : ℂ) (ψ : Fin n → ℂ) :
    ∃ φ o', o.part L c ψ = .val (φ, o') ∧ Weak L A o' := by
  obtain ⟨rfl, hv, ⟨h1, h2, h3⟩ | ⟨h1, h2, h3⟩⟩ := h
  · refine ⟨matVec (L.vecs o.mat) false fun i => matVec (L.vecs o.mat) true ψ i *
      Complex.exp ((L.vals o.mat i : ℂ) * c), o.initDspace L, ?_, rfl, fun _ => rfl, Or.inr ⟨rfl, by simp [Op.initDspace, h1], rfl⟩⟩
    unfold Op.part Op.expo Op.transform
    simp only [h2, Option.isNone_none, if_true, Op.initDspace, h1]
  · obtain ⟨X, hX⟩ := Option.isSome_iff_exists.mp h1
    obtain ⟨d, hd⟩ := Option.isSome_iff_exists.mp h3
    refine ⟨matVec X false fun i => matVec X true ψ i * Complex.exp ((d i : ℂ) * c), o, ?_, rfl, hv, Or.inr ⟨h1, h2, h3⟩⟩
    unfold Op.part Op.expo Op.transform
    simp only [hd, Option.isNone_some, h2, hX, Bool.false_eq_true, if_false]

theorem firstIx_pos (hn : 0 < n) : firstIx n = some ⟨0, hn⟩ := dif_pos hn

theorem lastIx_pos (hn : 0 < n) : lastIx n = some ⟨n - 1, Nat.sub_lt hn Nat.one_pos⟩ := dif_pos hn

theorem uses_state {L : Lapack n} (hL : L.Ok) (hn : 0 < n) (A : RMat n) (l : List (Use n)) :
    ∀ o, State L A o → ∃ o', o.uses L l = .val o' ∧ State L A o' := by
  induction l with
  | nil => exact fun o h => ⟨o, rfl, h⟩
  | cons u l ih =>
    intro o h
    have hu : ∃ o', o.use L u = .val o' ∧ State L A o' := by
      cases u with
      | emin =>
        obtain ⟨o', h1, h2⟩ := bound_state L A o h ⟨0, hn⟩
        exact ⟨o', by simp only [Op.use, Op.emin, firstIx_pos hn, h1], h2⟩
      | emax =>
        obtain ⟨o', h1, h2⟩ := bound_state L A o h ⟨n - 1, Nat.sub_lt hn Nat.one_pos⟩
        exact ⟨o', by simp only [Op.use, Op.emax, lastIx_pos hn, h1], h2⟩
      | apply ψ => exact ⟨o, rfl, h⟩
      | part c ψ =>
        obtain ⟨o', h1, h2⟩ := part_state hL A o h c ψ
        exact ⟨o', by simp only [Op.use, h1], h2⟩
    obtain ⟨o', h1, h2⟩ := hu
    obtain ⟨o'', h3, h4⟩ := ih o' h2
    exact ⟨o'', by simp only [Op.uses, h1, h3], h4⟩

theorem uses_weak (L : Lapack n) (hn : 0 < n) (A : RMat n) (l : List (Use n)) :
    ∀ o, Weak L A o → ∃ o', o.uses L l = .val o' ∧ Weak L A o' := by
  induction l with
  | nil => exact fun o h => ⟨o, rfl, h⟩
  | cons u l ih =>
    intro o h
    have hu : ∃ o', o.use L u = .val o' ∧ Weak L A o' := by
      cases u with
      | emin =>
        obtain ⟨o', h1, h2⟩ := bound_weak L A o h ⟨0, hn⟩
        exact ⟨o', by simp only [Op.use, Op.emin, firstIx_pos hn, h1], h2⟩
      | emax =>
        obtain ⟨o', h1, h2⟩ := bound_weak L A o h ⟨n - 1, Nat.sub_lt hn Nat.one_pos⟩
        exact ⟨o', by simp only [Op.use, Op.emax, lastIx_pos hn, h1], h2⟩
      | apply ψ => exact ⟨o, rfl, h⟩
      | part c ψ =>
        obtain ⟨φ, o', h1, h2⟩ := part_weak L A o h c ψ
        exact ⟨o', by simp only [Op.use, h1], h2⟩
    obtain ⟨o', h1, h2⟩ := hu
    obtain ⟨o'', h3, h4⟩ := ih o' h2
    exact ⟨o'', by simp only [Op.uses, h1, h3], h4⟩

/-- The matrix with the diagonal shifted by `m`. -/
def shift (A : RMat n) (m : ℝ) : RMat n := A - m • (1 : RMat n)

theorem shift_eq (A : RMat n) (m : ℝ) : (fun i j => if i = j then A i j - m else A i j : RMat n) = shift A m := by
  funext i j
  simp only [shift, Matrix.sub_apply, Matrix.smul_apply, Matrix.one_apply, smul_eq_mul]
  split <;> simp

theorem load_plain (L : Lapack n) (g file : RMat n) :
    (Op.new g).load L file false = .val ⟨file, none, false, none, false⟩ := rfl

theorem load_zero (L : Lapack n) (hn : 0 < n) (g file : RMat n) :
    (Op.new g).load L file true =
      .val ⟨shift file (L.vals file ⟨0, hn⟩), some (L.vecs file), true, some (L.vals file), false⟩ := by
  rw [← shift_eq]
  simp only [Op.load, Op.emin, firstIx_pos hn, Op.bound, Op.new, Op.initDspace]
  rfl

/-! ### C178: the exponential -/

/-- C178: an operator read from a file without `setzero` acts, after any history of applications, energy bounds and
steps, in a step of the split operator propagator as the exponential of its matrix.  Missing: `setzero`, `qdiag`
(`C178_violated_setzero`, `C178_violated_qdiag`). -/
theorem C178_exponential_partial (L : Lapack n) (hL : L.Ok) (hn : 0 < n) (g file : RMat n) (hs : file.IsSymm)
    (l : List (Use n)) (c : ℂ) (ψ : Fin n → ℂ) :
    ∃ o o' o'', (Op.new g).load L file false = .val o ∧ o.uses L l = .val o' ∧
      o'.part L c ψ = .val ((NormedSpace.exp (c • file.map (algebraMap ℝ ℂ))).mulVec ψ, o'') := by
  obtain ⟨o', h1, h2⟩ := uses_state hL hn file l ⟨file, none, false, none, false⟩ ⟨rfl, Or.inl ⟨rfl, rfl, rfl⟩⟩
  obtain ⟨o'', h3, -⟩ := part_state hL file o' h2 c ψ
  rw [upper_symm file hs] at h3
  exact ⟨_, o', o'', load_plain L g file, h1, h3⟩

/-- The hypotheses are met: there is a diagonalisation for matrices of every size, and a symmetric matrix which is
not diagonal. -/
example : (∃ L : Lapack 2, L.Ok) ∧ (!![0, 1; 1, 0] : RMat 2).IsSymm := by
  refine ⟨exists_lapack 2, ?_⟩
  ext i j
  fin_cases i <;> fin_cases j <;> rfl

/-- C178 fails with `setzero`: the operator applies the shifted matrix, the step uses the exponential of the matrix
which is not shifted. -/
theorem C178_violated_setzero (L : Lapack n) (hL : L.Ok) (hn : 0 < n) (g file : RMat n) (hs : file.IsSymm) :
    ∃ o, (Op.new g).load L file true = .val o ∧
      (∀ ψ, o.apply ψ = ((shift file (L.vals file ⟨0, hn⟩)).map (algebraMap ℝ ℂ)).mulVec ψ) ∧
      ∀ c ψ, ∃ o', o.part L c ψ = .val ((NormedSpace.exp (c • file.map (algebraMap ℝ ℂ))).mulVec ψ, o') := by
  refine ⟨_, load_zero L hn g file, fun ψ => matVec_eq _ _, fun c ψ =>
    ⟨⟨shift file (L.vals file ⟨0, hn⟩), some (L.vecs file), true, some (L.vals file), false⟩, ?_⟩⟩
  · have hd := hL.decomp file
    rw [upper_symm file hs] at hd
    have hX := exp_decomp _ (L.vals file) (hL.ortho file) c
    rw [← hd] at hX
    show Ans.val (matVec (L.vecs file) false (fun i => matVec (L.vecs file) true ψ i *
      Complex.exp ((L.vals file i : ℂ) * c)), _) = _
    rw [sandwich, hX]
    rfl

/-- A matrix with one element: the step is not the exponential of the operator which is applied. -/
theorem C178_violated_setzero_value (L : Lapack 1) (hL : L.Ok) (g : RMat 1) :
    ∃ o, (Op.new g).load L 1 true = .val o ∧
      ∀ A : Matrix (Fin 1) (Fin 1) ℂ, (∀ ψ, o.apply ψ = A.mulVec ψ) →
        ∀ o', o.part L 1 (fun _ => 1) ≠ .val ((NormedSpace.exp ((1 : ℂ) • A)).mulVec (fun _ => 1), o') := by
  have hs : (1 : RMat 1).IsSymm := Matrix.isSymm_one
  obtain ⟨o, h1, h2, h3⟩ := C178_violated_setzero L hL one_pos g 1 hs
  refine ⟨o, h1, ?_⟩
  intro A hA o' hp
  obtain ⟨o'', h4⟩ := h3 1 (fun _ => 1)
  rw [hp] at h4
  have h5 := congrArg Prod.fst (Ans.val.inj h4)
  have hev : L.vals 1 ⟨0, one_pos⟩ = 1 := by
    have e1 := congrFun (congrFun (hL.eigen 1) 0) 0
    have e2 := congrFun (congrFun (hL.ortho 1) 0) 0
    rw [upper_symm _ hs, Matrix.mul_diagonal, Matrix.one_mul] at e1
    rw [Matrix.mul_apply, Fin.sum_univ_one, Matrix.transpose_apply, Matrix.one_apply_eq] at e2
    have hne : L.vecs 1 0 0 ≠ 0 := fun h => by rw [h] at e2; norm_num at e2
    exact mul_left_cancel₀ hne (by rw [mul_one]; exact e1.symm)
  have hA0 : A = 0 := by
    ext i j
    have h6 := congrFun (hA (fun _ => 1)) i
    rw [h2, hev] at h6
    have hij : i = 0 ∧ j = 0 := ⟨Subsingleton.elim _ _, Subsingleton.elim _ _⟩
    rw [hij.1, hij.2]
    rw [hij.1] at h6
    simp [Matrix.mulVec, dotProduct, shift] at h6
    simpa using h6.symm
  rw [hA0, smul_zero, NormedSpace.exp_zero, Matrix.one_mulVec] at h5
  dsimp only at h5
  have h7 := congrFun h5 0
  have hdg : ((1 : ℂ) • (1 : RMat 1).map (algebraMap ℝ ℂ)) = Matrix.diagonal fun _ => (1 : ℂ) := by
    ext i j
    have hij : i = 0 ∧ j = 0 := ⟨Subsingleton.elim _ _, Subsingleton.elim _ _⟩
    rw [hij.1, hij.2]
    simp
  rw [hdg, Matrix.exp_diagonal, Matrix.mulVec_diagonal, Pi.coe_exp, mul_one] at h7
  have h8 : (1 : ℂ) = Complex.exp 1 := by rw [Complex.exp_eq_exp_ℂ]; exact h7
  have h9 := congrArg Complex.re h8
  rw [← Complex.ofReal_one, Complex.exp_ofReal_re, Complex.ofReal_re] at h9
  have := Real.exp_one_gt_d9
  linarith

/-- C178 fails with `qdiag`: after the operator has been set up, every step uses a null pointer. -/
theorem C178_violated_qdiag (L : Lapack n) (hn : 0 < n) (g g1 g2 : RMat n) :
    ∃ o, (Op.new g).initSize L g1 g2 true = .ok o ∧ ∀ c ψ, o.part L c ψ = .ub := by
  refine ⟨⟨g1, some (L.vecs g1), false, some (L.vals g1), true⟩, ?_, ?_⟩
  · unfold Op.initSize
    rw [if_neg (Nat.ne_of_gt hn)]
    rfl
  · intro c ψ
    rfl

/-! ### C179: energy bounds -/

/-- `m` is the smallest (`M` the largest) expectation value of the operator `f`, and it is attained. -/
def Smallest (f : (Fin n → ℂ) → Fin n → ℂ) (m : ℝ) : Prop :=
  (∀ ψ, m * normSq ψ ≤ (inner ψ (f ψ)).re) ∧ ∃ ψ, normSq ψ = 1 ∧ (inner ψ (f ψ)).re = m

/-- The largest expectation value. -/
def Largest (f : (Fin n → ℂ) → Fin n → ℂ) (m : ℝ) : Prop :=
  (∀ ψ, (inner ψ (f ψ)).re ≤ m * normSq ψ) ∧ ∃ ψ, normSq ψ = 1 ∧ (inner ψ (f ψ)).re = m

theorem smallest_unique (f : (Fin n → ℂ) → Fin n → ℂ) (m m' : ℝ) (h : Smallest f m) (h' : Smallest f m') :
    m = m' := by
  obtain ⟨h1, ψ, h2, h3⟩ := h
  obtain ⟨h1', ψ', h2', h3'⟩ := h'
  have a := h1 ψ'
  have b := h1' ψ
  rw [h2', h3', mul_one] at a
  rw [h2, h3, mul_one] at b
  exact le_antisymm a b

theorem expect_column {L : Lapack n} (hL : L.Ok) (A : RMat n) (k : Fin n) :
    ∃ ψ : Fin n → ℂ, normSq ψ = 1 ∧ (inner ψ ((cpl (upper A)).mulVec ψ)).re = L.vals A k := by
  refine ⟨(cpl (L.vecs A)).mulVec (Pi.single k 1), ?_⟩
  obtain ⟨φ, h1, h2, h3⟩ := hL.expect A ((cpl (L.vecs A)).mulVec (Pi.single k 1))
  rw [Matrix.mulVec_mulVec, ← cpl_mul, hL.ortho, cpl_one, Matrix.one_mulVec] at h1
  have hφ : ∀ i, Complex.normSq (φ i) = if i = k then 1 else 0 := by
    intro i
    rw [h1, Pi.single_apply]
    split <;> simp
  constructor
  · rw [← h2]
    unfold normSq
    simp only [hφ]
    simp
  · rw [h3, Complex.ofReal_re]
    simp only [hφ]
    simp

theorem smallest_vals {L : Lapack n} (hL : L.Ok) (hn : 0 < n) (A : RMat n) :
    Smallest (fun ψ => (cpl (upper A)).mulVec ψ) (L.vals A ⟨0, hn⟩) := by
  refine ⟨fun ψ => ?_, expect_column hL A _⟩
  obtain ⟨φ, -, h2, h3⟩ := hL.expect A ψ
  rw [h3, Complex.ofReal_re, ← h2, normSq, Finset.mul_sum]
  exact Finset.sum_le_sum fun i _ =>
    mul_le_mul_of_nonneg_right (hL.sorted A _ _ (Nat.zero_le _)) (Complex.normSq_nonneg _)

theorem largest_vals {L : Lapack n} (hL : L.Ok) (hn : 0 < n) (A : RMat n) :
    Largest (fun ψ => (cpl (upper A)).mulVec ψ) (L.vals A ⟨n - 1, Nat.sub_lt hn Nat.one_pos⟩) := by
  refine ⟨fun ψ => ?_, expect_column hL A _⟩
  obtain ⟨φ, -, h2, h3⟩ := hL.expect A ψ
  rw [h3, Complex.ofReal_re, ← h2, normSq, Finset.mul_sum]
  exact Finset.sum_le_sum fun i _ =>
    mul_le_mul_of_nonneg_right (hL.sorted A _ _ (Nat.le_sub_one_of_lt i.isLt)) (Complex.normSq_nonneg _)

theorem shift_isSymm (A : RMat n) (m : ℝ) (h : A.IsSymm) : (shift A m).IsSymm := by
  unfold shift
  exact h.sub (Matrix.isSymm_one.smul m)

theorem smallest_shift (A : RMat n) (m : ℝ) (h : Smallest (fun ψ => (cpl A).mulVec ψ) m) :
    Smallest (fun ψ => (cpl (shift A m)).mulVec ψ) 0 := by
  have key : ∀ ψ, (inner ψ ((cpl (shift A m)).mulVec ψ)).re = (inner ψ ((cpl A).mulVec ψ)).re - m * normSq ψ := by
    intro ψ
    have h1 : cpl (shift A m) = cpl A - (m : ℂ) • (1 : Matrix (Fin n) (Fin n) ℂ) := by
      ext i j
      by_cases hij : i = j
      · subst hij
        simp [cpl, shift]
      · simp [cpl, shift, Matrix.one_apply_ne hij]
    have h2 : inner ψ ((cpl (shift A m)).mulVec ψ) = inner ψ ((cpl A).mulVec ψ) - (m : ℂ) * inner ψ ψ := by
      rw [h1, Matrix.sub_mulVec, Matrix.smul_mulVec, Matrix.one_mulVec]
      unfold inner
      rw [Finset.mul_sum, ← Finset.sum_sub_distrib]
      refine Finset.sum_congr rfl fun i _ => ?_
      simp only [Pi.sub_apply, Pi.smul_apply, smul_eq_mul]
      ring
    rw [h2, inner_self, ← Complex.ofReal_mul, Complex.sub_re, Complex.ofReal_re]
  obtain ⟨h1, ψ, h2, h3⟩ := h
  refine ⟨fun ψ => ?_, ψ, h2, ?_⟩
  · have := h1 ψ
    rw [key]
    linarith
  · rw [key, h2]
    have : (inner ψ ((cpl A).mulVec ψ)).re = m := h3
    linarith

/-- C179: for an operator read from a file, with or without `setzero` and after any history of uses, the energy
bounds are the smallest and the largest expectation value of what the operator applies; with `setzero` the smallest
one is zero. -/
theorem C179_bounds (L : Lapack n) (hL : L.Ok) (hn : 0 < n) (g file : RMat n) (hs : file.IsSymm) (setzero : Bool)
    (l : List (Use n)) :
    ∃ o o', (Op.new g).load L file setzero = .val o ∧ o.uses L l = .val o' ∧
      ∃ m M o1 o2, o'.emin L = .val (m, o1) ∧ o'.emax L = .val (M, o2) ∧
        Smallest o'.apply m ∧ Largest o'.apply M ∧ (setzero = true → m = 0) := by
  have go : ∀ (A : RMat n) (o : Op n), A.IsSymm → Weak L A o →
      (setzero = true → Smallest (fun ψ => (cpl A).mulVec ψ) 0) →
      ∃ o', o.uses L l = .val o' ∧ ∃ m M o1 o2, o'.emin L = .val (m, o1) ∧ o'.emax L = .val (M, o2) ∧
        Smallest o'.apply m ∧ Largest o'.apply M ∧ (setzero = true → m = 0) := by
    intro A o hA hw hz
    obtain ⟨o', h1, h2⟩ := uses_weak L hn A l o hw
    obtain ⟨o1, h3, -⟩ := bound_weak L A o' h2 ⟨0, hn⟩
    obtain ⟨o2, h4, -⟩ := bound_weak L A o' h2 ⟨n - 1, Nat.sub_lt hn Nat.one_pos⟩
    have happ : o'.apply = fun ψ => (cpl (upper A)).mulVec ψ := by
      funext ψ
      rw [upper_symm A hA]
      show matVec o'.mat false ψ = _
      rw [h2.1, matVec_eq]
    refine ⟨o', h1, L.vals A ⟨0, hn⟩, L.vals A ⟨n - 1, Nat.sub_lt hn Nat.one_pos⟩, o1, o2, ?_, ?_, ?_, ?_, ?_⟩
    · unfold Op.emin
      rw [firstIx_pos hn, h3]
    · unfold Op.emax
      rw [lastIx_pos hn, h4]
    · rw [happ]
      exact smallest_vals hL hn A
    · rw [happ]
      exact largest_vals hL hn A
    · intro h
      have := smallest_vals hL hn A
      rw [upper_symm A hA] at this
      exact smallest_unique _ _ _ this (hz h)
  cases setzero with
  | false =>
    obtain ⟨o', h⟩ := go file ⟨file, none, false, none, false⟩ hs
      ⟨rfl, nofun, Or.inl ⟨rfl, rfl, rfl⟩⟩ (fun (h : false = true) => Bool.noConfusion h)
    exact ⟨_, o', load_plain L g file, h⟩
  | true =>
    have hsm := smallest_vals hL hn file
    rw [upper_symm file hs] at hsm
    obtain ⟨o', h⟩ := go (shift file (L.vals file ⟨0, hn⟩))
      ⟨shift file (L.vals file ⟨0, hn⟩), some (L.vecs file), true, some (L.vals file), false⟩
      (shift_isSymm _ _ hs)
      ⟨rfl, nofun, Or.inr ⟨rfl, rfl, rfl⟩⟩ (fun _ => smallest_shift _ _ hsm)
    exact ⟨_, o', load_zero L hn g file, h⟩

/-- The hypotheses are met by the matrix of a coupled pair of states; its bounds are −1 and 1. -/
example : ∃ L : Lapack 2, L.Ok ∧ (!![0, 1; 1, 0] : RMat 2).IsSymm ∧ 0 < 2 := by
  obtain ⟨L, h⟩ := exists_lapack 2
  refine ⟨L, h, ?_, by norm_num⟩
  ext i j
  fin_cases i <;> fin_cases j <;> rfl

/-! ### C180: copies -/

/-- C180: the copy of an operator read from a file without `setzero` applies the same matrix and acts as the same
exponential, the source as well; this holds for a fresh target, and for a target which is in use if the source has
been diagonalised.  Missing: the energy bounds of the copy and other targets (`C180_violated_fresh`,
`C180_violated_used`). -/
theorem C180_copy_partial (L : Lapack n) (hL : L.Ok) (A : RMat n) (o op : Op n) (ho : State L A op)
    (ht : (o.x = none ∧ o.ds = none) ∨ (o.x.isSome ∧ o.ds.isSome ∧ o.linked = true ∧ op.x.isSome))
    (c : ℂ) (ψ : Fin n → ℂ) :
    ∃ o' op', o.copy op = .val (o', op') ∧ o'.apply ψ = op.apply ψ ∧ op'.apply ψ = op.apply ψ ∧
      (∃ o'', o'.part L c ψ = .val ((NormedSpace.exp (c • cpl (upper A))).mulVec ψ, o'')) ∧
      ∃ op'', op'.part L c ψ = .val ((NormedSpace.exp (c • cpl (upper A))).mulVec ψ, op'') := by
  have hres : matVec (L.vecs A) false (fun i => matVec (L.vecs A) true ψ i *
      Complex.exp ((L.vals A i : ℂ) * c)) = (NormedSpace.exp (c • cpl (upper A))).mulVec ψ := by
    rw [hL.decomp A, ← exp_decomp _ _ (hL.ortho A), ← sandwich]
  have hop' : State L A { op with linked := op.x.isSome } := by
    obtain ⟨rfl, ⟨h1, h2, h3⟩ | ⟨h1, h2, h3⟩⟩ := ho
    · exact ⟨rfl, Or.inl ⟨h1, h2, h3⟩⟩
    · exact ⟨rfl, Or.inr ⟨h1, by simp [h1], h3⟩⟩
  obtain ⟨op'', hp, -⟩ := part_state hL A _ hop' c ψ
  rcases ht with ⟨t1, t2⟩ | ⟨t1, t2, t3, t4⟩
  · refine ⟨⟨op.mat, none, o.linked, none, op.valid⟩, { op with linked := op.x.isSome }, ?_, rfl, rfl, ?_,
      op'', hp⟩
    · unfold Op.copy
      rw [t1, t2]
      rfl
    · refine ⟨⟨A, some (L.vecs A), true, some (L.vals A), true⟩, ?_⟩
      rw [← hres, ← ho.1]
      rfl
  · obtain ⟨hA, ⟨h1, h2, h3⟩ | ⟨h1, h2, h3⟩⟩ := ho
    · rw [h1] at t4
      cases t4
    · obtain ⟨X, hX⟩ := Option.isSome_iff_exists.mp t1
      obtain ⟨d, hd⟩ := Option.isSome_iff_exists.mp t2
      refine ⟨⟨op.mat, some (L.vecs A), true, some (L.vals A), op.valid⟩, { op with linked := op.x.isSome },
        ?_, rfl, rfl, ?_, op'', hp⟩
      · unfold Op.copy
        rw [hX, hd, h1, h3, t3]
        rfl
      · refine ⟨⟨op.mat, some (L.vecs A), true, some (L.vals A), op.valid⟩, ?_⟩
        rw [← hres]
        rfl

/-- The hypotheses are met: a loaded source before and after a step, a new target and one in use. -/
example (L : Lapack 2) (A g : RMat 2) :
    State L A ⟨A, none, false, none, false⟩ ∧ State L A ⟨A, some (L.vecs A), true, some (L.vals A), true⟩ ∧
      ((Op.new g).x = none ∧ (Op.new g).ds = none) :=
  ⟨⟨rfl, Or.inl ⟨rfl, rfl, rfl⟩⟩, ⟨rfl, Or.inr ⟨rfl, rfl, rfl⟩⟩, rfl, rfl⟩

/-- C180 fails for the energy bounds: a new copy of an operator whose bounds have been asked for uses a null pointer
when its own bounds are asked for. -/
theorem C180_violated_fresh (L : Lapack n) (hn : 0 < n) (g g' file : RMat n) :
    ∃ o m op o' op', (Op.new g).load L file false = .val o ∧ o.emin L = .val (m, op) ∧
      (Op.new g').copy op = .val (o', op') ∧ o'.emin L = .ub ∧ o'.emax L = .ub := by
  refine ⟨⟨file, none, false, none, false⟩, L.vals file ⟨0, hn⟩,
    ⟨file, some (L.vecs file), true, some (L.vals file), true⟩, ⟨file, none, false, none, true⟩, _,
    load_plain L g file, ?_, rfl, rfl, rfl⟩
  unfold Op.emin
  rw [firstIx_pos hn]
  rfl

/-- C180 fails for a target which has been diagonalised: copying an operator which has not uses a null pointer. -/
theorem C180_violated_used (L : Lapack n) (hn : 0 < n) (g g' file file' : RMat n) :
    ∃ o m t op, (Op.new g').load L file' false = .val o ∧ o.emin L = .val (m, t) ∧
      (Op.new g).load L file false = .val op ∧ t.copy op = .ub := by
  refine ⟨⟨file', none, false, none, false⟩, L.vals file' ⟨0, hn⟩,
    ⟨file', some (L.vecs file'), true, some (L.vals file'), true⟩, ⟨file, none, false, none, false⟩,
    load_plain L g' file', ?_, load_plain L g file, rfl⟩
  unfold Op.emin
  rw [firstIx_pos hn]
  rfl

/-! ### C181: application and transformation -/

/-- C181: an operator read from a file is hermitian and linear. -/
theorem C181_hermitian (L : Lapack n) (hn : 0 < n) (g file : RMat n) (hs : file.IsSymm) (setzero : Bool) :
    ∃ o, (Op.new g).load L file setzero = .val o ∧
      (∀ ψ φ, inner φ (o.apply ψ) = inner (o.apply φ) ψ) ∧
      (∀ (a b : ℂ) ψ φ, o.apply (a • ψ + b • φ) = a • o.apply ψ + b • o.apply φ) := by
  have go : ∀ o : Op n, o.mat.IsSymm → (∀ ψ φ, inner φ (o.apply ψ) = inner (o.apply φ) ψ) ∧
      (∀ (a b : ℂ) ψ φ, o.apply (a • ψ + b • φ) = a • o.apply ψ + b • o.apply φ) := by
    intro o h
    refine ⟨fun ψ φ => ?_, fun a b ψ φ => ?_⟩
    · show inner φ (matVec o.mat false ψ) = inner (matVec o.mat false φ) ψ
      rw [matVec_eq, matVec_eq, inner_mulVec_left, h.eq]
    · show matVec o.mat false _ = a • matVec o.mat false ψ + b • matVec o.mat false φ
      rw [matVec_eq, matVec_eq, matVec_eq, Matrix.mulVec_add, Matrix.mulVec_smul, Matrix.mulVec_smul]
  cases setzero with
  | false => exact ⟨_, load_plain L g file, go _ hs⟩
  | true => exact ⟨_, load_zero L hn g file, go _ (shift_isSymm _ _ hs)⟩

/-- C181: after the diagonalisation the transformation keeps the norm, is undone by the transformation back, and
turns the operator into the multiplication with its eigenvalues. -/
theorem C181_transform (L : Lapack n) (hL : L.Ok) (hn : 0 < n) (g file : RMat n) (hs : file.IsSymm)
    (ψ : Fin n → ℂ) :
    ∃ o m o' φ d, (Op.new g).load L file false = .val o ∧ o.emin L = .val (m, o') ∧
      o'.transform true ψ = .val φ ∧ normSq φ = normSq ψ ∧ o'.transform false φ = .val ψ ∧ o'.ds = some d ∧
      o'.transform true (o'.apply ψ) = .val (fun i => d i * φ i) := by
  refine ⟨⟨file, none, false, none, false⟩, L.vals file ⟨0, hn⟩,
    ⟨file, some (L.vecs file), true, some (L.vals file), true⟩, matVec (L.vecs file) true ψ, L.vals file,
    load_plain L g file, ?_, rfl, ?_, ?_, rfl, ?_⟩
  · unfold Op.emin
    rw [firstIx_pos hn]
    rfl
  · obtain ⟨φ, h1, h2, -⟩ := hL.expect file ψ
    rw [matVec_transpose, ← h1, h2]
  · show Ans.val (matVec (L.vecs file) false (matVec (L.vecs file) true ψ)) = _
    rw [matVec_eq, matVec_transpose, Matrix.mulVec_mulVec, ← cpl_mul, mul_eq_one_comm.mp (hL.ortho file), cpl_one,
      Matrix.one_mulVec]
  · show Ans.val (matVec (L.vecs file) true (matVec file false ψ)) = _
    congr 1
    have hd := hL.decomp file
    rw [upper_symm file hs] at hd
    rw [matVec_eq, matVec_transpose, matVec_transpose, Matrix.mulVec_mulVec, ← cpl_mul]
    have : (L.vecs file)ᵀ * file = Matrix.diagonal (L.vals file) * (L.vecs file)ᵀ := by
      have h1 : (L.vecs file)ᵀ * (L.vecs file * Matrix.diagonal (L.vals file) * (L.vecs file)ᵀ) =
          Matrix.diagonal (L.vals file) * (L.vecs file)ᵀ := by
        rw [← Matrix.mul_assoc, ← Matrix.mul_assoc, hL.ortho, Matrix.one_mul]
      rw [← hd] at h1
      exact h1
    rw [this, cpl_mul, ← Matrix.mulVec_mulVec, cpl_diag]
    funext i
    rw [Matrix.mulVec_diagonal]

/-- The hypotheses are met. -/
example : ∃ L : Lapack 3, L.Ok ∧ (Matrix.of fun i j : Fin 3 => (i.val + j.val : ℝ)).IsSymm := by
  obtain ⟨L, h⟩ := exists_lapack 3
  refine ⟨L, h, ?_⟩
  ext i j
  show ((j.val : ℝ) + i.val) = i.val + j.val
  ring

/-! ### C182: energy bounds of the matrix dipole operator -/

theorem le_vecMax (l : List ℝ) : ∀ d, d ≤ vecMax d l ∧ ∀ e ∈ l, e ≤ vecMax d l := by
  induction l with
  | nil => exact fun d => ⟨le_refl _, nofun⟩
  | cons x l ih =>
    intro d
    unfold vecMax
    split
    · rename_i h
      obtain ⟨h1, h2⟩ := ih x
      refine ⟨le_trans (le_of_lt h) h1, fun e he => ?_⟩
      rcases List.mem_cons.mp he with rfl | he
      · exact h1
      · exact h2 e he
    · rename_i h
      obtain ⟨h1, h2⟩ := ih d
      refine ⟨h1, fun e he => ?_⟩
      rcases List.mem_cons.mp he with rfl | he
      · exact le_trans (not_lt.mp h) h1
      · exact h2 e he

/-- C182: the upper bound is one, at every time, if no negative field is larger in size than the largest field and
the matrix has no negative eigenvalue larger in size than the largest one.  Missing: the other fields and matrices,
and the lower bound (`C182_violated`). -/
theorem C182_emax_partial (L : Lapack n) (hL : L.Ok) (hn : 0 < n) (g file : RMat n) (hs : file.IsSymm) (E0 : ℝ)
    (E : List ℝ) (hE : ∀ e ∈ E0 :: E, -e ≤ vecMax E0 E) (hA : ∀ i, -L.vals file i ≤ L.vals file ⟨n - 1, Nat.sub_lt hn Nat.one_pos⟩) :
    ∃ o M, (Op.new g).load L file false = .val o ∧ dipoleEmax L o E0 E = .val M ∧
      ∀ e ∈ E0 :: E, ∀ ψ, (inner ψ (dipoleApply o e ψ)).re ≤ M * normSq ψ := by
  refine ⟨_, L.vals file ⟨n - 1, Nat.sub_lt hn Nat.one_pos⟩ * vecMax E0 E, load_plain L g file, ?_, ?_⟩
  · unfold dipoleEmax Op.emax
    rw [lastIx_pos hn]
    rfl
  · intro e he ψ
    obtain ⟨φ, -, h2, h3⟩ := hL.expect file ψ
    rw [upper_symm file hs] at h3
    have h4 : inner ψ (dipoleApply ⟨file, none, false, none, false⟩ e ψ) =
        ((-e : ℝ) : ℂ) * inner ψ ((cpl file).mulVec ψ) := by
      unfold inner dipoleApply
      rw [Finset.mul_sum]
      refine Finset.sum_congr rfl fun i _ => ?_
      show _ * (matVec file false ψ i * _) = _
      rw [matVec_eq]
      push_cast
      ring
    rw [h4, h3, ← Complex.ofReal_mul, Complex.ofReal_re, ← h2, normSq, Finset.mul_sum, Finset.mul_sum]
    refine Finset.sum_le_sum fun i _ => ?_
    rw [← mul_assoc]
    refine mul_le_mul_of_nonneg_right ?_ (Complex.normSq_nonneg _)
    set lam := L.vals file ⟨n - 1, Nat.sub_lt hn Nat.one_pos⟩ with hlam
    have l1 := hA i
    have l2 : L.vals file i ≤ lam := hL.sorted file _ _ (Nat.le_sub_one_of_lt i.isLt)
    have e1 := hE e he
    have e2 : e ≤ vecMax E0 E := by
      rcases List.mem_cons.mp he with rfl | he
      · exact (le_vecMax E e).1
      · exact (le_vecMax E E0).2 e he
    have hl : 0 ≤ lam := by linarith
    have hm : 0 ≤ vecMax E0 E := by linarith
    have k1 : |L.vals file i| ≤ lam := abs_le.mpr ⟨by linarith, l2⟩
    have k2 : |-e| ≤ vecMax E0 E := abs_le.mpr ⟨by linarith, e1⟩
    calc -e * L.vals file i ≤ |-e * L.vals file i| := le_abs_self _
      _ = |-e| * |L.vals file i| := abs_mul _ _
      _ ≤ vecMax E0 E * lam := mul_le_mul k2 k1 (abs_nonneg _) hm
      _ = lam * vecMax E0 E := mul_comm _ _

/-- The matrix of a pair of states with a transition dipole moment. -/
abbrev pairMat : RMat 2 := !![0, 1; 1, 0]

/-- A diagonalisation of `pairMat` as LAPACK returns it. -/
theorem pair_vals (L : Lapack 2) (hL : L.Ok) : L.vals pairMat 0 = -1 ∧ L.vals pairMat 1 = 1 := by
  have hs : pairMat.IsSymm := by
    ext i j
    fin_cases i <;> fin_cases j <;> rfl
  have hexp : ∀ ψ : Fin 2 → ℂ, (inner ψ ((cpl pairMat).mulVec ψ)).re =
      2 * ((ψ 0).re * (ψ 1).re + (ψ 0).im * (ψ 1).im) := by
    intro ψ
    simp [inner, cpl, Matrix.mulVec, dotProduct, Fin.sum_univ_two, pairMat]
    ring
  have hnorm : ∀ ψ : Fin 2 → ℂ, normSq ψ =
      (ψ 0).re * (ψ 0).re + (ψ 0).im * (ψ 0).im + ((ψ 1).re * (ψ 1).re + (ψ 1).im * (ψ 1).im) := by
    intro ψ
    simp [normSq, Complex.normSq_apply, Fin.sum_univ_two]
  obtain ⟨s1, ψ, s2, s3⟩ := smallest_vals hL (by norm_num : 0 < 2) pairMat
  obtain ⟨t1, χ, t2, t3⟩ := largest_vals hL (by norm_num : 0 < 2) pairMat
  rw [upper_symm _ hs] at s1 s3 t1 t3
  have s1' : ∀ ψ, L.vals pairMat 0 * normSq ψ ≤ (inner ψ ((cpl pairMat).mulVec ψ)).re := s1
  have s3' : (inner ψ ((cpl pairMat).mulVec ψ)).re = L.vals pairMat 0 := s3
  have t1' : ∀ ψ, (inner ψ ((cpl pairMat).mulVec ψ)).re ≤ L.vals pairMat 1 * normSq ψ := t1
  have t3' : (inner χ ((cpl pairMat).mulVec χ)).re = L.vals pairMat 1 := t3
  have a := s1' ![1, -1]
  have b := t1' ![1, 1]
  rw [hexp, hnorm] at a b
  rw [hexp] at s3' t3'
  rw [hnorm] at s2 t2
  norm_num at a b
  constructor
  · nlinarith [mul_self_nonneg ((ψ 0).re + (ψ 1).re), mul_self_nonneg ((ψ 0).im + (ψ 1).im)]
  · nlinarith [mul_self_nonneg ((χ 0).re - (χ 1).re), mul_self_nonneg ((χ 0).im - (χ 1).im)]

/-- The hypotheses of `C182_emax_partial` are met by a pair of states and a field which takes both signs. -/
example : ∃ L : Lapack 2, L.Ok ∧ pairMat.IsSymm ∧ (∀ e ∈ [-1, (1 : ℝ)], -e ≤ vecMax (-1) [1]) ∧
    ∀ i, -L.vals pairMat i ≤ L.vals pairMat 1 := by
  obtain ⟨L, h⟩ := exists_lapack 2
  obtain ⟨h0, h1⟩ := pair_vals L h
  refine ⟨L, h, ?_, ?_, ?_⟩
  · ext i j
    fin_cases i <;> fin_cases j <;> rfl
  · intro e he
    have : vecMax (-1) [1] = 1 := by
      unfold vecMax vecMax
      norm_num
    rw [this]
    rcases List.mem_cons.mp he with rfl | he
    · norm_num
    · rcases List.mem_singleton.mp he with rfl
      norm_num
  · intro i
    fin_cases i
    · show -L.vals pairMat 0 ≤ _
      rw [h0, h1]
      norm_num
    · show -L.vals pairMat 1 ≤ _
      rw [h1]
      norm_num

/-- C182 fails: for a pair of states in a field which oscillates between −1 and 1 the lower bound is 1, and the
energy is −1 for a state. -/
theorem C182_violated (L : Lapack 2) (hL : L.Ok) (g : RMat 2) :
    ∃ o, (Op.new g).load L pairMat false = .val o ∧ dipoleEmin L o 1 [-1] = .val 1 ∧
      dipoleEmax L o 1 [-1] = .val 1 ∧
      (inner ![1, 1] (dipoleApply o 1 ![1, 1])).re = -1 * normSq ![1, (1 : ℂ)] := by
  obtain ⟨h0, h1⟩ := pair_vals L hL
  have hmin : vecMin 1 [-1] = -1 := by
    unfold vecMin vecMin
    norm_num
  have hmax : vecMax 1 [-1] = 1 := by
    unfold vecMax vecMax
    norm_num
  refine ⟨_, load_plain L g pairMat, ?_, ?_, ?_⟩
  · show Ans.val (L.vals pairMat 0 * vecMin 1 [-1]) = _
    rw [h0, hmin]
    norm_num
  · show Ans.val (L.vals pairMat 1 * vecMax 1 [-1]) = _
    rw [h1, hmax]
    norm_num
  · unfold inner dipoleApply
    show (∑ i, starRingEnd ℂ (![1, (1 : ℂ)] i) * (matVec pairMat false ![1, 1] i * _)).re = _
    rw [matVec_eq]
    simp [normSq, cpl, Matrix.mulVec, dotProduct, Fin.sum_univ_two, pairMat]

end QDng.HMat
