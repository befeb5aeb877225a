import Verif.Grid.Props
import Verif.Deriv.Spec
import Mathlib.RingTheory.RootsOfUnity.Complex
import Mathlib.Algebra.BigOperators.Ring.Finset
import Mathlib.Algebra.BigOperators.Field
import Mathlib.Algebra.Module.BigOperators
import Mathlib.Tactic.FieldSimp
import Mathlib.Tactic.Positivity
import Mathlib.Tactic.Ring
import Mathlib.Tactic.Linarith
import Mathlib.Tactic.LinearCombination

namespace QDng.Deriv

open QDng.Grid

/-! ### Roots of unity -/

theorem root_add (σ : ℝ) (n a b c : Nat) : root σ n a (b + c) = root σ n a b * root σ n a c := by
  unfold root
  rw [← Complex.exp_add, ← add_mul, ← Complex.ofReal_add]
  congr 3
  push_cast
  ring

theorem root_symm (σ : ℝ) (n a b : Nat) : root σ n a b = root σ n b a := by
  unfold root
  congr 4
  ring

theorem root_conj (σ : ℝ) (n a b : Nat) : (starRingEnd ℂ) (root σ n a b) = root (-σ) n a b := by
  unfold root
  rw [← Complex.exp_conj, map_mul, Complex.conj_I, Complex.conj_ofReal]
  congr 1
  push_cast
  ring

theorem root_mul_neg (σ : ℝ) (n a b : Nat) : root (-σ) n a b * root σ n a b = 1 := by
  unfold root
  rw [← Complex.exp_add, ← add_mul, ← Complex.ofReal_add]
  have : -σ * (2 * Real.pi * (a * b) / n) + σ * (2 * Real.pi * (a * b) / n) = 0 := by ring
  rw [this]
  simp

theorem root_pow (σ : ℝ) (n a b : Nat) : root σ n a b = root σ n a 1 ^ b := by
  unfold root
  rw [← Complex.exp_nat_mul]
  congr 1
  push_cast
  ring

/-- The product of the two factors is a power of one root of unity. -/
theorem root_pair (n a b x : Nat) :
    root (-1) n a x * root 1 n b x =
      Complex.exp (((2 * Real.pi * ((b : ℝ) - a) / n : ℝ) : ℂ) * Complex.I) ^ x := by
  unfold root
  rw [← Complex.exp_add, ← Complex.exp_nat_mul]
  congr 1
  push_cast
  ring

theorem root_sum (n a b : Nat) (ha : a < n) (hb : b < n) :
    ∑ x : Fin n, root (-1) n a x * root 1 n b x = if a = b then (n : ℂ) else 0 := by
  have hn : (n : ℝ) ≠ 0 := by
    have : 0 < n := by omega
    positivity
  simp only [root_pair]
  rw [Fin.sum_univ_eq_sum_range
    (fun x => Complex.exp (((2 * Real.pi * ((b : ℝ) - a) / n : ℝ) : ℂ) * Complex.I) ^ x) n]
  by_cases h : a = b
  · subst h
    rw [if_pos rfl]
    simp
  · rw [if_neg h]
    set z := Complex.exp (((2 * Real.pi * ((b : ℝ) - a) / n : ℝ) : ℂ) * Complex.I) with hz
    have hzn : z ^ n = 1 := by
      rw [hz, ← Complex.exp_nat_mul, Complex.exp_eq_one_iff]
      refine ⟨(b : ℤ) - a, ?_⟩
      have hn' : (n : ℂ) ≠ 0 := by exact_mod_cast hn
      push_cast
      field_simp
    have hz1 : z ≠ 1 := by
      intro h1
      rw [hz, Complex.exp_eq_one_iff] at h1
      obtain ⟨m, hm⟩ := h1
      have hm2 : ((2 * Real.pi * ((b : ℝ) - a) / n : ℝ) : ℂ) * Complex.I =
          ((2 * Real.pi * (m : ℝ) : ℝ) : ℂ) * Complex.I := by
        rw [hm]; push_cast; ring
      have hm3 := mul_right_cancel₀ Complex.I_ne_zero hm2
      have hm4 : 2 * Real.pi * ((b : ℝ) - a) / n = 2 * Real.pi * (m : ℝ) := by exact_mod_cast hm3
      have hpi := Real.pi_pos
      have hm5 : ((b : ℝ) - a) = m * n := by
        field_simp at hm4
        linarith
      have hm6 : ((b : ℤ) - a) = m * n := by exact_mod_cast hm5
      have hlt : |((b : ℤ) - a)| < n := by rw [abs_lt]; omega
      rw [hm6, abs_mul] at hlt
      have hn0 : (0 : ℤ) < n := by omega
      rw [abs_of_pos hn0] at hlt
      have : |m| < 1 := by
        by_contra hc
        push Not at hc
        nlinarith
      have hm0 : m = 0 := Int.abs_lt_one_iff.1 this
      rw [hm0] at hm6
      omega
    have := mul_geom_sum z n
    rw [hzn, sub_self] at this
    rcases mul_eq_zero.1 this with h2 | h2
    · exact absurd (sub_eq_zero.1 h2) hz1
    · exact h2

/-! ### The Fourier basis -/

/-- The basis functions of the Fourier transform. -/
noncomputable def E (s : Space) (q : s.Pt) : s.Wf := fun x =>
  ∏ i, root 1 (s.axes i).n (q i) (x i)

theorem prod_root_sum (s : Space) (q p : s.Pt) :
    ∑ x : s.Pt, (∏ i, root 1 (s.axes i).n (q i) (x i)) * ∏ i, root (-1) (s.axes i).n (p i) (x i) =
      if p = q then (s.size : ℂ) else 0 := by
  have h1 : ∀ x : s.Pt,
      (∏ i, root 1 (s.axes i).n (q i) (x i)) * ∏ i, root (-1) (s.axes i).n (p i) (x i) =
      ∏ i, (root (-1) (s.axes i).n (p i) (x i) * root 1 (s.axes i).n (q i) (x i)) := by
    intro x
    rw [← Finset.prod_mul_distrib]
    exact Finset.prod_congr rfl (fun i _ => mul_comm _ _)
  simp only [h1]
  have h2 := Finset.prod_univ_sum (fun i : Fin s.d => (Finset.univ : Finset (Fin (s.axes i).n)))
    (fun i x => root (-1) (s.axes i).n (p i) (x : Nat) * root 1 (s.axes i).n (q i) (x : Nat))
  rw [Fintype.piFinset_univ] at h2
  rw [← h2]
  have h3 : ∀ i, ∑ x : Fin (s.axes i).n,
      root (-1) (s.axes i).n (p i) (x : Nat) * root 1 (s.axes i).n (q i) (x : Nat) =
      if p i = q i then ((s.axes i).n : ℂ) else 0 := by
    intro i
    rw [root_sum _ _ _ (p i).2 (q i).2]
    simp only [Fin.ext_iff]
  simp only [h3]
  by_cases h : p = q
  · subst h
    rw [if_pos rfl]
    simp [Space.size]
  · rw [if_neg h]
    obtain ⟨i, hi⟩ := Function.ne_iff.1 h
    exact Finset.prod_eq_zero (Finset.mem_univ i) (if_neg hi)

theorem forward_E (s : Space) (q p : s.Pt) :
    forward s (E s q) p = if p = q then (s.size : ℂ) else 0 := prod_root_sum s q p

/-- The sum over the frequencies. -/
theorem prod_root_sum' (s : Space) (x y : s.Pt) :
    ∑ q : s.Pt, (∏ i, root 1 (s.axes i).n (q i) (y i)) * ∏ i, root (-1) (s.axes i).n (q i) (x i) =
      if x = y then (s.size : ℂ) else 0 := by
  rw [← prod_root_sum s y x]
  refine Finset.sum_congr rfl (fun q _ => ?_)
  congr 1
  · exact Finset.prod_congr rfl (fun i _ => root_symm _ _ _ _)
  · exact Finset.prod_congr rfl (fun i _ => root_symm _ _ _ _)

theorem size_pos {s : Space} (h : s.Ok) : 0 < s.size :=
  Finset.prod_pos (fun i _ => by have := (h i).1; omega)

theorem size_ne {s : Space} (h : s.Ok) : (s.size : ℂ) ≠ 0 := by
  have := size_pos h
  exact_mod_cast this.ne'

/-- Each wave function is a sum of the basis functions. -/
theorem expand {s : Space} (h : s.Ok) (ψ : s.Wf) :
    ψ = ∑ q, (forward s ψ q / (s.size : ℂ)) • E s q := by
  funext x
  rw [Finset.sum_apply]
  simp only [Pi.smul_apply, smul_eq_mul, E, forward, Finset.sum_div, Finset.sum_mul]
  rw [Finset.sum_comm]
  have h1 : ∀ y : s.Pt, ∑ q : s.Pt, ψ y * (∏ i, root (-1) (s.axes i).n (q i) (y i)) / (s.size : ℂ) *
      ∏ i, root 1 (s.axes i).n (q i) (x i) =
      ψ y / (s.size : ℂ) * (if y = x then (s.size : ℂ) else 0) := by
    intro y
    rw [← prod_root_sum' s y x, Finset.mul_sum]
    exact Finset.sum_congr rfl (fun q _ => by ring)
  simp only [h1]
  rw [Finset.sum_eq_single x]
  · rw [if_pos rfl, div_mul_cancel₀ _ (size_ne h)]
  · intro y _ hy
    rw [if_neg hy, mul_zero]
  · intro hx
    exact absurd (Finset.mem_univ x) hx

/-! ### Linear maps -/

/-- Linearity of a map of wave functions. -/
def Lin {s : Space} (A : s.Wf → s.Wf) : Prop := ∀ (c : ℂ) φ ψ, A (c • φ + ψ) = c • A φ + A ψ

theorem Lin.map_sum {s : Space} {A : s.Wf → s.Wf} (hA : Lin A) {ι : Type} (t : Finset ι) (c : ι → ℂ)
    (f : ι → s.Wf) : A (∑ q ∈ t, c q • f q) = ∑ q ∈ t, c q • A (f q) := by
  classical
  have h0 : A 0 = 0 := by
    have := hA (-1) 0 0
    simpa using this
  induction t using Finset.induction_on with
  | empty => simpa using h0
  | insert a t ha ih => rw [Finset.sum_insert ha, Finset.sum_insert ha, hA, ih]

theorem Lin.ext {s : Space} (h : s.Ok) {A B : s.Wf → s.Wf} (hA : Lin A) (hB : Lin B)
    (he : ∀ q, A (E s q) = B (E s q)) (ψ : s.Wf) : A ψ = B ψ := by
  rw [expand h ψ, hA.map_sum, hB.map_sum]
  simp only [he]

theorem lin_forward (s : Space) : Lin (forward s) := by
  intro c φ ψ
  funext q
  simp only [forward, Pi.add_apply, Pi.smul_apply, smul_eq_mul, add_mul, Finset.sum_add_distrib,
    Finset.mul_sum, mul_assoc]

theorem lin_backward (s : Space) : Lin (backward s) := by
  intro c φ ψ
  funext q
  simp only [backward, Pi.add_apply, Pi.smul_apply, smul_eq_mul, add_mul, Finset.sum_add_distrib,
    Finset.mul_sum, mul_assoc]

theorem lin_forwardDim (s : Space) (i : Fin s.d) : Lin (forwardDim s i) := by
  intro c φ ψ
  funext q
  simp only [forwardDim, Pi.add_apply, Pi.smul_apply, smul_eq_mul, add_mul, Finset.sum_add_distrib,
    Finset.mul_sum, mul_assoc]

theorem lin_backwardDim (s : Space) (i : Fin s.d) : Lin (backwardDim s i) := by
  intro c φ ψ
  funext q
  simp only [backwardDim, Pi.add_apply, Pi.smul_apply, smul_eq_mul, add_mul, Finset.sum_add_distrib,
    Finset.mul_sum, mul_assoc]

theorem lin_mul {s : Space} (m : s.Wf) : Lin (fun ψ : s.Wf => (fun p => ψ p * m p : s.Wf)) := by
  intro c φ ψ
  funext q
  simp only [Pi.add_apply, Pi.smul_apply, smul_eq_mul]
  ring

theorem Lin.comp {s : Space} {A B : s.Wf → s.Wf} (hA : Lin A) (hB : Lin B) :
    Lin (fun ψ => A (B ψ)) := by
  intro c φ ψ
  show A (B (c • φ + ψ)) = _
  rw [hB c φ ψ, hA]

theorem Lin.add {s : Space} {A B : s.Wf → s.Wf} (hA : Lin A) (hB : Lin B) :
    Lin (fun ψ => A ψ + B ψ) := by
  intro c φ ψ
  simp only [hA c φ ψ, hB c φ ψ, smul_add]
  abel

theorem Lin.smul {s : Space} {A : s.Wf → s.Wf} (a : ℂ) (hA : Lin A) : Lin (fun ψ => a • A ψ) := by
  intro c φ ψ
  simp only [hA c φ ψ, smul_add, smul_comm a c]

theorem lin_zero {s : Space} : Lin (fun _ : s.Wf => (0 : s.Wf)) := by
  intro c φ ψ
  simp

/-- An operator that is diagonal in the Fourier basis. -/
noncomputable def diag (s : Space) (m : s.Wf) (ψ : s.Wf) : s.Wf :=
  backward s (fun p => forward s ψ p * m p)

theorem lin_diag (s : Space) (m : s.Wf) : Lin (diag s m) :=
  (lin_backward s).comp ((lin_mul m).comp (lin_forward s))

theorem diag_E (s : Space) (m : s.Wf) (q : s.Pt) :
    diag s m (E s q) = (m q * (s.size : ℂ)) • E s q := by
  funext x
  show (∑ p : s.Pt, forward s (E s q) p * m p * _) = _
  rw [Finset.sum_eq_single q]
  · rw [forward_E, if_pos rfl]
    simp only [Pi.smul_apply, smul_eq_mul, E]
    ring
  · intro p _ hp
    rw [forward_E, if_neg hp]
    ring
  · intro hq
    exact absurd (Finset.mem_univ q) hq

/-! ### One dimension -/

/-- An operator that is diagonal in the Fourier basis of dimension `i`. -/
noncomputable def diagDim (s : Space) (i : Fin s.d) (m : s.Wf) (ψ : s.Wf) : s.Wf :=
  backwardDim s i (fun p => forwardDim s i ψ p * m p)

theorem lin_diagDim (s : Space) (i : Fin s.d) (m : s.Wf) : Lin (diagDim s i m) :=
  (lin_backwardDim s i).comp ((lin_mul m).comp (lin_forwardDim s i))

theorem E_update (s : Space) (i : Fin s.d) (q p : s.Pt) (x : Fin (s.axes i).n) :
    E s q (Function.update p i x) =
      root 1 (s.axes i).n (q i) x *
        ∏ j ∈ Finset.univ.erase i, root 1 (s.axes j).n (q j) (p j) := by
  unfold E
  rw [← Finset.mul_prod_erase _ _ (Finset.mem_univ i), Function.update_self]
  congr 1
  refine Finset.prod_congr rfl (fun j hj => ?_)
  rw [Function.update_of_ne (Finset.ne_of_mem_erase hj)]

theorem forwardDim_E (s : Space) (i : Fin s.d) (q p : s.Pt) :
    forwardDim s i (E s q) p =
      (if p i = q i then ((s.axes i).n : ℂ) else 0) *
        ∏ j ∈ Finset.univ.erase i, root 1 (s.axes j).n (q j) (p j) := by
  unfold forwardDim
  simp only [E_update]
  have h : ∀ x : Fin (s.axes i).n,
      root 1 (s.axes i).n (q i) x * (∏ j ∈ Finset.univ.erase i, root 1 (s.axes j).n (q j) (p j)) *
        root (-1) (s.axes i).n (p i) x =
      (root (-1) (s.axes i).n (p i) x * root 1 (s.axes i).n (q i) x) *
        ∏ j ∈ Finset.univ.erase i, root 1 (s.axes j).n (q j) (p j) := fun x => by ring
  simp only [h]
  rw [← Finset.sum_mul, root_sum _ _ _ (p i).2 (q i).2]
  simp only [Fin.ext_iff]

theorem diagDim_E (s : Space) (i : Fin s.d) (f : Fin (s.axes i).n → ℂ) (q : s.Pt) :
    diagDim s i (fun p => f (p i)) (E s q) = (f (q i) * ((s.axes i).n : ℂ)) • E s q := by
  funext x
  show (∑ r : Fin (s.axes i).n, forwardDim s i (E s q) (Function.update x i r) *
    f (Function.update x i r i) * root 1 (s.axes i).n r (x i)) = _
  rw [Finset.sum_eq_single (q i)]
  · rw [forwardDim_E, Function.update_self, if_pos rfl, Pi.smul_apply, smul_eq_mul]
    have h := E_update s i q x (x i)
    rw [Function.update_eq_self] at h
    rw [h]
    have h2 : ∏ j ∈ Finset.univ.erase i, root 1 (s.axes j).n (q j) (Function.update x i (q i) j) =
        ∏ j ∈ Finset.univ.erase i, root 1 (s.axes j).n (q j) (x j) :=
      Finset.prod_congr rfl (fun j hj => by
        rw [Function.update_of_ne (Finset.ne_of_mem_erase hj)])
    rw [h2]
    ring
  · intro r _ hr
    rw [forwardDim_E, Function.update_self, if_neg hr]
    ring
  · intro hq
    exact absurd (Finset.mem_univ _) hq

/-! ### The scalar product -/

/-- The sum of the scalar product. -/
noncomputable def ip (s : Space) (φ ψ : s.Wf) : ℂ := ∑ x, (starRingEnd ℂ) (φ x) * ψ x

theorem ip_E (s : Space) (φ : s.Wf) (q : s.Pt) :
    ip s φ (E s q) = (starRingEnd ℂ) (forward s φ q) := by
  unfold ip forward E
  rw [map_sum]
  refine Finset.sum_congr rfl (fun x _ => ?_)
  rw [map_mul, map_prod]
  congr 1
  refine Finset.prod_congr rfl (fun i _ => ?_)
  rw [root_conj, neg_neg]

theorem ip_sum (s : Space) (φ : s.Wf) {ι : Type} (t : Finset ι) (c : ι → ℂ) (f : ι → s.Wf) :
    ip s φ (∑ q ∈ t, c q • f q) = ∑ q ∈ t, c q * ip s φ (f q) := by
  unfold ip
  simp only [Finset.sum_apply, Pi.smul_apply, smul_eq_mul, Finset.mul_sum]
  rw [Finset.sum_comm]
  exact Finset.sum_congr rfl (fun q _ => Finset.sum_congr rfl (fun x _ => by ring))

theorem ip_conj (s : Space) (φ ψ : s.Wf) : (starRingEnd ℂ) (ip s φ ψ) = ip s ψ φ := by
  unfold ip
  rw [map_sum]
  exact Finset.sum_congr rfl (fun x _ => by rw [map_mul, Complex.conj_conj]; ring)

theorem ip_add_right (s : Space) (φ ψ χ : s.Wf) : ip s φ (ψ + χ) = ip s φ ψ + ip s φ χ := by
  unfold ip
  rw [← Finset.sum_add_distrib]
  exact Finset.sum_congr rfl (fun x _ => by rw [Pi.add_apply]; ring)

theorem ip_smul_right (s : Space) (φ ψ : s.Wf) (c : ℂ) : ip s φ (c • ψ) = c * ip s φ ψ := by
  unfold ip
  rw [Finset.mul_sum]
  exact Finset.sum_congr rfl (fun x _ => by rw [Pi.smul_apply, smul_eq_mul]; ring)

/-- The scalar product in the Fourier basis. -/
theorem ip_diag {s : Space} (h : s.Ok) {A : s.Wf → s.Wf} (hA : Lin A) (m : s.Wf)
    (he : ∀ q, A (E s q) = m q • E s q) (φ ψ : s.Wf) :
    ip s φ (A ψ) =
      (∑ q, m q * ((starRingEnd ℂ) (forward s φ q) * forward s ψ q)) / (s.size : ℂ) := by
  rw [expand h ψ, hA.map_sum]
  simp only [he, smul_smul]
  rw [ip_sum, ← expand h ψ, Finset.sum_div]
  refine Finset.sum_congr rfl (fun q _ => ?_)
  rw [ip_E]
  ring

theorem parseval {s : Space} (h : s.Ok) (φ ψ : s.Wf) :
    ip s φ ψ = (∑ q, (starRingEnd ℂ) (forward s φ q) * forward s ψ q) / (s.size : ℂ) := by
  have := ip_diag h (A := fun ψ => ψ) (fun c φ ψ => rfl) (fun _ => 1) (fun q => (one_smul _ _).symm)
    φ ψ
  simpa using this

/-- A real diagonal makes a symmetric operator. -/
theorem diag_symm {s : Space} (h : s.Ok) {A : s.Wf → s.Wf} (hA : Lin A) (m : s.Pt → ℝ)
    (he : ∀ q, A (E s q) = (m q : ℂ) • E s q) (φ ψ : s.Wf) : ip s φ (A ψ) = ip s (A φ) ψ := by
  rw [← ip_conj s ψ (A φ), ip_diag h hA _ he, ip_diag h hA _ he, map_div₀, map_sum,
    Complex.conj_natCast]
  congr 1
  refine Finset.sum_congr rfl (fun q _ => ?_)
  rw [map_mul, map_mul, Complex.conj_conj, Complex.conj_ofReal]
  ring

/-- An imaginary diagonal makes an antisymmetric operator. -/
theorem diag_anti {s : Space} (h : s.Ok) {A : s.Wf → s.Wf} (hA : Lin A) (m : s.Pt → ℝ)
    (he : ∀ q, A (E s q) = (Complex.I * (m q : ℂ)) • E s q) (φ ψ : s.Wf) :
    ip s φ (A ψ) = -ip s (A φ) ψ := by
  rw [← ip_conj s ψ (A φ), ip_diag h hA _ he, ip_diag h hA _ he, map_div₀, map_sum,
    Complex.conj_natCast, ← neg_div, ← Finset.sum_neg_distrib]
  congr 1
  refine Finset.sum_congr rfl (fun q _ => ?_)
  rw [map_mul, map_mul, map_mul, Complex.conj_conj, Complex.conj_ofReal, Complex.conj_I]
  ring

/-- The expectation value of a real diagonal is a weighted sum of its elements. -/
theorem diag_expec {s : Space} (h : s.Ok) {A : s.Wf → s.Wf} (hA : Lin A) (m : s.Pt → ℝ)
    (he : ∀ q, A (E s q) = (m q : ℂ) • E s q) (ψ : s.Wf) :
    ip s ψ (A ψ) = ((∑ q, m q * ‖forward s ψ q‖ ^ 2) / (s.size : ℝ) : ℝ) := by
  rw [ip_diag h hA _ he, Complex.ofReal_div, Complex.ofReal_sum, Complex.ofReal_natCast]
  congr 1
  refine Finset.sum_congr rfl (fun q _ => ?_)
  rw [Complex.conj_mul', Complex.ofReal_mul, Complex.ofReal_pow]

theorem norm_expec {s : Space} (h : s.Ok) (ψ : s.Wf) :
    ip s ψ ψ = ((∑ q, ‖forward s ψ q‖ ^ 2) / (s.size : ℝ) : ℝ) := by
  have := diag_expec h (A := fun ψ => ψ) (fun c φ ψ => rfl) (fun _ => 1)
    (fun q => by rw [Complex.ofReal_one, one_smul]) ψ
  simpa using this

/-! ### Momentum grids -/

theorem ddx_eq {s : Space} (h : s.Ok) (i : Fin s.d) (f : ℝ) (q : s.Pt) :
    ddx s i f (q i) = wavenum s q i * f := by
  obtain ⟨k, h1, h2, h3⟩ := C22_first Real.pi (s.axes i) f (h i).1
  unfold ddx entry
  rw [h1]
  simp only
  rw [h3 _ (q i).2]
  rfl

theorem d2dx2_eq {s : Space} (h : s.Ok) (i : Fin s.d) (f : ℝ) (q : s.Pt) :
    d2dx2 s i f (q i) = -(wavenum s q i) ^ 2 * f := by
  obtain ⟨k, h1, h2, h3⟩ := C22_second Real.pi (s.axes i) f (h i).1
  unfold d2dx2 entry
  rw [h1]
  simp only
  rw [h3 _ (q i).2]
  rfl

theorem spacing_pos {s : Space} (h : s.Ok) (i : Fin s.d) : 0 < spacing s i := by
  have h1 := (h i).1
  have h2 := (h i).2
  have h3 : (2 : ℝ) ≤ (s.axes i).n := by exact_mod_cast h1
  unfold spacing
  apply div_pos <;> linarith

theorem dx_eq (s : Space) (i : Fin s.d) : (s.axes i).dx = spacing s i := rfl

theorem wavenum_le {s : Space} (h : s.Ok) (q : s.Pt) (i : Fin s.d) :
    |wavenum s q i| ≤ Real.pi / spacing s i := by
  have hs := spacing_pos h i
  have hn : (2 : ℝ) ≤ (s.axes i).n := by exact_mod_cast (h i).1
  have hf : |(freq (s.axes i).n (q i) : ℝ)| ≤ (s.axes i).n / 2 := by
    have hq := (q i).2
    unfold freq
    split
    · rename_i hc
      have hc' : (2 : ℝ) * ((q i : Nat) : ℝ) ≤ (s.axes i).n := by exact_mod_cast hc.le
      rw [abs_of_nonneg (by positivity)]
      push_cast
      linarith
    · rename_i hc
      have hc' : ((s.axes i).n : ℝ) ≤ 2 * ((q i : Nat) : ℝ) := by
        exact_mod_cast (not_lt.1 hc)
      have hq' : ((q i : Nat) : ℝ) ≤ (s.axes i).n := by exact_mod_cast hq.le
      rw [abs_of_nonpos (by push_cast; linarith)]
      push_cast
      linarith
  unfold wavenum
  rw [abs_mul, abs_of_pos (by have := Real.pi_pos; positivity : 0 < 2 * Real.pi / (((s.axes i).n : ℝ) * spacing s i))]
  calc |(freq (s.axes i).n (q i) : ℝ)| * (2 * Real.pi / (((s.axes i).n : ℝ) * spacing s i))
      ≤ (s.axes i).n / 2 * (2 * Real.pi / (((s.axes i).n : ℝ) * spacing s i)) := by
        apply mul_le_mul_of_nonneg_right hf
        have := Real.pi_pos
        positivity
    _ = Real.pi / spacing s i := by
        have : ((s.axes i).n : ℝ) ≠ 0 := by linarith
        field_simp

/-! ### Plane waves -/

/-- The phase of a plane wave at the lower end of the grid. -/
noncomputable def phase (s : Space) (q : s.Pt) : ℂ :=
  Complex.exp (Complex.I * ((∑ i, wavenum s q i * (s.axes i).xmin : ℝ) : ℂ))

theorem root_wave {s : Space} (h : s.Ok) (q x : s.Pt) (i : Fin s.d) :
    Complex.exp (Complex.I * ((wavenum s q i * (((x i : Nat) : ℝ) * spacing s i) : ℝ) : ℂ)) =
      root 1 (s.axes i).n (q i) (x i) := by
  have hs := (spacing_pos h i).ne'
  have hn : ((s.axes i).n : ℝ) ≠ 0 := by
    have : (2 : ℝ) ≤ (s.axes i).n := by exact_mod_cast (h i).1
    linarith
  have h1 : wavenum s q i * (((x i : Nat) : ℝ) * spacing s i) =
      2 * Real.pi * ((freq (s.axes i).n (q i) : ℝ) * ((x i : Nat) : ℝ)) / (s.axes i).n := by
    unfold wavenum
    field_simp
  rw [h1]
  unfold root freq
  split
  · rw [one_mul, mul_comm]
    push_cast
    rfl
  · rw [one_mul, Complex.exp_eq_exp_iff_exists_int]
    refine ⟨-((x i : Nat) : ℤ), ?_⟩
    have hn' : ((s.axes i).n : ℂ) ≠ 0 := by exact_mod_cast hn
    push_cast
    field_simp
    ring

theorem wave_eq {s : Space} (h : s.Ok) (q : s.Pt) : wave s q = phase s q • E s q := by
  funext x
  rw [Pi.smul_apply, smul_eq_mul]
  unfold wave planeWave phase E coord
  have h1 : (∑ i, wavenum s q i * ((s.axes i).xmin + ((x i : Nat) : ℝ) * spacing s i) : ℝ) =
      (∑ i, wavenum s q i * (s.axes i).xmin) +
        ∑ i, wavenum s q i * (((x i : Nat) : ℝ) * spacing s i) := by
    rw [← Finset.sum_add_distrib]
    exact Finset.sum_congr rfl (fun i _ => by ring)
  rw [h1, Complex.ofReal_add, mul_add, Complex.exp_add]
  congr 1
  rw [Complex.ofReal_sum, Finset.mul_sum, Complex.exp_sum]
  exact Finset.prod_congr rfl (fun i _ => root_wave h q x i)

theorem phase_ne (s : Space) (q : s.Pt) : phase s q ≠ 0 := Complex.exp_ne_zero _

/-- A linear map that scales a basis function scales the plane wave, and vice versa. -/
theorem scale_wave {s : Space} (h : s.Ok) {A : s.Wf → s.Wf} (hA : Lin A) (q : s.Pt) (c : ℂ) :
    A (wave s q) = c • wave s q ↔ A (E s q) = c • E s q := by
  have hs : ∀ (a : ℂ) φ, A (a • φ) = a • A φ := by
    intro a φ
    have := hA.map_sum (Finset.univ : Finset Unit) (fun _ => a) (fun _ => φ)
    simpa using this
  rw [wave_eq h, hs, smul_comm c]
  constructor
  · intro he
    exact smul_right_injective _ (phase_ne s q) he
  · intro he
    rw [he]

end QDng.Deriv
