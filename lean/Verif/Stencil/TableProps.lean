import Verif.Stencil.Table
import Verif.Stencil.Props
import Mathlib.Algebra.Polynomial.Taylor
import Mathlib.Algebra.Polynomial.HasseDeriv
import Mathlib.Data.Nat.Factorial.Basic
import Mathlib.Algebra.Order.Ring.Unbundled.Rat
import Mathlib.Data.Rat.Cast.CharZero
import Mathlib.Algebra.Order.Field.Basic
import Mathlib.Tactic.Positivity

/-
Properties of the finite difference coefficients (C65).
-/

namespace QDng.Stencil

open QDng.Grid

/-! ### C65 -/

/-- Factorial, as an integer product. -/
def fact : Nat → Int
  | 0 => 1
  | n + 1 => fact n * (n + 1)

/-- `(-1)^n`. -/
def sgn (n : Nat) : Int := if n % 2 = 0 then 1 else -1

/-- The coefficient at distance `m` of the exact central difference formula of order `2 p` for the
first derivative, as the factor of the left neighbour. -/
def exact1 (p m : Nat) : ℚ :=
  if m = 0 then 0
  else (sgn m * (fact p) ^ 2 : Int) / (m * fact (p - m) * fact (p + m) : Int)

/-- The sum of `1 / i^2` up to `p`. -/
def sumInvSq : Nat → ℚ
  | 0 => 0
  | p + 1 => sumInvSq p + 1 / ((p + 1 : Nat) : ℚ) ^ 2

/-- The coefficient at distance `m` of the exact central difference formula of order `2 p` for the
second derivative. -/
def exact2 (p m : Nat) : ℚ :=
  if m = 0 then -2 * sumInvSq p
  else (-2 * sgn m * (fact p) ^ 2 : Int) / (m ^ 2 * fact (p - m) * fact (p + m) : Int)

/-- The entry of the table used for the neighbours at distance `m` in the stencil of order `2 p`. -/
def entry (deriv p m : Nat) : ℚ :=
  (cfTable.getD (if deriv = 1 then p - 1 else 25 + (p - 1)) []).getD (p - m) 0

/-- The relative deviation allowed: 10^-15 of the exact coefficient. -/
def close (x e : ℚ) : Bool := decide ((x - e) * 10 ^ 15 ≤ |e|) && decide ((e - x) * 10 ^ 15 ≤ |e|)

theorem table1_check : ((List.range 25).all (fun r => (List.range (r + 1)).all (fun k =>
    close (entry 1 (r + 1) (k + 1)) (exact1 (r + 1) (k + 1))))) = true := by
  decide +kernel

theorem table1_center : ((List.range 25).all (fun r =>
    decide (|entry 1 (r + 1) 0| * 10 ^ 19 ≤ 1))) = true := by
  decide +kernel

theorem table2_check : ((List.range 25).all (fun r => (List.range (r + 2)).all (fun k =>
    close (entry 2 (r + 1) k) (exact2 (r + 1) k)))) = true := by
  decide +kernel

/-- The moments of the exact stencils. -/
def moment (deriv p k : Nat) : ℚ :=
  central p (if deriv = 1 then exact1 p else exact2 p) (if deriv = 1 then -1 else 1)
    (fun i => (i : ℚ) ^ k) 0

theorem moments1 : ((List.range 25).all (fun r => (List.range (2 * (r + 1) + 1)).all (fun k =>
    decide (moment 1 (r + 1) k = if k = 1 then 1 else 0)))) = true := by
  decide +kernel

theorem moments2 : ((List.range 25).all (fun r => (List.range (2 * (r + 1) + 1)).all (fun k =>
    decide (moment 2 (r + 1) k = if k = 2 then 2 else 0)))) = true := by
  decide +kernel

theorem row_lengths : ((List.range 50).all (fun r =>
    decide ((cfTable.getD r []).length = 26))) = true := by
  decide +kernel

theorem row_exists (r : Nat) (h : r < 50) :
    ∃ cf, cfTable[r]? = some cf ∧ cf.length = 26 ∧ cfTable.getD r [] = cf := by
  have h1 := row_lengths
  rw [List.all_eq_true] at h1
  have h2 := h1 r (List.mem_range.2 h)
  simp only [decide_eq_true_eq] at h2
  cases hc : cfTable[r]? with
  | none =>
    rw [List.getD_eq_getElem?_getD, hc] at h2
    simp at h2
  | some cf =>
    rw [List.getD_eq_getElem?_getD, hc] at h2
    exact ⟨cf, rfl, h2, by rw [List.getD_eq_getElem?_getD, hc]; rfl⟩

theorem close_spec (x e : ℚ) (h : close x e = true) : |x - e| ≤ |e| / 10 ^ 15 := by
  unfold close at h
  simp only [Bool.and_eq_true, decide_eq_true_eq] at h
  rw [le_div_iff₀ (by positivity)]
  rcases abs_cases (x - e) with ⟨h3, _⟩ | ⟨h3, _⟩
  · rw [h3]; exact h.1
  · rw [h3, neg_sub]; exact h.2

/-- C65: the row of the table for the first derivative and the order `2 p` holds the coefficients
of the exact central difference formula with a relative deviation of at most 10^-15, and for the
point itself a number below 10^-19 instead of zero. -/
theorem C65_first (p : Nat) (h1 : 1 ≤ p) (h2 : p ≤ 25) :
    ∃ cf, cfTable[p - 1]? = some cf ∧ p < cf.length ∧ |cf.getD p 0| ≤ 1 / 10 ^ 19 ∧
      ∀ m, 1 ≤ m → m ≤ p → |cf.getD (p - m) 0 - exact1 p m| ≤ |exact1 p m| / 10 ^ 15 := by
  obtain ⟨cf, e1, e2, e3⟩ := row_exists (p - 1) (by omega)
  refine ⟨cf, e1, by omega, ?_, ?_⟩
  · have h := table1_center
    rw [List.all_eq_true] at h
    have := h (p - 1) (List.mem_range.2 (by omega))
    simp only [decide_eq_true_eq] at this
    rw [show p - 1 + 1 = p by omega] at this
    unfold entry at this
    rw [if_pos rfl, e3, Nat.sub_zero] at this
    rw [le_div_iff₀ (by positivity)]
    exact this
  · intro m hm1 hm2
    have h := table1_check
    rw [List.all_eq_true] at h
    have := h (p - 1) (List.mem_range.2 (by omega))
    rw [List.all_eq_true] at this
    have := this (m - 1) (List.mem_range.2 (by omega))
    rw [show p - 1 + 1 = p by omega, show m - 1 + 1 = m by omega] at this
    unfold entry at this
    rw [if_pos rfl, e3] at this
    exact close_spec _ _ this

/-- C65: the row of the table for the second derivative and the order `2 p` holds the coefficients
of the exact central difference formula with a relative deviation of at most 10^-15. -/
theorem C65_second (p : Nat) (h1 : 1 ≤ p) (h2 : p ≤ 25) :
    ∃ cf, cfTable[25 + (p - 1)]? = some cf ∧ p < cf.length ∧
      ∀ m, m ≤ p → |cf.getD (p - m) 0 - exact2 p m| ≤ |exact2 p m| / 10 ^ 15 := by
  obtain ⟨cf, e1, e2, e3⟩ := row_exists (25 + (p - 1)) (by omega)
  refine ⟨cf, e1, by omega, ?_⟩
  intro m hm
  have h := table2_check
  rw [List.all_eq_true] at h
  have := h (p - 1) (List.mem_range.2 (by omega))
  rw [List.all_eq_true] at this
  have := this m (List.mem_range.2 (by omega))
  rw [show p - 1 + 1 = p by omega] at this
  unfold entry at this
  rw [if_neg (by omega), e3] at this
  exact close_spec _ _ this

/-! The exact formula differentiates polynomials. -/

theorem central_smul_add {K : Type} [CommRing K] (w : Nat) (c : Nat → K) (s a : K) (f g : Int → K)
    (i : Int) : central w c s (fun j => f j + a * g j) i =
      central w c s f i + a * central w c s g i := by
  unfold central
  have : ∀ n, sumTo (fun k => c (k + 1) * ((f (i - (k + 1)) + a * g (i - (k + 1))) +
        s * (f (i + (k + 1)) + a * g (i + (k + 1))))) n =
      sumTo (fun k => c (k + 1) * (f (i - (k + 1)) + s * f (i + (k + 1)))) n +
      a * sumTo (fun k => c (k + 1) * (g (i - (k + 1)) + s * g (i + (k + 1)))) n := by
    intro n
    induction n with
    | zero => simp [sumTo]
    | succ n ih => simp only [sumTo]; rw [ih]; ring
  rw [this w]
  ring

theorem central_zero {K : Type} [CommRing K] (w : Nat) (c : Nat → K) (s : K) (i : Int) :
    central w c s (fun _ => 0) i = 0 := by
  unfold central
  have : ∀ n, sumTo (fun k => c (k + 1) * ((0 : K) + s * 0)) n = 0 := by
    intro n
    induction n with
    | zero => rfl
    | succ n ih => simp only [sumTo]; rw [ih]; simp
  rw [this w]; simp

theorem central_sum {K : Type} [CommRing K] (w : Nat) (c : Nat → K) (s : K) (b : Nat → K)
    (n : Nat) (i : Int) :
    central w c s (fun j => (Finset.range n).sum (fun k => b k * (j : K) ^ k)) i =
      (Finset.range n).sum (fun k => b k * central w c s (fun j => (j : K) ^ k) i) := by
  induction n with
  | zero => simp [central_zero]
  | succ n ih =>
    simp only [Finset.sum_range_succ]
    rw [central_smul_add, ih]

theorem central_cast {K : Type} [Field K] [CharZero K] (w : Nat) (c : Nat → ℚ) (s : ℚ) (k : Nat) :
    central w (fun m => (c m : K)) (s : K) (fun j => (j : K) ^ k) 0 =
      ((central w c s (fun j => (j : ℚ) ^ k) 0 : ℚ) : K) := by
  unfold central
  have : ∀ n, sumTo (fun k' => ((c (k' + 1) : ℚ) : K) * (((0 - ((k' : Int) + 1) : Int) : K) ^ k +
        (s : K) * ((0 + ((k' : Int) + 1) : Int) : K) ^ k)) n =
      ((sumTo (fun k' => c (k' + 1) * (((0 - ((k' : Int) + 1) : Int) : ℚ) ^ k +
        s * ((0 + ((k' : Int) + 1) : Int) : ℚ) ^ k)) n : ℚ) : K) := by
    intro n
    induction n with
    | zero => simp [sumTo]
    | succ n ih => simp only [sumTo]; rw [ih]; push_cast; ring
  rw [this w]
  push_cast
  ring

theorem poly_line {K : Type} [Field K] (P : Polynomial K) (N : Nat) (hP : P.natDegree < N) (x h : K)
    (i : Int) : P.eval (x + i * h) =
      (Finset.range N).sum (fun k => ((Polynomial.taylor x P).coeff k * h ^ k) * (i : K) ^ k) := by
  have e : P.eval (x + i * h) = (Polynomial.taylor x P).eval (i * h) := by
    rw [Polynomial.taylor_eval, add_comm]
  rw [e, Polynomial.eval_eq_sum_range' (n := N) (by rw [Polynomial.natDegree_taylor]; exact hP)]
  apply Finset.sum_congr rfl
  intro k _
  rw [mul_pow]
  ring

theorem stencil_poly {K : Type} [Field K] [CharZero K] (P : Polynomial K) (p d : Nat)
    (hP : P.natDegree ≤ 2 * p) (c : Nat → ℚ) (s : ℚ) (x h : K) (v : ℚ) (hd : d ≤ 2 * p)
    (hm : ∀ k, k ≤ 2 * p → central p c s (fun i => (i : ℚ) ^ k) 0 = if k = d then v else 0) :
    central p (fun m => (c m : K)) (s : K) (fun i => P.eval (x + i * h)) 0 =
      (Polynomial.taylor x P).coeff d * h ^ d * v := by
  have e : (fun i : Int => P.eval (x + i * h)) = fun i : Int => (Finset.range (2 * p + 1)).sum
      (fun k => ((Polynomial.taylor x P).coeff k * h ^ k) * (i : K) ^ k) := by
    funext i
    exact poly_line P (2 * p + 1) (by omega) x h i
  rw [e, central_sum, Finset.sum_eq_single d]
  · rw [central_cast, hm d hd, if_pos rfl]
  · intro k hk hkd
    rw [Finset.mem_range] at hk
    rw [central_cast, hm k (by omega), if_neg hkd]
    simp
  · intro hd'
    rw [Finset.mem_range] at hd'
    omega

theorem moment_get (deriv : Nat) (v : ℚ) (p k : Nat)
    (h : ((List.range 25).all (fun r => (List.range (2 * (r + 1) + 1)).all (fun k =>
      decide (moment deriv (r + 1) k = if k = deriv then v else 0)))) = true)
    (h1 : 1 ≤ p) (h2 : p ≤ 25) (hk : k ≤ 2 * p) :
    moment deriv p k = if k = deriv then v else 0 := by
  rw [List.all_eq_true] at h
  have := h (p - 1) (List.mem_range.2 (by omega))
  rw [show p - 1 + 1 = p by omega, List.all_eq_true] at this
  have := this k (List.mem_range.2 (by omega))
  simpa using this

/-- C65: the stencil with the exact coefficients of order `2 p` yields the first derivative of every
polynomial of degree up to `2 p`, at every point and for every spacing. -/
theorem C65_exact_first {K : Type} [Field K] [CharZero K] (P : Polynomial K) (p : Nat)
    (h1 : 1 ≤ p) (h2 : p ≤ 25) (hP : P.natDegree ≤ 2 * p) (x h : K) :
    central p (fun m => (exact1 p m : K)) (-1) (fun i => P.eval (x + i * h)) 0 =
      h * P.derivative.eval x := by
  have e := stencil_poly P p 1 hP (exact1 p) (-1) x h 1 (by omega) (by
    intro k hk
    exact moment_get 1 1 p k moments1 h1 h2 hk)
  rw [Polynomial.taylor_coeff_one] at e
  push_cast at e
  rw [e]
  ring

/-- C65: the stencil with the exact coefficients of order `2 p` yields the second derivative of
every polynomial of degree up to `2 p`, at every point and for every spacing. -/
theorem C65_exact_second {K : Type} [Field K] [CharZero K] (P : Polynomial K) (p : Nat)
    (h1 : 1 ≤ p) (h2 : p ≤ 25) (hP : P.natDegree ≤ 2 * p) (x h : K) :
    central p (fun m => (exact2 p m : K)) 1 (fun i => P.eval (x + i * h)) 0 =
      h ^ 2 * P.derivative.derivative.eval x := by
  have e := stencil_poly P p 2 hP (exact2 p) 1 x h 2 (by omega) (by
    intro k hk
    exact moment_get 2 2 p k moments2 h1 h2 hk)
  have hh : P.derivative.derivative = (2 : Polynomial K) * Polynomial.hasseDeriv 2 P := by
    have := congrArg (fun f => f P) (Polynomial.factorial_smul_hasseDeriv (R := K) 2)
    simp only [Function.iterate_succ, Function.iterate_zero, Function.comp, id] at this
    rw [← this]
    simp [Nat.factorial, two_mul, two_smul]
  rw [Polynomial.taylor_coeff] at e
  push_cast at e
  rw [e, hh, Polynomial.eval_mul]
  simp
  ring

/-- The order 4 of the first derivative: coefficients 1/12 and -2/3 of the left neighbours. -/
example : exact1 2 2 = 1 / 12 ∧ exact1 2 1 = -2 / 3 ∧ exact2 2 0 = -5 / 2 ∧
    cfTable[1]? = some ([(833333333333333333 : ℚ) / 10 ^ 19, -666666666666666667 / 10 ^ 18, 0] ++
      List.replicate 23 0) := by
  refine ⟨by decide +kernel, by decide +kernel, by decide +kernel, by decide +kernel⟩

end QDng.Stencil
