import Mathlib.Algebra.BigOperators.Fin
import Mathlib.Algebra.Order.BigOperators.Group.Finset
import Mathlib.Data.Complex.BigOperators
import Mathlib.Tactic.FinCases
import Mathlib.Tactic.Linarith
import Mathlib.Tactic.Positivity
import Mathlib.Tactic.Ring
import Verif.SumBnd.Model

/-!
Properties of the energy bounds of sums and products.
-/

namespace QDng.SumBnd

open QDng.Common

/-- Spec: the real part of the expectation value ⟨ψ|φ⟩ with φ the operator applied to ψ. -/
noncomputable def expect {n : Nat} (ψ φ : Fin n → ℂ) : ℝ := (∑ x, (starRingEnd ℂ) (ψ x) * φ x).re

/-- Spec: the squared norm. -/
noncomputable def norm2 {n : Nat} (ψ : Fin n → ℂ) : ℝ := ∑ x, Complex.normSq (ψ x)

/-- Spec: the values `lo` and `hi` enclose all expectation values of the action. -/
def Encloses {n : Nat} (lo hi : ℂ) (act : (Fin n → ℂ) → Fin n → ℂ) : Prop :=
  ∀ ψ, lo.re * norm2 ψ ≤ expect ψ (act ψ) ∧ expect ψ (act ψ) ≤ hi.re * norm2 ψ

theorem expect_add {n : Nat} (ψ a b : Fin n → ℂ) : expect ψ (fun x => a x + b x) = expect ψ a + expect ψ b := by
  unfold expect
  rw [← Complex.add_re, ← Finset.sum_add_distrib]
  congr 1
  exact Finset.sum_congr rfl (fun x _ => by ring)

theorem fold_bounds {n : Nat} (ψ : Fin n → ℂ) : ∀ (l : List (Part n)) (d : Fin n → ℂ) (a b : ℂ),
    (∀ p ∈ l, Encloses p.emin p.emax p.op) →
    a.re * norm2 ψ ≤ expect ψ d → expect ψ d ≤ b.re * norm2 ψ →
    (l.foldl (fun d p => d + p.emin) a).re * norm2 ψ
        ≤ expect ψ (l.foldl (fun d q => fun x => d x + q.op ψ x) d)
      ∧ expect ψ (l.foldl (fun d q => fun x => d x + q.op ψ x) d)
        ≤ (l.foldl (fun d p => d + p.emax) b).re * norm2 ψ := by
  intro l
  induction l with
  | nil => intro d a b _ h1 h2; exact ⟨h1, h2⟩
  | cons p l ih =>
    intro d a b hp h1 h2
    obtain ⟨q1, q2⟩ := hp p List.mem_cons_self ψ
    refine ih _ (a + p.emin) (b + p.emax) (fun q hq => hp q (List.mem_cons_of_mem _ hq)) ?_ ?_
    · rw [expect_add, Complex.add_re]; linarith
    · rw [expect_add, Complex.add_re]; linarith

/-- **C322.**  If the bounds of all parts enclose their expectation values, the bounds of the sum enclose those of the sum. -/
theorem C322_sum {n : Nat} (l : List (Part n)) (hl : l ≠ []) (hp : ∀ p ∈ l, Encloses p.emin p.emax p.op) :
    ∃ lo hi act, sumEmin l = .val lo ∧ sumEmax l = .val hi ∧ (∀ ψ, sumApply l ψ = .val (act ψ)) ∧ Encloses lo hi act := by
  cases l with
  | nil => exact absurd rfl hl
  | cons p l =>
    refine ⟨_, _, fun ψ => l.foldl (fun d q => fun x => d x + q.op ψ x) (p.op ψ), rfl, rfl, fun _ => rfl, ?_⟩
    intro ψ
    obtain ⟨q1, q2⟩ := hp p List.mem_cons_self ψ
    exact fold_bounds ψ l (p.op ψ) (0 + p.emin) (0 + p.emax) (fun q hq => hp q (List.mem_cons_of_mem _ hq))
      (by rw [zero_add]; exact q1) (by rw [zero_add]; exact q2)

/-- **C322, the values**: the sums of the values of the parts. -/
theorem C322_values {n : Nat} (l : List (Part n)) (hl : l ≠ []) :
    sumEmin l = .val (l.map Part.emin).sum ∧ sumEmax l = .val (l.map Part.emax).sum := by
  have h : ∀ (f : Part n → ℂ) (l : List (Part n)) (a : ℂ), l.foldl (fun d p => d + f p) a = a + (l.map f).sum := by
    intro f l
    induction l with
    | nil => intro a; simp
    | cons p l ih => intro a; simp only [List.foldl_cons, List.map_cons, List.sum_cons]; rw [ih]; ring
  have hne : ¬ l.length = 0 := fun h => hl (List.eq_nil_of_length_eq_zero h)
  unfold sumEmin sumEmax
  rw [if_neg hne, if_neg hne, h Part.emin, h Part.emax, zero_add, zero_add]
  exact ⟨rfl, rfl⟩

/-- **C322, an empty sum** is refused. -/
theorem C322_empty (n : Nat) : sumEmin ([] : List (Part n)) = .threw ∧ sumEmax ([] : List (Part n)) = .threw
    ∧ ∀ ψ, sumApply ([] : List (Part n)) ψ = .threw := ⟨rfl, rfl, fun _ => rfl⟩

/-- Spec: the part multiplies with the real values `v`, and these are within its bounds, which are real and not negative. -/
def PosDiag {n : Nat} (p : Part n) (v : Fin n → ℝ) : Prop :=
  (∀ ψ x, p.op ψ x = (v x : ℂ) * ψ x) ∧ (∀ x, p.emin.re ≤ v x ∧ v x ≤ p.emax.re) ∧ 0 ≤ p.emin.re
    ∧ p.emin.im = 0 ∧ p.emax.im = 0

theorem prod_bounds {n : Nat} : ∀ (l : List (Part n)), (∀ p ∈ l, ∃ v, PosDiag p v) →
    (prodEmin l).im = 0 ∧ (prodEmax l).im = 0 ∧ 0 ≤ (prodEmin l).re
      ∧ ∃ w : Fin n → ℝ, (∀ ψ x, prodApply l ψ x = (w x : ℂ) * ψ x)
        ∧ ∀ x, (prodEmin l).re ≤ w x ∧ w x ≤ (prodEmax l).re := by
  intro l
  induction l with
  | nil =>
    intro _
    refine ⟨by simp [prodEmin], by simp [prodEmax], by simp [prodEmin], fun _ => 1, ?_, ?_⟩
    · intro ψ x; simp [prodApply]
    · intro x; simp [prodEmin, prodEmax]
  | cons p l ih =>
    intro hp
    obtain ⟨i1, i2, i3, w, i4, i5⟩ := ih (fun q hq => hp q (List.mem_cons_of_mem _ hq))
    obtain ⟨v, d1, d2, d3, d4, d5⟩ := hp p List.mem_cons_self
    have e1 : prodEmin (p :: l) = prodEmin l * p.emin := rfl
    have e2 : prodEmax (p :: l) = prodEmax l * p.emax := rfl
    have e3 : ∀ ψ, prodApply (p :: l) ψ = p.op (prodApply l ψ) := fun _ => rfl
    rw [e1, e2]
    simp only [Complex.mul_re, Complex.mul_im, i1, i2, d4, d5]
    refine ⟨by ring, by ring, ?_, fun x => w x * v x, ?_, ?_⟩
    · have := mul_nonneg i3 d3
      linarith
    · intro ψ x
      rw [e3, d1, i4]
      push_cast
      ring
    · intro x
      have hw := i5 x
      have hv := d2 x
      have m1 := mul_le_mul hw.1 hv.1 d3 (le_trans i3 hw.1)
      have m2 := mul_le_mul hw.2 hv.2 (le_trans d3 hv.1) (le_trans (le_trans i3 hw.1) hw.2)
      constructor <;> linarith

/-- **C323 (part: multiplications with values that are not negative).**  The bounds of a product of such parts enclose the
expectation values of the product. -/
theorem C323_partial {n : Nat} (l : List (Part n)) (hp : ∀ p ∈ l, ∃ v, PosDiag p v) :
    Encloses (prodEmin l) (prodEmax l) (prodApply l) := by
  obtain ⟨_, _, _, w, hw, hb⟩ := prod_bounds l hp
  intro ψ
  have he : expect ψ (prodApply l ψ) = ∑ x, w x * Complex.normSq (ψ x) := by
    unfold expect
    rw [Complex.re_sum]
    refine Finset.sum_congr rfl (fun x _ => ?_)
    rw [hw, Complex.normSq_apply]
    simp only [Complex.mul_re, Complex.mul_im, Complex.conj_re, Complex.conj_im, Complex.ofReal_re, Complex.ofReal_im]
    ring
  rw [he]
  unfold norm2
  rw [Finset.mul_sum, Finset.mul_sum]
  exact ⟨Finset.sum_le_sum (fun x _ => mul_le_mul_of_nonneg_right (hb x).1 (Complex.normSq_nonneg _)),
    Finset.sum_le_sum (fun x _ => mul_le_mul_of_nonneg_right (hb x).2 (Complex.normSq_nonneg _))⟩

/-- The multiplication with the number `a`, with the bounds `a` and `b`. -/
def scalePart (n : Nat) (a b : ℝ) : Part n := ⟨fun ψ x => (a : ℂ) * ψ x, a, b⟩

theorem scalePart_encloses (n : Nat) (a b : ℝ) (h : a ≤ b) :
    Encloses (scalePart n a b).emin (scalePart n a b).emax (scalePart n a b).op := by
  intro ψ
  have he : expect ψ ((scalePart n a b).op ψ) = a * norm2 ψ := by
    unfold expect norm2 scalePart
    rw [Complex.re_sum, Finset.mul_sum]
    refine Finset.sum_congr rfl (fun x _ => ?_)
    rw [Complex.normSq_apply]
    simp only [Complex.mul_re, Complex.mul_im, Complex.conj_re, Complex.conj_im, Complex.ofReal_re, Complex.ofReal_im]
    ring
  have hn : 0 ≤ norm2 ψ := Finset.sum_nonneg (fun x _ => Complex.normSq_nonneg _)
  rw [he]
  exact ⟨le_refl _, mul_le_mul_of_nonneg_right h hn⟩

/-- **C323 is false for negative values**: for all `a < 0` and `b` with `a ≤ b` and `b² < a²` there is a part with these
bounds, which enclose its expectation values, whose square exceeds the upper bound of the product for every wave function
that is not zero. -/
theorem C323_violated (n : Nat) (a b : ℝ) (hab : a ≤ b) (hsq : b * b < a * a) (ψ : Fin n → ℂ) (hψ : 0 < norm2 ψ) :
    ∃ p : Part n, p.emin = (a : ℂ) ∧ p.emax = (b : ℂ) ∧ Encloses p.emin p.emax p.op
      ∧ (prodEmax [p, p]).re * norm2 ψ < expect ψ (prodApply [p, p] ψ) := by
  refine ⟨scalePart n a b, rfl, rfl, scalePart_encloses n a b hab, ?_⟩
  have he : expect ψ (prodApply [scalePart n a b, scalePart n a b] ψ) = a * a * norm2 ψ := by
    unfold expect norm2
    rw [Complex.re_sum, Finset.mul_sum]
    refine Finset.sum_congr rfl (fun x _ => ?_)
    simp only [prodApply, scalePart, List.foldr_cons, List.foldr_nil]
    rw [Complex.normSq_apply]
    simp only [Complex.mul_re, Complex.mul_im, Complex.conj_re, Complex.conj_im, Complex.ofReal_re, Complex.ofReal_im]
    ring
  have hm : (prodEmax [scalePart n a b, scalePart n a b]).re = b * b := by
    simp [prodEmax, scalePart]
  rw [he, hm]
  exact mul_lt_mul_of_pos_right hsq hψ

/-! ### The hypotheses are met -/

/-- Two parts that are not trivial: the multiplications with 1 and with -2 on two points. -/
example : ∃ lo hi act, sumEmin [scalePart 2 1 3, scalePart 2 (-2) 5] = .val lo
    ∧ sumEmax [scalePart 2 1 3, scalePart 2 (-2) 5] = .val hi
    ∧ (∀ ψ, sumApply [scalePart 2 1 3, scalePart 2 (-2) 5] ψ = .val (act ψ)) ∧ Encloses lo hi act :=
  C322_sum _ (by simp) (by
    intro p hp
    rcases List.mem_cons.1 hp with h | h
    · rw [h]; exact scalePart_encloses 2 1 3 (by norm_num)
    · rw [List.mem_singleton.1 h]; exact scalePart_encloses 2 (-2) 5 (by norm_num))

/-- A part with the values 1 and 4 on two points. -/
example : PosDiag (n := 2) ⟨fun ψ x => ((![1, 4] x : ℝ) : ℂ) * ψ x, 1, 4⟩ ![1, 4] := by
  refine ⟨fun _ _ => rfl, ?_, by simp, by simp, by simp⟩
  intro x
  fin_cases x <;> simp

/-- A wave function on two points, and bounds from -2 to 1. -/
example : (-2 : ℝ) ≤ 1 ∧ (1 : ℝ) * 1 < (-2) * (-2) ∧ 0 < norm2 (n := 2) (fun _ => 1) := by
  refine ⟨by norm_num, by norm_num, ?_⟩
  simp [norm2]

end QDng.SumBnd
