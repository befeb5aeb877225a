import Verif.Propa.ChebyModel
import Mathlib.RingTheory.Polynomial.Chebyshev
import Mathlib.Algebra.Polynomial.AlgebraMap
import Mathlib.Algebra.BigOperators.Intervals
import Mathlib.LinearAlgebra.Span.Basic
import Mathlib.Tactic.Module
import Mathlib.Tactic.LinearCombination
import Mathlib.Tactic.Linarith

/-
Properties of the Chebychev propagator: C31.
-/

namespace QDng.Propa

open QDng.Ops Polynomial

section

variable {V : Type} [AddCommGroup V] [Module ℂ V]

/-! ### Specification -/

/-- The scaled and shifted Hamiltonian `(H - offset) / scaling`. -/
noncomputable def scaled (H : Module.End ℂ V) (offset : ℂ) (scaling : ℝ) : Module.End ℂ V :=
  (1 / (scaling : ℂ)) • (H - offset • 1)

/-- The first `m` terms of the series: coefficients times phases `e^k` times Chebychev polynomials of the
scaled Hamiltonian, applied to the wave function, with the common phase of the offset. -/
noncomputable def series (H : Module.End ℂ V) (offset : ℂ) (scaling : ℝ) (phase e : ℂ) (coeff : List ℂ) (m : Nat)
    (ψ : V) : V :=
  ∑ k ∈ Finset.range m, (phase * (coeff.getD k 0) * e ^ k) •
    (aeval (scaled H offset scaling) (Chebyshev.T ℂ (k : ℤ))) ψ

/-- Five different wave function objects. -/
def Different (p k0 k1 k2 b : Nat) : Prop :=
  p ≠ k0 ∧ p ≠ k1 ∧ p ≠ k2 ∧ p ≠ b ∧ k0 ≠ k1 ∧ k0 ≠ k2 ∧ k0 ≠ b ∧ k1 ≠ k2 ∧ k1 ≠ b ∧ k2 ≠ b

/-! ### The recursion -/

/-- The terms of the series without coefficients. -/
noncomputable def term (X : Module.End ℂ V) (e : ℂ) (k : Nat) (ψ : V) : V :=
  (e ^ k) • (aeval X (Chebyshev.T ℂ (k : ℤ))) ψ

theorem term_zero (X : Module.End ℂ V) (e : ℂ) (ψ : V) : term X e 0 ψ = ψ := by
  simp [term]

theorem term_one (X : Module.End ℂ V) (e : ℂ) (ψ : V) : term X e 1 ψ = e • X ψ := by
  simp [term]

theorem term_step (X : Module.End ℂ V) (e sgn : ℂ) (he : e * e = -sgn) (k : Nat) (ψ : V) :
    term X e (k + 2) ψ = (2 * e) • X (term X e (k + 1) ψ) + sgn • term X e k ψ := by
  unfold term
  have h := Chebyshev.T_add_two ℂ (k : ℤ)
  have h2 : ((k + 2 : Nat) : ℤ) = (k : ℤ) + 2 := by push_cast; ring
  have h1 : ((k + 1 : Nat) : ℤ) = (k : ℤ) + 1 := by push_cast; ring
  rw [h2, h1, h]
  simp only [map_sub, map_mul, aeval_X, LinearMap.sub_apply, Module.End.mul_apply, map_ofNat,
    map_smul, smul_sub, smul_smul]
  have e2 : ∀ x : V, ((2 : Module.End ℂ V)) x = (2 : ℂ) • x := by
    intro x
    rw [show (2 : Module.End ℂ V) = (1 : Module.End ℂ V) + 1 by norm_num, LinearMap.add_apply, two_smul]
    rfl
  rw [e2, smul_smul]
  have p1 : e ^ (k + 2) * 2 = 2 * e * e ^ (k + 1) := by ring
  have p2 : e ^ (k + 2) = -(sgn * e ^ k) := by rw [pow_add, pow_two, he]; ring
  rw [p1, p2, neg_smul, sub_neg_eq_add]

theorem series_eq (H : Module.End ℂ V) (offset : ℂ) (scaling : ℝ) (phase e : ℂ) (coeff : List ℂ) (m : Nat)
    (ψ : V) : series H offset scaling phase e coeff m ψ =
      ∑ k ∈ Finset.range m, (coeff.getD k 0 * phase) • term (scaled H offset scaling) e k ψ := by
  unfold series term
  apply Finset.sum_congr rfl
  intro k _
  rw [smul_smul]
  congr 1
  ring

theorem scaled_apply (H : Module.End ℂ V) (offset : ℂ) (scaling : ℝ) (x : V) :
    scaled H offset scaling x = (1 / (scaling : ℂ)) • (H x - offset • x) := by
  simp [scaled]

/-- The state of the scratch objects before round `i`. -/
structure Before (X : Module.End ℂ V) (S : Nat → V) (e : ℂ) (ψ : V) (p k0 k1 i : Nat) (σ : Store V) : Prop where
  k0 : σ k0 = term X e (i - 2) ψ
  k1 : σ k1 = term X e (i - 1) ψ
  p : σ p = S i

theorem round_before (c : Cheby V) (H : Module.End ℂ V) (hH : ∀ x, c.h x = H x) (sgn : ℂ)
    (he : c.exp * c.exp = -sgn) (p k0 k1 k2 b : Nat) (hd : Different p k0 k1 k2 b) (ψ : V) (i : Nat) (hi : 2 ≤ i)
    (σ : Store V)
    (hb : Before (scaled H c.offset c.scaling)
      (fun m => series H c.offset c.scaling c.phase c.exp c.coeff m ψ) c.exp ψ p k0 k1 i σ)
    (ci : ℂ) (hci : c.coeff[i]? = some ci) :
    Before (scaled H c.offset c.scaling)
      (fun m => series H c.offset c.scaling c.phase c.exp c.coeff m ψ) c.exp ψ p k1 k0 (i + 1)
      (c.round sgn p k0 k1 k2 b ci σ) ∧
    ∀ a, a ≠ p → a ≠ k0 → a ≠ k1 → a ≠ k2 → a ≠ b → c.round sgn p k0 k1 k2 b ci σ a = σ a := by
  obtain ⟨h1, h2, h3, h4, h5, h6, h7, h8, h9, h10⟩ := hd
  obtain ⟨j, rfl⟩ : ∃ j, i = j + 2 := ⟨i - 2, by omega⟩
  have hk0 : σ k0 = term (scaled H c.offset c.scaling) c.exp j ψ := by simpa using hb.k0
  have hk1 : σ k1 = term (scaled H c.offset c.scaling) c.exp (j + 1) ψ := by simpa using hb.k1
  have hval : (2 * c.exp) • ((1 / (c.scaling : ℂ)) • (c.h (σ k1) - c.offset • σ k1)) + sgn • σ k0 =
      term (scaled H c.offset c.scaling) c.exp (j + 2) ψ := by
    rw [term_step _ _ sgn he, hH, ← scaled_apply, hk0, hk1]
  have hr : ∀ a, c.round sgn p k0 k1 k2 b ci σ a =
      if a = p then σ p + (ci * c.phase) • term (scaled H c.offset c.scaling) c.exp (j + 2) ψ
      else if a = k0 then term (scaled H c.offset c.scaling) c.exp (j + 2) ψ
      else if a = k2 then term (scaled H c.offset c.scaling) c.exp (j + 2) ψ
      else if a = b then (2 * c.exp) • ((1 / (c.scaling : ℂ)) • (c.h (σ k1) - c.offset • σ k1))
      else σ a := by
    intro a
    rw [← hval]
    simp only [Cheby.round, put, if_true, if_neg h1, if_neg h2, if_neg h3, if_neg h4, if_neg h6, if_neg h7,
      if_neg h8, if_neg h9, if_neg h10, if_neg (Ne.symm h6)]
    by_cases e1 : a = p
    · simp [e1, h1, h3, h4]
    · by_cases e2 : a = k0
      · simp [e2, h1.symm]
      · by_cases e3 : a = k2
        · simp [e3, Ne.symm h3, Ne.symm h6]
        · by_cases e4 : a = b <;> simp [e1, e2, e3, e4]
  refine ⟨⟨?_, ?_, ?_⟩, ?_⟩
  · rw [hr k1, if_neg (Ne.symm h2), if_neg (Ne.symm h5), if_neg h8, if_neg h9, hk1]
    rfl
  · rw [hr k0, if_neg (Ne.symm h1), if_pos rfl]
    rfl
  · have hg : c.coeff.getD (j + 2) 0 = ci := by rw [List.getD_eq_getElem?_getD, hci]; rfl
    rw [hr p, if_pos rfl, hb.p, series_eq, series_eq, Finset.sum_range_succ _ (j + 2), hg]
  · intro a a1 a2 a3 a4 a5
    rw [hr a, if_neg a1, if_neg a2, if_neg a4, if_neg a5]

theorem start_before (c : Cheby V) (H : Module.End ℂ V) (hH : ∀ x, c.h x = H x)
    (p k0 k1 k2 b : Nat) (hd : Different p k0 k1 k2 b) (σ : Store V) (hlen : 2 ≤ c.coeff.length) :
    ∃ σ', c.start p k0 k1 b σ = some σ' ∧
      Before (scaled H c.offset c.scaling)
        (fun m => series H c.offset c.scaling c.phase c.exp c.coeff m (σ p)) c.exp (σ p) p k0 k1 2 σ' ∧
      ∀ a, a ≠ p → a ≠ k0 → a ≠ k1 → a ≠ b → σ' a = σ a := by
  obtain ⟨h1, h2, h3, h4, h5, h6, h7, h8, h9, h10⟩ := hd
  obtain ⟨c0, c1, l, hl⟩ : ∃ c0 c1 l, c.coeff = c0 :: c1 :: l := by
    cases hc : c.coeff with
    | nil => rw [hc] at hlen; simp at hlen
    | cons a l =>
      cases l with
      | nil => rw [hc] at hlen; simp at hlen
      | cons b l => exact ⟨a, b, l, rfl⟩
  have e : c.start p k0 k1 b σ = some (
    let σ := put σ k0 (σ p)
    let σ := put σ k1 (c.h (σ p))
    let σ := put σ k1 (σ k1 + (-1 * c.offset) • σ p)
    let σ := put σ k1 ((c.exp / c.scaling) • σ k1)
    let σ := put σ p ((c0 * c.phase) • σ p)
    let σ := put σ b ((c1 * c.phase) • σ k1)
    (put σ p (σ p + σ b))) := by
    unfold Cheby.start
    rw [hl]
    rfl
  refine ⟨_, e, ⟨?_, ?_, ?_⟩, ?_⟩
  · rw [show (2 : Nat) - 2 = 0 from rfl, term_zero]
    simp [put, Ne.symm h1, h7, h5]
  · rw [show (2 : Nat) - 1 = 1 from rfl, term_one, scaled_apply, ← hH]
    simp only [put, if_true, if_neg h1, if_neg h2, if_neg (Ne.symm h2), if_neg h9, if_neg h4]
    rw [smul_smul, mul_one_div]
    congr 1
    module
  · rw [series_eq, Finset.sum_range_succ, Finset.sum_range_succ, Finset.sum_range_zero, zero_add, hl,
      term_zero, term_one, scaled_apply, ← hH]
    simp only [put, if_true, if_neg h1, if_neg h2, if_neg (Ne.symm h2), if_neg h4, List.getD_cons_zero,
      List.getD_cons_succ]
    congr 2
    rw [smul_smul c.exp, mul_one_div]
    congr 1
    module
  · intro a a1 a2 a3 a4
    simp [put, a1, a2, a3, a4]

theorem loopReal_series (c : Cheby V) (H : Module.End ℂ V) (hH : ∀ x, c.h x = H x)
    (he : c.exp * c.exp = -1) (nrm : V → ℝ) (ref : ℝ) (ψ : V) (p k2 b : Nat) :
    ∀ n i k0 k1 σ, Different p k0 k1 k2 b → 2 ≤ i → i + n ≤ c.coeff.length →
      Before (scaled H c.offset c.scaling)
        (fun m => series H c.offset c.scaling c.phase c.exp c.coeff m ψ) c.exp ψ p k0 k1 i σ →
      ∃ σ' m, c.loopReal nrm ref p k2 b n i k0 k1 σ = some σ' ∧ i ≤ m ∧ m ≤ i + n ∧
        σ' p = series H c.offset c.scaling c.phase c.exp c.coeff m ψ ∧
        (m < i + n → c.stopReal nrm ref (σ' p)) ∧
        ∀ a, a ≠ p → a ≠ k0 → a ≠ k1 → a ≠ k2 → a ≠ b → σ' a = σ a := by
  intro n
  induction n with
  | zero =>
    intro i k0 k1 σ _ _ _ hb
    exact ⟨σ, i, rfl, Nat.le_refl _, Nat.le_refl _, hb.p, fun h => absurd h (by omega), fun a _ _ _ _ _ => rfl⟩
  | succ n ih =>
    intro i k0 k1 σ hd hi hlen hb
    have hilt : i < c.coeff.length := by omega
    have hci : c.coeff[i]? = some c.coeff[i] := List.getElem?_eq_getElem hilt
    obtain ⟨hr, hf⟩ := round_before c H hH 1 he p k0 k1 k2 b hd ψ i hi σ hb c.coeff[i] hci
    unfold Cheby.loopReal
    rw [hci]
    dsimp only
    split
    · rename_i hs
      exact ⟨_, i + 1, rfl, by omega, by omega, hr.p, fun _ => hs, hf⟩
    · obtain ⟨h1, h2, h3, h4, h5, h6, h7, h8, h9, h10⟩ := hd
      obtain ⟨σ', m, g1, g2, g3, g4, g5, g6⟩ := ih (i + 1) k1 k0 _
        ⟨h2, h1, h3, h4, Ne.symm h5, h8, h9, h6, h7, h10⟩ (by omega) (by omega) hr
      refine ⟨σ', m, g1, by omega, by omega, g4, fun h => g5 (by omega), ?_⟩
      intro a a1 a2 a3 a4 a5
      rw [g6 a a1 a3 a2 a4 a5, hf a a1 a2 a3 a4 a5]

theorem loopImag_series (c : Cheby V) (H : Module.End ℂ V) (hH : ∀ x, c.h x = H x)
    (he : c.exp * c.exp = 1) (nrm : V → ℝ) (ψ : V) (p k2 b : Nat) :
    ∀ n i last k0 k1 σ, Different p k0 k1 k2 b → 2 ≤ i → i + n ≤ c.coeff.length →
      Before (scaled H c.offset c.scaling)
        (fun m => series H c.offset c.scaling c.phase c.exp c.coeff m ψ) c.exp ψ p k0 k1 i σ →
      (last = 0 ∨ last = nrm (σ p)) →
      ∃ σ' m, c.loopImag nrm p k2 b n i last k0 k1 σ = some σ' ∧ i ≤ m ∧ m ≤ i + n ∧
        σ' p = series H c.offset c.scaling c.phase c.exp c.coeff m ψ ∧
        (m < i + n → c.stopImag nrm
          (nrm (series H c.offset c.scaling c.phase c.exp c.coeff (m - 1) ψ)) (σ' p)) ∧
        ∀ a, a ≠ p → a ≠ k0 → a ≠ k1 → a ≠ k2 → a ≠ b → σ' a = σ a := by
  intro n
  induction n with
  | zero =>
    intro i last k0 k1 σ _ _ _ hb _
    exact ⟨σ, i, rfl, Nat.le_refl _, Nat.le_refl _, hb.p, fun h => absurd h (by omega), fun a _ _ _ _ _ => rfl⟩
  | succ n ih =>
    intro i last k0 k1 σ hd hi hlen hb hlast
    have hilt : i < c.coeff.length := by omega
    have hci : c.coeff[i]? = some c.coeff[i] := List.getElem?_eq_getElem hilt
    obtain ⟨hr, hf⟩ := round_before c H hH (-1) (by rw [he]; ring) p k0 k1 k2 b hd ψ i hi σ hb c.coeff[i] hci
    unfold Cheby.loopImag
    rw [hci]
    dsimp only
    split
    · rename_i hs
      refine ⟨_, i + 1, rfl, by omega, by omega, hr.p, fun _ => ?_, hf⟩
      have hp : σ p = series H c.offset c.scaling c.phase c.exp c.coeff i ψ := hb.p
      rw [Nat.add_sub_cancel, ← hp]
      rcases hlast with h | h
      · exact absurd h hs.1
      · rw [← h]; exact hs
    · obtain ⟨h1, h2, h3, h4, h5, h6, h7, h8, h9, h10⟩ := hd
      obtain ⟨σ', m, g1, g2, g3, g4, g5, g6⟩ := ih (i + 1) _ k1 k0 _
        ⟨h2, h1, h3, h4, Ne.symm h5, h8, h9, h6, h7, h10⟩ (by omega) (by omega) hr (Or.inr rfl)
      refine ⟨σ', m, g1, by omega, by omega, g4, fun h => g5 (by omega), ?_⟩
      intro a a1 a2 a3 a4 a5
      rw [g6 a a1 a3 a2 a4 a5, hf a a1 a2 a3 a4 a5]

/-! ### C31 -/

/-- C31, real time: for every linear Hamiltonian, order, coefficients, wave function and both directions
(exponent `∓ i dt`), one step replaces the wave function by a truncation of the series with the phases
`(∓ i)^k`; it is the whole series unless the change of the norm fell below the limit.  Only the wave function
and the scratch objects change.  Missing: orders below two, see `C31_violated_order`. -/
theorem C31_real_partial (c : Cheby V) (H : Module.End ℂ V) (hH : ∀ x, c.h x = H x) (hdt : c.dt ≠ 0) (hsc : c.scaling ≠ 0) (e : ℂ)
    (hex : (e = -Complex.I ∨ e = Complex.I) ∧ c.exponent = e * c.dt) (horder : 2 ≤ c.order)
    (hlen : c.coeff.length = c.order) (nrm : V → ℝ) (k0 k1 k2 b p : Nat) (hd : Different p k0 k1 k2 b)
    (σ : Store V) :
    ∃ σ' m, c.applyIn false nrm k0 k1 k2 b p σ = some σ' ∧ 2 ≤ m ∧ m ≤ c.order ∧
      σ' p = series H c.offset c.scaling (Complex.exp (c.exponent * c.offset)) e c.coeff m (σ p) ∧
      (m < c.order → nrm (σ p) ≠ 0 ∧ |nrm (σ p) - nrm (σ' p)| / nrm (σ p) < c.prec) ∧
      ∀ a, a ≠ p → a ≠ k0 → a ≠ k1 → a ≠ k2 → a ≠ b → σ' a = σ a := by
  have hexp : c.exp = e := by
    unfold Cheby.exp
    rw [hex.2, mul_div_assoc, div_self (by exact_mod_cast hdt), mul_one]
  have he : c.exp * c.exp = -1 := by
    rw [hexp]
    rcases hex.1 with rfl | rfl <;> simp
  obtain ⟨σ1, h1, h2, h3⟩ := start_before c H hH p k0 k1 k2 b hd σ (by omega)
  obtain ⟨σ', m, g1, g2, g3, g4, g5, g6⟩ := loopReal_series c H hH he nrm (nrm (σ p)) (σ p) p k2 b
    (c.order - 2) 2 k0 k1 σ1 hd (Nat.le_refl _) (by omega) h2
  refine ⟨σ', m, ?_, g2, by omega, ?_, ?_, ?_⟩
  · simp [Cheby.applyIn, h1, g1]
  · rw [g4, hexp]; rfl
  · intro h
    have := g5 (by omega)
    exact ⟨this.1, this.2.1⟩
  · intro a a1 a2 a3 a4 a5
    rw [g6 a a1 a2 a3 a4 a5, h3 a a1 a2 a3 a5]

/-- C31, imaginary time (exponent `± dt`): as in real time, with the phases `(± 1)^k`; the series is cut where
the norm of two successive truncations agrees within the limit. -/
theorem C31_imaginary_partial (c : Cheby V) (H : Module.End ℂ V) (hH : ∀ x, c.h x = H x) (hdt : c.dt ≠ 0) (hsc : c.scaling ≠ 0) (e : ℂ)
    (hex : (e = 1 ∨ e = -1) ∧ c.exponent = e * c.dt) (horder : 2 ≤ c.order)
    (hlen : c.coeff.length = c.order) (nrm : V → ℝ) (k0 k1 k2 b p : Nat) (hd : Different p k0 k1 k2 b)
    (σ : Store V) :
    ∃ σ' m, c.applyIn true nrm k0 k1 k2 b p σ = some σ' ∧ 2 ≤ m ∧ m ≤ c.order ∧
      σ' p = series H c.offset c.scaling (Complex.exp (c.exponent * c.offset)) e c.coeff m (σ p) ∧
      (m < c.order →
        |nrm (σ' p) - nrm (series H c.offset c.scaling (Complex.exp (c.exponent * c.offset)) e c.coeff (m - 1) (σ p))| /
          nrm (series H c.offset c.scaling (Complex.exp (c.exponent * c.offset)) e c.coeff (m - 1) (σ p)) < c.prec) ∧
      ∀ a, a ≠ p → a ≠ k0 → a ≠ k1 → a ≠ k2 → a ≠ b → σ' a = σ a := by
  have hexp : c.exp = e := by
    unfold Cheby.exp
    rw [hex.2, mul_div_assoc, div_self (by exact_mod_cast hdt), mul_one]
  have he : c.exp * c.exp = 1 := by
    rw [hexp]
    rcases hex.1 with rfl | rfl <;> simp
  obtain ⟨σ1, h1, h2, h3⟩ := start_before c H hH p k0 k1 k2 b hd σ (by omega)
  obtain ⟨σ', m, g1, g2, g3, g4, g5, g6⟩ := loopImag_series c H hH he nrm (σ p) p k2 b
    (c.order - 2) 2 0 k0 k1 σ1 hd (Nat.le_refl _) (by omega) h2 (Or.inl rfl)
  refine ⟨σ', m, ?_, g2, by omega, ?_, ?_, ?_⟩
  · simp [Cheby.applyIn, h1, g1]
  · rw [g4, hexp]; rfl
  · intro h
    have := g5 (by omega)
    rw [hexp] at this
    exact this.2
  · intro a a1 a2 a3 a4 a5
    rw [g6 a a1 a2 a3 a4 a5, h3 a a1 a2 a3 a5]

/-- C31: out of place application stores the result of the in place one in the destination and leaves the
source unchanged. -/
theorem C31_out_of_place_partial (c : Cheby V) (H : Module.End ℂ V) (hH : ∀ x, c.h x = H x) (hdt : c.dt ≠ 0) (hsc : c.scaling ≠ 0) (e : ℂ)
    (hex : (e = -Complex.I ∨ e = Complex.I) ∧ c.exponent = e * c.dt) (horder : 2 ≤ c.order)
    (hlen : c.coeff.length = c.order) (nrm : V → ℝ) (k0 k1 k2 b d s : Nat) (hd : Different d k0 k1 k2 b)
    (hs : Different s k0 k1 k2 b) (hsd : s ≠ d) (σ : Store V) :
    ∃ σ' m, c.apply false nrm k0 k1 k2 b d s σ = some σ' ∧ 2 ≤ m ∧ m ≤ c.order ∧
      σ' d = series H c.offset c.scaling (Complex.exp (c.exponent * c.offset)) e c.coeff m (σ s) ∧ σ' s = σ s := by
  obtain ⟨σ', m, h1, h2, h3, h4, _, h6⟩ := C31_real_partial c H hH hdt hsc e hex horder hlen nrm k0 k1 k2 b d hd
    (put σ d (σ s))
  refine ⟨σ', m, h1, h2, h3, ?_, ?_⟩
  · rw [h4]; simp [put]
  · rw [h6 s hsd hs.1 hs.2.1 hs.2.2.1 hs.2.2.2.1]
    simp [put, hsd]

end

/-- C31: the coefficients are the first Bessel function and twice the following ones. -/
theorem C31_coefficients (order : Nat) (bessel : List ℂ) (h : order ≤ bessel.length) :
    ∃ cs, chebyCoeff order bessel = some cs ∧ cs.length = order ∧
      ∀ k, k < order → cs.getD k 0 = (if k = 0 then 1 else 2) * bessel.getD k 0 := by
  refine ⟨_, by rw [chebyCoeff, if_pos h], by simp [h], ?_⟩
  intro k hk
  have hk' : k < bessel.length := by omega
  rw [List.getD_eq_getElem?_getD, List.getD_eq_getElem?_getD, List.getElem?_mapIdx, List.getElem?_take,
    if_pos hk, List.getElem?_eq_getElem hk']
  by_cases h0 : k = 0
  · simp [h0]
  · simp [h0]

/-- The hypotheses of the theorems are met by a multiplication operator on the complex numbers and an order of
three. -/
example : ∃ (c : Cheby ℂ) (H : Module.End ℂ ℂ), (∀ x, c.h x = H x) ∧ c.dt ≠ 0 ∧ c.scaling ≠ 0 ∧
    c.exponent = -Complex.I * c.dt ∧ 2 ≤ c.order ∧ c.coeff.length = c.order ∧ Different 0 1 2 3 4 := by
  refine ⟨{ h := fun x => 5 * x, exponent := -Complex.I * (1 : ℝ), dt := 1, scaling := 2, offset := 1,
            coeff := [1, 2, 3], order := 3, prec := 0 }, (5 : ℂ) • 1, ?_, by simp, by simp, rfl, by simp, rfl,
    by simp [Different]⟩
  intro x
  simp

/-- C31, the number of terms: without a parameter at least two coefficients are kept, so that the statements in
front of the recursion read no coefficient outside of the array, and never more than were computed. -/
theorem C31_order (estimate : Nat) (bessel : Nat → ℝ) (delta : ℝ) (zeroes : Nat → Nat) :
    ∃ m, chebyOrder estimate none bessel delta zeroes = some m ∧ 2 ≤ m ∧ m ≤ max 10 estimate := by
  have key : ∀ order n i, 2 ≤ i → 2 ≤ chebyNeeded bessel delta order n i ∧
      chebyNeeded bessel delta order n i ≤ max i order := by
    intro order n
    induction n with
    | zero => intro i hi; exact ⟨hi, Nat.le_max_left _ _⟩
    | succ n ih =>
      intro i hi
      unfold chebyNeeded
      split
      · rename_i h
        have := ih (i + 1) (by omega)
        refine ⟨this.1, ?_⟩
        have h1 := h.1
        omega
      · exact ⟨hi, Nat.le_max_left _ _⟩
  unfold chebyOrder
  dsimp only [Option.getD]
  rw [if_neg (by split <;> omega)]
  refine ⟨_, rfl, (key _ _ _ (Nat.le_refl _)).1, ?_⟩
  refine Nat.le_trans (key _ _ _ (Nat.le_refl _)).2 ?_
  split <;> omega

/-- C31 is violated for a given order: when the library reports that all Bessel functions but the first one
underflow (a tiny time step), one coefficient is left and the step reads a second one. -/
theorem C31_violated_order {V : Type} [AddCommGroup V] [Module ℂ V] (estimate n : Nat) (hn : 3 ≤ n)
    (bessel : Nat → ℝ) (delta : ℝ) (c : Cheby V) (imaginary : Bool) (nrm : V → ℝ) (k0 k1 k2 b p : Nat) (σ : Store V)
    (horder : chebyOrder estimate (some n) bessel delta (fun n => n - 1) = some c.order)
    (hlen : c.coeff.length = c.order) :
    c.applyIn imaginary nrm k0 k1 k2 b p σ = none := by
  unfold chebyOrder at horder
  dsimp only [Option.getD] at horder
  rw [if_neg (by omega)] at horder
  have ho : c.order = 1 := by
    have := Option.some.inj horder
    omega
  have h1 : c.coeff[1]? = none := List.getElem?_eq_none (by omega)
  unfold Cheby.applyIn Cheby.start
  rw [h1]
  cases c.coeff[0]? <;> rfl

/-! ### C73: the energy range -/

/-- C73, real time: every energy between the bounds (real, different) is mapped into `[-1, 1]`, and the scaling
is not zero. -/
theorem C73_real (emin emax energy dt : ℝ) (hlt : emin < emax) (h1 : emin ≤ energy) (h2 : energy ≤ emax)
    (hdt : dt ≠ 0) (exponent : ℂ) (he : exponent = -Complex.I * dt ∨ exponent = Complex.I * dt) :
    let off := chebyOffset false emin emax
    let sc := chebyScaling off exponent emin emax
    0 < sc ∧ off.im = 0 ∧ -1 ≤ (energy - off.re) / sc ∧ (energy - off.re) / sc ≤ 1 := by
  intro off sc
  have hoff : off = ⟨(emax + emin) / 2, 0⟩ := by
    simp [off, chebyOffset]
  have him : |exponent.im| ≠ 0 := by
    rcases he with rfl | rfl <;> simp [hdt]
  have hs : Real.sqrt (Complex.normSq ((emax : ℂ) - emin)) = emax - emin := by
    rw [← Complex.ofReal_sub, Complex.normSq_ofReal, Real.sqrt_mul_self (by linarith)]
  have hsc : sc = (emax - emin) / 2 := by
    unfold sc chebyScaling
    rw [if_neg (by rw [hoff]; simpa using him), hs]
  have hpos : 0 < sc := by rw [hsc]; linarith
  refine ⟨hpos, by rw [hoff], ?_, ?_⟩
  · rw [le_div_iff₀ hpos, hsc, hoff]
    dsimp only
    linarith
  · rw [div_le_iff₀ hpos, hsc, hoff]
    dsimp only
    linarith

/-- C73, imaginary time: every energy between the bounds is mapped into `[0, 1]` when the lower bound is not
larger in size than the range. -/
theorem C73_imaginary_partial (emin emax energy dt : ℝ) (hlt : emin < emax) (h1 : emin ≤ energy)
    (h2 : energy ≤ emax) (hsmall : |emin| ≤ emax - emin) (exponent : ℂ)
    (he : exponent = (dt : ℂ) ∨ exponent = -(dt : ℂ)) :
    let off := chebyOffset true emin emax
    let sc := chebyScaling off exponent emin emax
    0 < sc ∧ off.im = 0 ∧ 0 ≤ (energy - off.re) / sc ∧ (energy - off.re) / sc ≤ 1 := by
  intro off sc
  have hs : ∀ x : ℝ, Real.sqrt (Complex.normSq (x : ℂ)) = |x| := by
    intro x
    rw [Complex.normSq_ofReal, Real.sqrt_mul_self_eq_abs]
  have hoff : off = ((emin - |emin| * 0.05 : ℝ) : ℂ) := by
    simp only [off, chebyOffset, Bool.not_true, Bool.false_eq_true, if_false]
    rw [hs]
    push_cast
    rfl
  have him : |exponent.im| = 0 := by
    rcases he with rfl | rfl <;> simp
  have hsc : sc = (emax - emin) * 1.05 := by
    unfold sc chebyScaling
    rw [if_pos (Or.inr him), ← Complex.ofReal_sub, hs, abs_of_pos (by linarith)]
  have hpos : 0 < sc := by rw [hsc]; norm_num; linarith
  have ha := abs_nonneg emin
  refine ⟨hpos, by rw [hoff]; simp, ?_, ?_⟩
  · rw [hoff, Complex.ofReal_re]
    apply div_nonneg _ hpos.le
    norm_num
    linarith
  · rw [div_le_iff₀ hpos, hsc, hoff, Complex.ofReal_re]
    norm_num
    linarith

/-- C73 is violated in imaginary time: with the bounds 10 and 11 the energy 11 is mapped to `1.5 / 1.05`. -/
theorem C73_violated_imaginary :
    let off := chebyOffset true (10 : ℝ) (11 : ℝ)
    let sc := chebyScaling off (1 : ℝ) (10 : ℝ) (11 : ℝ)
    1 < ((11 : ℝ) - off.re) / sc := by
  intro off sc
  have hs : ∀ x : ℝ, Real.sqrt (Complex.normSq (x : ℂ)) = |x| := by
    intro x
    rw [Complex.normSq_ofReal, Real.sqrt_mul_self_eq_abs]
  have hoff : off = ((9.5 : ℝ) : ℂ) := by
    simp only [off, chebyOffset, Bool.not_true, Bool.false_eq_true, if_false]
    rw [hs, ← Complex.ofReal_sub]
    norm_num
  have hsc : sc = 1.05 := by
    unfold sc chebyScaling
    rw [if_pos (Or.inr (by simp)), ← Complex.ofReal_sub, hs]
    norm_num
  rw [hsc, hoff, Complex.ofReal_re]
  norm_num

/-- C73 is violated when both bounds agree (a Hamiltonian that is a multiple of the identity): the scaling,
which is divided by in every step, is zero. -/
theorem C73_violated_no_range (e exponent : ℂ) (imaginary : Bool) :
    chebyScaling (chebyOffset imaginary e e) exponent e e = 0 := by
  unfold chebyScaling
  simp

example : ∃ emin emax energy : ℝ, emin < emax ∧ emin ≤ energy ∧ energy ≤ emax ∧ |emin| ≤ emax - emin :=
  ⟨-1, 3, 2, by norm_num, by norm_num, by norm_num, by norm_num⟩

/-- The hypotheses of the violation are met. -/
example : chebyOrder 10 (some 5) (fun _ => 0) 0 (fun n => n - 1) = some 1 := rfl

end QDng.Propa
