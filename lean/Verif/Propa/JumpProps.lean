import Verif.Propa.JumpModel
import Mathlib.Algebra.BigOperators.Intervals
import Mathlib.Algebra.Order.BigOperators.Group.Finset
import Mathlib.Tactic.Linarith
import Mathlib.Tactic.Ring
import Mathlib.Tactic.NormNum
import Mathlib.Data.Rat.Defs
import Mathlib.Algebra.Order.Ring.Rat

/-
Properties of the quantum jump operator: C34.
-/

namespace QDng.Propa

open QDng.Common

section

variable {V K : Type} [Field K] [LinearOrder K] [IsStrictOrderedRing K]

/-- Specification: the probability of a channel, and the sum over the channels below `i`. -/
def prob (ops : List (V → V)) (nrm : V → K) (dt : K) (φ : V) (k : Nat) : K := dt * nrm ((ops.getD k id) φ)

def below (ops : List (V → V)) (nrm : V → K) (dt : K) (φ : V) (i : Nat) : K :=
  ∑ k ∈ Finset.range i, prob ops nrm dt φ k

omit [LinearOrder K] [IsStrictOrderedRing K] in
theorem jumpSums_get (nrm : V → K) (dt : K) (φ : V) :
    ∀ (ops : List (V → V)) (last : K) (i : Nat), i < ops.length →
      (jumpSums nrm dt φ ops last)[i]? = some (last + below ops nrm dt φ (i + 1)) := by
  intro ops
  induction ops with
  | nil => intro last i h; simp at h
  | cons o l ih =>
    intro last i hi
    cases i with
    | zero => simp [jumpSums, below, prob, add_comm]
    | succ i =>
      simp only [jumpSums, List.getElem?_cons_succ]
      rw [ih _ i (by simpa using hi)]
      congr 1
      unfold below
      rw [Finset.sum_range_succ' _ (i + 1)]
      simp only [prob, List.getD_cons_succ, List.getD_cons_zero]
      ring

omit [LinearOrder K] [IsStrictOrderedRing K] in
theorem jumpSums_length (nrm : V → K) (dt : K) (φ : V) :
    ∀ (ops : List (V → V)) (last : K), (jumpSums nrm dt φ ops last).length = ops.length := by
  intro ops
  induction ops with
  | nil => intro last; rfl
  | cons o l ih => intro last; simp [jumpSums, ih]

omit [Field K] [IsStrictOrderedRing K] in
theorem jumpPick_some (rnd : K) : ∀ (cs : List K) (i j : Nat), jumpPick rnd cs i = some j →
    i ≤ j ∧ (∃ c, cs[j - i]? = some c ∧ rnd < c) ∧ ∀ k c, k < j - i → cs[k]? = some c → c ≤ rnd := by
  intro cs
  induction cs with
  | nil => intro i j h; simp [jumpPick] at h
  | cons c l ih =>
    intro i j h
    unfold jumpPick at h
    split at h
    · rename_i hc
      cases h
      refine ⟨Nat.le_refl _, ⟨c, by simp, hc⟩, ?_⟩
      intro k c' hk; omega
    · rename_i hc
      obtain ⟨h1, ⟨c', h2, h3⟩, h4⟩ := ih (i + 1) j h
      refine ⟨by omega, ⟨c', ?_, h3⟩, ?_⟩
      · rw [show j - i = (j - (i + 1)) + 1 by omega]
        simpa using h2
      · intro k c'' hk hc''
        cases k with
        | zero =>
          simp at hc''
          subst hc''
          exact le_of_not_gt hc
        | succ k => exact h4 k c'' (by omega) (by simpa using hc'')

omit [Field K] [IsStrictOrderedRing K] in
theorem jumpPick_none (rnd : K) : ∀ (cs : List K) (i : Nat), jumpPick rnd cs i = none →
    ∀ c ∈ cs, c ≤ rnd := by
  intro cs
  induction cs with
  | nil => intro i _ c h; simp at h
  | cons c l ih =>
    intro i h
    unfold jumpPick at h
    split at h
    · cases h
    · rename_i hc
      intro c' hc'
      rcases List.mem_cons.mp hc' with rfl | h'
      · exact le_of_not_gt hc
      · exact ih (i + 1) h c' h'

theorem below_mono (ops : List (V → V)) (nrm : V → K) (dt : K) (φ : V) (hp : ∀ k, 0 ≤ prob ops nrm dt φ k)
    {i j : Nat} (h : i ≤ j) : below ops nrm dt φ i ≤ below ops nrm dt φ j :=
  Finset.sum_le_sum_of_subset_of_nonneg (by simpa using h) (fun k _ _ => hp k)

/-- C34: for every non empty list of operators, random number, time step and wave function with non negative
probabilities.  With the total probability at the threshold or above, the call ends with an exception; else, with
the random number at the total or above, no jump happens; else the operator of the only channel whose interval of
cumulative probabilities contains the random number is applied to the normalised wave function, and the result is
normalised. -/
theorem C34_selection_partial (ops : List (V → V)) (hne : ops ≠ []) (nrm : V → K) (normalize : V → V)
    (dt maxPjump rnd : K) (psi : V) (hdt : 0 ≤ dt) (hnrm : ∀ x, 0 ≤ nrm x) (hrnd : 0 ≤ rnd) :
    let φ := normalize psi
    let total := below ops nrm dt φ ops.length
    let r := jumpApply ops nrm normalize dt maxPjump rnd psi
    (maxPjump ≤ total → r = .threw φ) ∧
    (total < maxPjump → total ≤ rnd → r = .ok φ) ∧
    (total < maxPjump → rnd < total → ∃ i o, ops[i]? = some o ∧
      below ops nrm dt φ i ≤ rnd ∧ rnd < below ops nrm dt φ (i + 1) ∧
      (∀ j, below ops nrm dt φ j ≤ rnd → rnd < below ops nrm dt φ (j + 1) → j = i) ∧
      r = .ok (normalize (o φ))) := by
  intro φ total r
  have hp : ∀ k, 0 ≤ prob ops nrm dt φ k := fun k => mul_nonneg hdt (hnrm _)
  have hlen : 0 < ops.length := List.length_pos_iff.mpr hne
  have hget : ∀ i, i < ops.length → (jumpSums nrm dt φ ops 0)[i]? = some (below ops nrm dt φ (i + 1)) := by
    intro i hi
    rw [jumpSums_get nrm dt φ ops 0 i hi, zero_add]
  have hlast : (jumpSums nrm dt φ ops 0).getLast? = some total := by
    rw [List.getLast?_eq_getElem?, jumpSums_length, hget _ (by omega)]
    congr 2
    omega
  have hr : r = if total ≥ maxPjump then .threw φ else
      jumpAct ops normalize φ (jumpPick rnd (jumpSums nrm dt φ ops 0) 0) := by
    show jumpApply ops nrm normalize dt maxPjump rnd psi = _
    unfold jumpApply
    change (match (jumpSums nrm dt φ ops 0).getLast? with | none => _ | some total => _) = _
    rw [hlast]
  refine ⟨?_, ?_, ?_⟩
  · intro h
    rw [hr, if_pos h]
  · intro h1 h2
    rw [hr, if_neg (not_le.mpr h1)]
    cases hpick : jumpPick rnd (jumpSums nrm dt φ ops 0) 0 with
    | none => rfl
    | some i =>
      exfalso
      obtain ⟨_, ⟨c, h3, h4⟩, _⟩ := jumpPick_some rnd _ 0 i hpick
      rw [Nat.sub_zero] at h3
      have hi : i < ops.length := by
        rw [← jumpSums_length nrm dt φ ops 0]
        exact (List.getElem?_eq_some_iff.mp h3).1
      rw [hget i hi] at h3
      cases h3
      have := below_mono ops nrm dt φ hp (show i + 1 ≤ ops.length by omega)
      exact absurd (lt_of_lt_of_le h4 this) (not_lt.mpr h2)
  · intro h1 h2
    rw [hr, if_neg (not_le.mpr h1)]
    cases hpick : jumpPick rnd (jumpSums nrm dt φ ops 0) 0 with
    | none =>
      exfalso
      have := jumpPick_none rnd _ 0 hpick total (List.mem_of_getLast? hlast)
      exact absurd h2 (not_lt.mpr this)
    | some i =>
      obtain ⟨_, ⟨c, h3, h4⟩, h5⟩ := jumpPick_some rnd _ 0 i hpick
      rw [Nat.sub_zero] at h3 h5
      have hi : i < ops.length := by
        rw [← jumpSums_length nrm dt φ ops 0]
        exact (List.getElem?_eq_some_iff.mp h3).1
      rw [hget i hi] at h3
      cases h3
      have hlow : below ops nrm dt φ i ≤ rnd := by
        cases i with
        | zero => simpa [below] using hrnd
        | succ i => exact h5 i _ (by omega) (hget i (by omega))
      refine ⟨i, ops[i], List.getElem?_eq_getElem hi, hlow, h4, ?_, ?_⟩
      · intro j hj1 hj2
        rcases Nat.lt_trichotomy j i with h | h | h
        · have := below_mono ops nrm dt φ hp (show j + 1 ≤ i by omega)
          exact absurd (lt_of_lt_of_le hj2 this) (not_lt.mpr hlow)
        · exact h
        · have := below_mono ops nrm dt φ hp (show i + 1 ≤ j by omega)
          exact absurd (lt_of_lt_of_le h4 this) (not_lt.mpr hj1)
      · unfold jumpAct
        dsimp only
        rw [List.getElem?_eq_getElem hi]

omit [IsStrictOrderedRing K] in
/-- C34 is violated for an empty list: the last element of an empty vector is read. -/
theorem C34_violated_empty (nrm : V → K) (normalize : V → V) (dt maxPjump rnd : K) (psi : V) :
    jumpApply [] nrm normalize dt maxPjump rnd psi = .ub := rfl

end

/-- A case with two channels in which the second one is selected. -/
example : jumpApply (V := ℚ) (K := ℚ) [fun x => x, fun x => 2 * x] (fun x => x * x) (fun _ => 1) (1 / 20) (1 / 2)
    (1 / 10) 1 = .ok 1 ∧ (below (V := ℚ) (K := ℚ) [fun x => x, fun x => 2 * x] (fun x => x * x) (1 / 20) 1 1 ≤ 1 / 10) ∧
    (1 / 10 : ℚ) < below (V := ℚ) (K := ℚ) [fun x => x, fun x => 2 * x] (fun x => x * x) (1 / 20) 1 2 := by
  refine ⟨by decide +kernel, ?_, ?_⟩ <;> simp [below, prob, Finset.sum_range_succ] <;> norm_num

end QDng.Propa
