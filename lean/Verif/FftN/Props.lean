import Verif.FftN.Lemmas
import Mathlib.Tactic.IntervalCases

/- The properties of the transforms on arrays. -/

namespace QDng.FftN

open QDng.Deriv Spec
open QDng.Lossy (Lib Flag searched)

/-! ### C293 -/

/-- **C293.**  If the library does what it documents, the forward and the backward transform of a wave
function on a grid of any number of dimensions are the discrete Fourier transforms over the grid
points, in the order in which wave functions are stored. -/
theorem C293_transform (dims : List Nat) (inp out : Nat → ℂ) (q : List Nat) (hq : IsPoint dims q) :
    (ForwardAll dims inp out → out (place dims q) =
      ((points dims).map fun x => inp (place dims x) * wave (-1) dims q x).sum) ∧
    (BackwardAll dims inp out → out (place dims q) =
      ((points dims).map fun x => inp (place dims x) * wave 1 dims q x).sum) :=
  ⟨fun h => planDft_place h hq, fun h => planDft_place h hq⟩

/-- **C293.**  The places of the grid points are the elements of the array, each once: all of the
result is set and nothing is read or written outside. -/
theorem C293_places (dims : List Nat) :
    (∀ p, IsPoint dims p → place dims p < dims.prod) ∧
    (∀ p q, IsPoint dims p → IsPoint dims q → place dims p = place dims q → p = q) ∧
    (∀ m < dims.prod, ∃ p, IsPoint dims p ∧ place dims p = m) := by
  refine ⟨fun p hp => place_lt ((isIdx_iff _ _).2 hp),
    fun p q hp hq h => place_inj ((isIdx_iff _ _).2 hp) ((isIdx_iff _ _).2 hq) h, fun m hm => ?_⟩
  obtain ⟨p, hp, he⟩ := place_surj dims m hm
  exact ⟨p, (isIdx_iff _ _).1 hp, he⟩

/-- For each input there is a result as the library documents it. -/
theorem planDft_exists (sgn : ℝ) (dims : List Nat) (inp : Nat → ℂ) :
    ∃ out, PlanDft sgn (rdims dims) inp out := by
  classical
  rw [rdims_eq]
  refine ⟨fun m => if h : ∃ q, IsIdx dims.reverse q ∧ rowPlace dims.reverse q = m then
    sumIdx dims.reverse (fun x => inp (rowPlace dims.reverse x) * kernel sgn dims.reverse h.choose x)
    else 0, ?_⟩
  intro q hq
  have hex : ∃ q', IsIdx dims.reverse q' ∧ rowPlace dims.reverse q' = rowPlace dims.reverse q :=
    ⟨q, hq, rfl⟩
  show (if h : _ then _ else _) = _
  rw [dif_pos hex]
  obtain ⟨h1, h2⟩ := hex.choose_spec
  have key : ∀ {a : List Nat}, IsIdx dims.reverse a → IsIdx dims a.reverse := by
    intro a ha
    have := isIdx_reverse ha
    rwa [List.reverse_reverse] at this
  have hpl : ∀ {a : List Nat}, IsIdx dims.reverse a → rowPlace dims.reverse a = place dims a.reverse := by
    intro a ha
    rw [← rowPlace_reverse ((isIdx_iff _ _).1 (key ha)).1, List.reverse_reverse]
  have h3 : hex.choose = q := by
    have := place_inj (key h1) (key hq) (by rw [← hpl h1, ← hpl hq, h2])
    exact List.reverse_injective this
  rw [h3]

example : ∃ out, ForwardAll [2, 3, 4] (fun m => (m : ℂ)) out ∧
    out (place [2, 3, 4] [1, 2, 3]) =
      ((points [2, 3, 4]).map fun x =>
        ((place [2, 3, 4] x : Nat) : ℂ) * wave (-1) [2, 3, 4] [1, 2, 3] x).sum := by
  obtain ⟨out, h⟩ := planDft_exists (-1) [2, 3, 4] (fun m => (m : ℂ))
  refine ⟨out, h, (C293_transform [2, 3, 4] _ _ [1, 2, 3] ⟨rfl, ?_⟩).1 h⟩
  intro i h h'
  simp only [List.length_cons, List.length_nil] at h
  interval_cases i <;> simp

/-! ### C294 -/

/-- **C294.**  If the library does what it documents, the transforms along a dimension are the discrete
Fourier transforms over the index of this dimension, for each value of the other indices. -/
theorem C294_transform (dims : List Nat) (dim : Nat) (hd : dim < dims.length) (inp out : Nat → ℂ)
    (p : List Nat) (hp : IsPoint dims p) :
    (ForwardDim dims dim inp out → out (place dims p) = ∑ j ∈ Finset.range (dims.getD dim 0),
      inp (place dims (p.set dim j)) * wave1 (-1) (dims.getD dim 0) (p.getD dim 0) j) ∧
    (BackwardDim dims dim inp out → out (place dims p) = ∑ j ∈ Finset.range (dims.getD dim 0),
      inp (place dims (p.set dim j)) * wave1 1 (dims.getD dim 0) (p.getD dim 0) j) :=
  ⟨fun h => planGuru_place hd h hp, fun h => planGuru_place hd h hp⟩

/-- A peak at the first point of a grid of two times three points and its transform along the second
dimension meet the hypothesis. -/
example : ForwardDim [2, 3] 1 (fun m => if m = 0 then 1 else 0) (fun m => if m % 2 = 0 then 1 else 0) := by
  have hd : dataDim [2, 3] 1 = { n := 3, is := 2, os := 2 } := by decide
  have hl : loopDims [2, 3] 1 = [{ n := 2, is := 1, os := 1 }] := by decide
  unfold ForwardDim
  rw [hd, hl]
  intro k _ l h2
  cases h2 with
  | @cons a _ l _ ha h2 =>
    cases h2
    show (if (k * 2 + (a * 1 + 0)) % 2 = 0 then (1 : ℂ) else 0) = ∑ j ∈ Finset.range 3,
      (if j * 2 + (a * 1 + 0) = 0 then (1 : ℂ) else 0) * root (-1) 3 k j
    have ha' : a < 2 := ha
    rw [Finset.sum_range_succ, Finset.sum_range_succ, Finset.sum_range_one]
    have hr : root (-1) 3 k 0 = 1 := by simp [root]
    rw [hr]
    interval_cases a
    · simp
    · have : (k * 2 + (1 * 1 + 0)) % 2 = 1 := by omega
      simp [this]

/-! ### C295 -/

/-- Asking the library for plans overwrites nothing. -/
def Safe {s : Space} (lib : Lib s) : Prop :=
  lib.flag = .estimate ∨ (lib.knowsForward = true ∧ lib.knowsBackward = true)

/-- **C295** (for a wave function whose transform was created in the coordinate representation, or
with a plan for the dimension, with wisdom or without search).  The first transform along a dimension
gives the transform of the wave function, and the transform back of it the wave function times the
number of points, whatever the search for a plan leaves in the arrays. -/
theorem C295_partial {s : Space} (lib : Lib s) (i : Fin s.d) (o : TObj s) (hk : o.isK = false)
    (hs : o.madeK = false ∨ o.plans i = true ∨ Safe lib) :
    (o.forward lib i).val = forwardDim s i o.val ∧ (o.forward lib i).isK = true ∧
    (o.forward lib i).plans i = true ∧
    ∀ lib', ((o.forward lib i).backward lib' i).val = backwardDim s i (forwardDim s i o.val) := by
  obtain ⟨x, k, isK, madeK, plans⟩ := o
  simp only at hk hs
  subst hk
  have h1 : (TObj.forward lib i ⟨x, k, false, madeK, plans⟩).k = forwardDim s i x ∧
      (TObj.forward lib i ⟨x, k, false, madeK, plans⟩).plans i = true := by
    unfold TObj.forward
    cases hp : plans i with
    | true => simp [hp]
    | false =>
      unfold TObj.createPlan
      rcases hs with hs | hs | hs
      · subst hs
        simp [hp]
      · rw [hp] at hs
        cases hs
      · cases madeK
        · simp [hp]
        · rcases hs with hs | ⟨h1, h2⟩
          · simp [searched, hs, hp]
          · simp [searched, h1, h2, hp]
  have h2 : (TObj.forward lib i ⟨x, k, false, madeK, plans⟩).isK = true := rfl
  refine ⟨?_, h2, h1.2, ?_⟩
  · unfold TObj.val
    rw [h2, if_pos rfl, h1.1]
    rfl
  · intro lib'
    generalize TObj.forward lib i ⟨x, k, false, madeK, plans⟩ = o' at h1 h2
    unfold TObj.backward TObj.val
    simp only [h1.2, if_true, h1.1, Bool.false_eq_true, if_false]

/-- A wave function which is new to the transforms meets the hypotheses with any library. -/
example {s : Space} (lib : Lib s) (i : Fin s.d) (ψ junk : s.Wf) :
    ((TObj.fresh ψ junk).forward lib i).val = forwardDim s i ψ :=
  (C295_partial lib i (TObj.fresh ψ junk) rfl (Or.inl rfl)).1

/-- **C295 is violated**: after a wave function was read from a compressed file, its transform refers
to the other vector.  The first transform along a dimension for which a plan is searched saves the
wrong vector: the result does not depend on the wave function at all. -/
theorem C295_violated {s : Space} (lib : Lib s) (hf : lib.flag ≠ .estimate)
    (hk : lib.knowsForward = false ∨ lib.knowsBackward = false) (i : Fin s.d) (ψ ψ' k k' : s.Wf) :
    ((TObj.afterRestore ψ k).forward lib i).val = ((TObj.afterRestore ψ' k').forward lib i).val ∧
    ((TObj.afterRestore ψ k).forward lib i).x = ((TObj.afterRestore ψ' k').forward lib i).x := by
  unfold TObj.forward TObj.afterRestore TObj.createPlan TObj.val
  rcases hk with hk | hk
  · simp [searched, hk, hf]
  · simp [searched, hk, hf]

/-- Two wave functions on a grid that become the same. -/
example (s : Space) (i : Fin s.d) (ψ : s.Wf) :
    let lib : Lib s := { flag := .patient, knowsForward := false, knowsBackward := false,
                         junkForward := 0, junkBackward := 0 }
    ((TObj.afterRestore ψ 0).forward lib i).val = ((TObj.afterRestore (ψ + 1) 0).forward lib i).val :=
  (C295_violated _ (fun h => by cases h) (Or.inl rfl) i ψ (ψ + 1) 0 0).1

end QDng.FftN
