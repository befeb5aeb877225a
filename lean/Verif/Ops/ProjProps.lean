import Verif.Ops.ProjModel
import Mathlib.Analysis.InnerProductSpace.Basic
import Mathlib.Analysis.InnerProductSpace.Orthonormal
import Mathlib.LinearAlgebra.Span.Basic
import Mathlib.Analysis.Complex.Basic

/-
Properties of the projection operator: C29.
-/

namespace QDng.Ops

open QDng.Common

section

variable {V : Type} [NormedAddCommGroup V] [InnerProductSpace ℂ V]

/-! ### Specification -/

/-- The states have norm one and are orthogonal to each other. -/
def OrthonormalList (S : List V) : Prop :=
  (∀ φ ∈ S, inner ℂ φ φ = 1) ∧ S.Pairwise (fun φ χ => inner ℂ φ χ = 0)

/-- `w` is the part of `v` in the space spanned by the states: it is a linear combination of the states, and
the rest of `v` is orthogonal to all of them. -/
def PartIn (S : List V) (v w : V) : Prop :=
  w ∈ Submodule.span ℂ { φ | φ ∈ S } ∧ ∀ φ ∈ S, inner ℂ φ (v - w) = 0

theorem span_orth {S : List V} {x : V} (h : ∀ φ ∈ S, inner ℂ φ x = 0) :
    ∀ y ∈ Submodule.span ℂ { φ | φ ∈ S }, inner ℂ y x = 0 := by
  intro y hy
  induction hy using Submodule.span_induction with
  | mem z hz => exact h z hz
  | zero => simp
  | add a b _ _ ha hb => rw [inner_add_left, ha, hb, add_zero]
  | smul c a _ ha => rw [inner_smul_left, ha, mul_zero]

/-- The part of a vector in the space is unique. -/
theorem part_unique {S : List V} {v w w' : V} (h : PartIn S v w) (h' : PartIn S v w') : w = w' := by
  have hd : w - w' ∈ Submodule.span ℂ { φ | φ ∈ S } := Submodule.sub_mem _ h.1 h'.1
  have ho : ∀ φ ∈ S, inner ℂ φ (w - w') = 0 := by
    intro φ hφ
    have e : w - w' = (v - w') - (v - w) := by abel
    rw [e, inner_sub_right, h.2 φ hφ, h'.2 φ hφ, sub_zero]
  have := span_orth ho _ hd
  rw [inner_self_eq_zero] at this
  exact sub_eq_zero.1 this

/-! ### The loop -/

theorem projLoop_eq (sign : ℤ) (d s : Nat) (hds : s ≠ d) (S : List V) : ∀ σ : Store V,
    projLoop (inner ℂ) sign d s S σ =
      put σ d (σ d + (S.map (fun φ => (inner ℂ φ (σ s) * (sign : ℂ)) • φ)).sum) := by
  induction S with
  | nil =>
    intro σ
    funext a
    simp only [projLoop, put, List.map_nil, List.sum_nil, add_zero]
    split
    · rename_i h; rw [h]
    · rfl
  | cons φ S ih =>
    intro σ
    rw [projLoop, ih]
    funext a
    simp only [put, if_neg hds, if_true, List.map_cons, List.sum_cons]
    split
    · rw [add_assoc]
    · rfl

theorem inner_sum (S : List V) (hS : OrthonormalList S) (v : V) (φ : V) (hφ : φ ∈ S) :
    inner ℂ φ ((S.map (fun χ => (inner ℂ χ v * ((1 : ℤ) : ℂ)) • χ)).sum) = inner ℂ φ v := by
  obtain ⟨h1, h2⟩ := hS
  have key : ∀ T : List V, (∀ χ ∈ T, inner ℂ φ χ = 0) →
      inner ℂ φ ((T.map (fun χ => (inner ℂ χ v * ((1 : ℤ) : ℂ)) • χ)).sum) = 0 := by
    intro T
    induction T with
    | nil => intro _; simp
    | cons χ T ih =>
      intro h
      rw [List.map_cons, List.sum_cons, inner_add_right, inner_smul_right, h χ (List.mem_cons_self ..),
        mul_zero, zero_add]
      exact ih (fun χ hχ => h χ (List.mem_cons_of_mem _ hχ))
  induction S with
  | nil => simp at hφ
  | cons χ S ih =>
    rw [List.pairwise_cons] at h2
    rw [List.map_cons, List.sum_cons, inner_add_right, inner_smul_right]
    rcases List.mem_cons.1 hφ with rfl | hm
    · rw [key S h2.1, add_zero, h1 φ (List.mem_cons_self ..)]
      simp
    · have h0 : inner ℂ φ χ = 0 := by
        rw [← inner_conj_symm, h2.1 φ hm, map_zero]
      rw [h0, mul_zero, zero_add]
      exact ih hm (fun x hx => h1 x (List.mem_cons_of_mem _ hx)) h2.2

theorem sum_mem_span (S : List V) (v : V) :
    (S.map (fun χ => (inner ℂ χ v * ((1 : ℤ) : ℂ)) • χ)).sum ∈ Submodule.span ℂ { φ | φ ∈ S } := by
  apply list_sum_mem
  intro x hx
  obtain ⟨χ, hχ, rfl⟩ := List.mem_map.1 hx
  exact Submodule.smul_mem _ _ (Submodule.subset_span hχ)

theorem sum_part (S : List V) (hS : OrthonormalList S) (v : V) :
    PartIn S v ((S.map (fun χ => (inner ℂ χ v * ((1 : ℤ) : ℂ)) • χ)).sum) := by
  refine ⟨sum_mem_span S v, ?_⟩
  intro φ hφ
  rw [inner_sub_right, inner_sum S hS v φ hφ, sub_self]

/-- What the complement does, for both signs. -/
theorem apply_inv (P : Proj V) (hi : P.inv = true) (hb : P.hasBuf = true) (buf : Nat) (junk : V)
    (d s : Nat) (hds : s ≠ d) (hbd : buf ≠ d) (σ : Store V) :
    ∃ σ', P.apply (inner ℂ) buf junk d s σ = .ok σ' ∧
      σ' d = σ s - (P.states.map (fun φ => (inner ℂ φ (σ s) * (P.sign : ℂ)) • φ)).sum ∧
      ∀ a, a ≠ d → a ≠ buf → σ' a = σ a := by
  have e := projLoop_eq (V := V) P.sign d s hds P.states (put σ d 0)
  have ap : P.apply (inner ℂ) buf junk d s σ = .ok (put (put (put (put
      (projLoop (inner ℂ) P.sign d s P.states (put σ d 0)) buf
        (projLoop (inner ℂ) P.sign d s P.states (put σ d 0) s)) buf
        (projLoop (inner ℂ) P.sign d s P.states (put σ d 0) s -
          projLoop (inner ℂ) P.sign d s P.states (put σ d 0) d)) d
        (projLoop (inner ℂ) P.sign d s P.states (put σ d 0) s -
          projLoop (inner ℂ) P.sign d s P.states (put σ d 0) d)) buf junk) := by
    unfold Proj.apply
    rw [hi, hb]
    simp only [if_true, put, if_neg (Ne.symm hbd)]
  refine ⟨_, ap, ?_, ?_⟩
  · rw [e]
    simp [put, hds, Ne.symm hbd]
  · intro a ha hab
    rw [e]
    simp [put, ha, hab]

/-! ### C29 -/

/-- C29: for orthonormal states and the default sign, applying the projection operator gives the part of the
wave function in the space spanned by the states, out of place and in place; nothing but the destination (and
the scratch object) changes. -/
theorem C29_projection (P : Proj V) (hs : P.sign = 1) (hi : P.inv = false) (hS : OrthonormalList P.states)
    (buf : Nat) (junk : V) (d s : Nat) (hds : s ≠ d) (σ : Store V) :
    (∃ σ', P.apply (inner ℂ) buf junk d s σ = .ok σ' ∧ PartIn P.states (σ s) (σ' d) ∧
      ∀ a, a ≠ d → σ' a = σ a) ∧
    (P.hasBuf = true → buf ≠ d → ∃ σ', P.applyIn (inner ℂ) buf junk d σ = .ok σ' ∧
      PartIn P.states (σ d) (σ' d) ∧ ∀ a, a ≠ d → a ≠ buf → σ' a = σ a) := by
  have out : ∀ d s : Nat, s ≠ d → ∀ σ : Store V,
      P.apply (inner ℂ) buf junk d s σ =
        .ok (put (put σ d 0) d (0 + (P.states.map (fun φ => (inner ℂ φ (σ s) * ((1 : ℤ) : ℂ)) • φ)).sum)) := by
    intro d s hds σ
    unfold Proj.apply
    rw [hi, hs]
    dsimp only
    rw [projLoop_eq 1 d s hds]
    simp [put, hds]
  constructor
  · refine ⟨_, out d s hds σ, ?_, ?_⟩
    · simp only [put, if_true, zero_add]
      exact sum_part P.states hS (σ s)
    · intro a ha
      simp [put, ha]
  · intro hb hbd
    refine ⟨put (put (put (put σ buf (σ d)) d 0) d
      (0 + (P.states.map (fun φ => (inner ℂ φ (put σ buf (σ d) buf) * ((1 : ℤ) : ℂ)) • φ)).sum)) buf junk, ?_, ?_, ?_⟩
    · unfold Proj.applyIn
      rw [if_pos hb, out d buf hbd]
      rfl
    · simp only [put, if_true, zero_add, if_neg (Ne.symm hbd)]
      exact sum_part P.states hS (σ d)
    · intro a ha hab
      simp [put, ha, hab]

/-- C29: with `inv`, orthonormal states and the default sign, applying the operator gives the wave function
without its part in the space spanned by the states; out of place and in place. -/
theorem C29_complement (P : Proj V) (hs : P.sign = 1) (hi : P.inv = true) (hb : P.hasBuf = true)
    (hS : OrthonormalList P.states) (buf : Nat) (junk : V) (d s : Nat) (hds : s ≠ d) (hbd : buf ≠ d)
    (σ : Store V) :
    (∃ σ', P.apply (inner ℂ) buf junk d s σ = .ok σ' ∧ PartIn P.states (σ s) (σ s - σ' d) ∧
      ∀ a, a ≠ d → a ≠ buf → σ' a = σ a) ∧
    (∃ σ', P.applyIn (inner ℂ) buf junk d σ = .ok σ' ∧ PartIn P.states (σ d) (σ d - σ' d) ∧
      ∀ a, a ≠ d → a ≠ buf → σ' a = σ a) := by
  have out : ∀ d s : Nat, s ≠ d → buf ≠ d → ∀ σ : Store V, ∃ σ',
      P.apply (inner ℂ) buf junk d s σ = .ok σ' ∧
      σ' d = σ s - (P.states.map (fun φ => (inner ℂ φ (σ s) * ((1 : ℤ) : ℂ)) • φ)).sum ∧
      ∀ a, a ≠ d → a ≠ buf → σ' a = σ a := by
    intro d s hds hbd σ
    have := apply_inv P hi hb buf junk d s hds hbd σ
    rwa [hs] at this
  constructor
  · obtain ⟨σ', h1, h2, h3⟩ := out d s hds hbd σ
    refine ⟨σ', h1, ?_, h3⟩
    rw [h2, sub_sub_cancel]
    exact sum_part P.states hS (σ s)
  · obtain ⟨σ', h1, h2, h3⟩ := out d buf hbd hbd (put σ buf (σ d))
    refine ⟨put σ' buf junk, ?_, ?_, ?_⟩
    · unfold Proj.applyIn
      rw [if_pos hb, h1]
      rfl
    · have e : (put σ' buf junk) d = σ' d := by simp [put, Ne.symm hbd]
      have e2 : (put σ buf (σ d)) buf = σ d := by simp [put]
      rw [e, h2, e2, sub_sub_cancel]
      exact sum_part P.states hS (σ d)
    · intro a ha hab
      rw [show (put σ' buf junk) a = σ' a by simp [put, hab], h3 a ha hab]
      simp [put, hab]

/-- C29: projecting twice is projecting once, and the projection of a linear combination is the linear
combination of the projections. -/
theorem C29_idempotent_linear (P : Proj V) (hs : P.sign = 1) (hi : P.inv = false)
    (hS : OrthonormalList P.states) (buf : Nat) (junk : V) (d s : Nat) (hds : s ≠ d) (v w : V) (a b : ℂ)
    (σ : Store V) :
    (∃ σ1 σ2, P.apply (inner ℂ) buf junk d s (put σ s v) = .ok σ1 ∧
      P.apply (inner ℂ) buf junk d s (put σ s (σ1 d)) = .ok σ2 ∧ σ2 d = σ1 d) ∧
    (∃ σ1 σ2 σ3, P.apply (inner ℂ) buf junk d s (put σ s v) = .ok σ1 ∧
      P.apply (inner ℂ) buf junk d s (put σ s w) = .ok σ2 ∧
      P.apply (inner ℂ) buf junk d s (put σ s (a • v + b • w)) = .ok σ3 ∧
      σ3 d = a • σ1 d + b • σ2 d) := by
  have ps : ∀ x : V, (put σ s x) s = x := fun x => by simp [put]
  have pr : ∀ x : V, ∃ σ', P.apply (inner ℂ) buf junk d s (put σ s x) = .ok σ' ∧
      PartIn P.states x (σ' d) := by
    intro x
    obtain ⟨σ', h1, h2, _⟩ := (C29_projection P hs hi hS buf junk d s hds (put σ s x)).1
    rw [ps] at h2
    exact ⟨σ', h1, h2⟩
  constructor
  · obtain ⟨σ1, h1, h2⟩ := pr v
    obtain ⟨σ2, h3, h4⟩ := pr (σ1 d)
    refine ⟨σ1, σ2, h1, h3, ?_⟩
    refine part_unique h4 ⟨h2.1, ?_⟩
    intro φ _
    rw [sub_self, inner_zero_right]
  · obtain ⟨σ1, h1, h2⟩ := pr v
    obtain ⟨σ2, h3, h4⟩ := pr w
    obtain ⟨σ3, h5, h6⟩ := pr (a • v + b • w)
    refine ⟨σ1, σ2, σ3, h1, h3, h5, ?_⟩
    refine part_unique h6 ⟨Submodule.add_mem _ (Submodule.smul_mem _ _ h2.1) (Submodule.smul_mem _ _ h4.1), ?_⟩
    intro φ hφ
    have e : a • v + b • w - (a • σ1 d + b • σ2 d) = a • (v - σ1 d) + b • (w - σ2 d) := by
      rw [smul_sub, smul_sub]; abel
    rw [e, inner_add_right, inner_smul_right, inner_smul_right, h2.2 φ hφ, h4.2 φ hφ]
    simp

/-- C29: the projection and the complement of the same states sum to the input and are orthogonal to each
other. -/
theorem C29_sum_orthogonal (P Q : Proj V) (hP : P.sign = 1 ∧ P.inv = false)
    (hQ : Q.sign = 1 ∧ Q.inv = true ∧ Q.hasBuf = true) (hPQ : Q.states = P.states)
    (hS : OrthonormalList P.states) (buf : Nat) (junk : V) (d s : Nat) (hds : s ≠ d) (hbd : buf ≠ d)
    (σ : Store V) :
    ∃ σ1 σ2, P.apply (inner ℂ) buf junk d s σ = .ok σ1 ∧ Q.apply (inner ℂ) buf junk d s σ = .ok σ2 ∧
      σ1 d + σ2 d = σ s ∧ inner ℂ (σ1 d) (σ2 d) = 0 := by
  obtain ⟨σ1, h1, h2, _⟩ := (C29_projection P hP.1 hP.2 hS buf junk d s hds σ).1
  obtain ⟨σ2, h3, h4, _⟩ := (C29_complement Q hQ.1 hQ.2.1 hQ.2.2 (hPQ ▸ hS) buf junk d s hds hbd σ).1
  rw [hPQ] at h4
  have e := part_unique h2 h4
  refine ⟨σ1, σ2, h1, h3, by rw [e]; abel, ?_⟩
  have e2 : σ2 d = σ s - σ1 d := by rw [e]; abel
  rw [e2]
  exact span_orth h2.2 _ h2.1

omit [NormedAddCommGroup V] [InnerProductSpace ℂ V] in
/-- C29: created with default parameters and the first states of a sequence of files, the operator meets the
hypotheses on sign, complement, states and scratch object. -/
theorem C29_setup (inv : Bool) (S : List V) (num : Nat) (h : num ≤ S.length) :
    ∃ P, ((Proj.new V).initParams true inv).initWF (some S) num = .ok P ∧ P.sign = 1 ∧ P.inv = inv ∧
      P.states = S.take num ∧ P.hasBuf = true := by
  refine ⟨{ sign := 1, inv := inv, states := S.take num, hasBuf := true }, ?_, rfl, rfl, rfl, rfl⟩
  simp [Proj.initParams, Proj.new, Proj.initWF]
  omega

omit [NormedAddCommGroup V] [InnerProductSpace ℂ V] in
/-- C29: too few files are reported. -/
theorem C29_missing_files (inv pos : Bool) (S : List V) (num : Nat) (h : S.length < num) :
    ∃ P, ((Proj.new V).initParams pos inv).initWF (some S) num = .threw P := by
  refine ⟨{ sign := if pos then 1 else -1, inv := inv, states := S.take num, hasBuf := true }, ?_⟩
  simp [Proj.initParams, Proj.new, Proj.initWF]
  omega

/-- C29 is violated for `inv` with negative sign: the operator adds the part in the space instead of removing
it. -/
theorem C29_violated_negative_inverse (S : List V) (buf : Nat) (junk : V) (d s : Nat) (hds : s ≠ d)
    (hbd : buf ≠ d) (σ : Store V) (hS : OrthonormalList S) :
    ∃ P, ((Proj.new V).initParams false true).initWF (some S) S.length = .ok P ∧
      ∃ σ', P.apply (inner ℂ) buf junk d s σ = .ok σ' ∧ PartIn S (σ s) (σ' d - σ s) := by
  refine ⟨{ sign := -1, inv := true, states := S, hasBuf := true }, ?_, ?_⟩
  · simp [Proj.initParams, Proj.new, Proj.initWF]
  · obtain ⟨σ', h1, h2, _⟩ := apply_inv ({ sign := -1, inv := true, states := S, hasBuf := true } : Proj V)
      rfl rfl buf junk d s hds hbd σ
    refine ⟨σ', h1, ?_⟩
    have hneg : ∀ T : List V, (T.map (fun φ => (inner ℂ φ (σ s) * ((-1 : ℤ) : ℂ)) • φ)).sum =
        -(T.map (fun φ => (inner ℂ φ (σ s) * ((1 : ℤ) : ℂ)) • φ)).sum := by
      intro T
      induction T with
      | nil => simp
      | cons x T ih => rw [List.map_cons, List.map_cons, List.sum_cons, List.sum_cons, ih]; simp [add_comm]
    have hp := sum_part S hS (σ s)
    dsimp only at h2
    rw [hneg S, sub_neg_eq_add] at h2
    rw [h2, add_sub_cancel_left]
    exact hp

/-- C29 is violated for copies: a copy has no states, whatever the original and the target had; it maps every
wave function to zero (or, with `inv`, dereferences a null pointer or acts as the identity). -/
theorem C29_violated_copy (P Q : Proj V) :
    ∃ R, Q.copyFrom P = some R ∧ R.states = [] ∧
      (P.inv = false → ∀ (buf : Nat) (junk : V) (d s : Nat) (σ : Store V), s ≠ d →
        ∃ σ', R.apply (inner ℂ) buf junk d s σ = .ok σ' ∧ σ' d = 0) := by
  by_cases h : Q.states.length > 0
  · refine ⟨{ sign := P.sign, inv := P.inv, states := [], hasBuf := false }, ?_, rfl, ?_⟩
    · simp only [Proj.copyFrom, if_pos h]; rfl
    · intro hi buf junk d s σ _
      refine ⟨put σ d 0, ?_, by simp [put]⟩
      simp [Proj.apply, hi, projLoop]
  · have h0 : Q.states = [] := by
      cases hq : Q.states with
      | nil => rfl
      | cons a l => rw [hq] at h; simp at h
    refine ⟨{ sign := P.sign, inv := P.inv, states := [], hasBuf := Q.hasBuf }, ?_, rfl, ?_⟩
    · obtain ⟨sg, iv, st, hb⟩ := Q
      dsimp only at h0
      subst h0
      rfl
    · intro hi buf junk d s σ _
      refine ⟨put σ d 0, ?_, by simp [put]⟩
      simp [Proj.apply, hi, projLoop]

/-- C29 is violated if states are added before `Init(Psi)`: the scratch object is never created, so the in
place variant and the complement dereference a null pointer. -/
theorem C29_violated_add_first (v : V) (pos inv : Bool) (files : Option (List V)) (num : Nat) :
    ∃ P, (((Proj.new V).initParams pos inv).addState v).initWF files num = .ok P ∧
      ∀ (buf : Nat) (junk : V) (p : Nat) (σ : Store V), P.applyIn (inner ℂ) buf junk p σ = .ub := by
  refine ⟨((Proj.new V).initParams pos inv).addState v, ?_, ?_⟩
  · simp [Proj.initWF, Proj.addState]
  · intro buf junk p σ
    simp [Proj.applyIn, Proj.addState, Proj.initParams, Proj.new]

end

/-- The hypotheses are met by the projection onto a state in the space of complex numbers. -/
example : OrthonormalList ([1] : List ℂ) ∧ ([1] : List ℂ) ≠ [] := by
  refine ⟨⟨?_, by simp⟩, by simp⟩
  intro φ hφ
  simp at hφ
  subst hφ
  simp

end QDng.Ops
