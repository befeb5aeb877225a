import Verif.Propa.NormModel
import Verif.Propa.SplitProps
import Mathlib.Tactic.LinearCombination

/-
C33: the symmetric product, with the normalization of the transformations as it is known at each call.
-/

namespace QDng.Propa

variable {V X : Type}

/-- Specification: before each step, and at the end, the energy has been computed since the propagator was made or
copied. -/
def Prepared : Bool → List (NormEvent V X) → Prop
  | u, [] => u = true
  | u, .step _ _ _ :: l => u = true ∧ Prepared true l
  | _, .energy :: l => Prepared true l
  | _, .copy _ _ :: l => Prepared false l

/-- The copies have storage for all parts. -/
def Sized (n : Nat) (l : List (NormEvent V X)) : Prop := ∀ ys e, NormEvent.copy ys e ∈ l → ys.length = n

theorem unused_self (p : Part V X) (h : ∀ t, p.transf = some t → t.norm = id) : p.unused = p := by
  obtain ⟨td, ex, tr⟩ := p
  cases tr with
  | none => rfl
  | some t =>
    obtain ⟨f, b, n⟩ := t
    have hn : n = id := h _ rfl
    subst hn
    rfl

theorem seen_self (u : Bool) (parts : List (Part V X)) (h : u = true ∨ ∀ p ∈ parts, ∀ t, p.transf = some t → t.norm = id) :
    seen u parts = parts := by
  unfold seen
  split
  · rfl
  · rename_i hu
    rcases h with h | h
    · exact absurd h hu
    · conv_rhs => rw [← List.map_id parts]
      exact List.map_congr_left fun p hp => unused_self p (h p hp)

/-- C33: after every history of time steps, exponents, applications, copies and energies, one application is the
symmetric product of the exponentials of the parts at the current time step and exponent, if no transformation has a
normalization, or if the energy has been computed before the first step and again after each copy.  Missing: other
histories (`C33_violated_norm`). -/
theorem C33_symmetric_and_fresh_partial (mul : X → V → V) (a : Part V X) (rest : List (Part V X))
    (hh : ∀ p ∈ a :: rest, HonestPart p) (xs : List X) (hxs : xs.length = (a :: rest).length) (e0 : ℂ)
    (l : List (NormEvent V X)) (hl : Sized (a :: rest).length l)
    (hp : Prepared false l ∨ ∀ p ∈ a :: rest, ∀ t, p.transf = some t → t.norm = id)
    (step : Int) (e : ℂ) (ψ : V) :
    (normApply mul (a :: rest) step e (normHistory mul (a :: rest) (Cache.fresh xs e0, false) l) ψ).2 =
      some (splitStep mul a rest step e ψ) := by
  have key : ∀ (l : List (NormEvent V X)) (c : Cache X) (u : Bool), Belongs (a :: rest) c →
      Sized (a :: rest).length l → (Prepared u l ∨ ∀ p ∈ a :: rest, ∀ t, p.transf = some t → t.norm = id) →
      (normApply mul (a :: rest) step e (normHistory mul (a :: rest) (c, u) l) ψ).2 =
        some (splitStep mul a rest step e ψ) := by
    intro l
    induction l with
    | nil =>
      intro c u hc _ hp
      unfold normApply normHistory
      simp only
      rw [seen_self u _ (hp.imp (fun h => h) id)]
      exact (splitApply_eq mul a rest hh step e c hc ψ).1
    | cons x l ih =>
      intro c u hc hl hp
      have hl' : Sized (a :: rest).length l := fun ys e' h => hl ys e' (List.mem_cons_of_mem _ h)
      cases x with
      | step s e' φ =>
        unfold normHistory
        unfold normApply
        simp only
        rw [seen_self u _ (hp.imp (fun h => h.1) id)]
        exact ih _ true (splitApply_eq mul a rest hh s e' c hc φ).2 hl' (hp.imp (fun h => h.2) id)
      | energy => exact ih _ true hc hl' (hp.imp (fun h => h) id)
      | copy ys e' =>
        exact ih _ false ⟨hl ys e' List.mem_cons_self, fun h => absurd rfl h⟩ hl' (hp.imp (fun h => h) id)
  exact key l _ false ⟨hxs, fun h => absurd rfl h⟩ hl hp

/-- A history which meets the hypotheses: energy, two steps, copy, energy, one step. -/
example : let l : List (NormEvent ℂ ℂ) := [.energy, .step 0 1 0, .step 1 1 0, .copy [0, 0] 0, .energy, .step 2 1 0]
    Prepared false l ∧ Sized 2 l := by
  refine ⟨⟨rfl, rfl, rfl, rfl⟩, ?_⟩
  intro ys e h
  simp only [List.mem_cons, List.not_mem_nil, or_false, reduceCtorEq, false_or, NormEvent.copy.injEq] at h
  rw [h.1]
  rfl

/-- Two numbers, multiplied one by one. -/
def mul2 (x ψ : ℂ × ℂ) : ℂ × ℂ := (x.1 * ψ.1, x.2 * ψ.2)

/-- The kinetic energy zero on two grid points, with the Fourier transformation of two points. -/
noncomputable def free2 : Part (ℂ × ℂ) (ℂ × ℂ) :=
  ⟨false, fun _ _ => (1, 1), some ⟨fun ψ => (ψ.1 + ψ.2, ψ.1 - ψ.2), fun ψ => (ψ.1 + ψ.2, ψ.1 - ψ.2),
    fun x => (x.1 / 2, x.2 / 2)⟩⟩

/-- The step should leave the wave function as it is. -/
theorem free2_step (step : Int) (e : ℂ) (ψ : ℂ × ℂ) : splitStep mul2 free2 [] step e ψ = ψ := by
  refine Prod.ext ?_ ?_
  · simp [splitStep, symmetric, partExp, free2, mul2]
    ring
  · simp [splitStep, symmetric, partExp, free2, mul2]
    ring

theorem step_of_ones (u : Bool) (ψ : ℂ × ℂ) :
    (splitDown mul2 (seen u [free2]) [((1 : ℂ), (1 : ℂ))] 0 ψ).bind
      (splitUp mul2 (seen u [free2]) [((1 : ℂ), (1 : ℂ))] 1 0) = some (2 * ψ.1, 2 * ψ.2) := by
  cases u <;> simp [seen, splitDown, splitUp, splitBody, free2, Part.unused, mul2] <;> constructor <;> ring

theorem norm_steps (e : ℂ) (n : Nat) : ∀ (s : Int) (c : Cache (ℂ × ℂ)) (u : Bool) (ψ : ℂ × ℂ), 0 ≤ s →
    (c.laststep = -1 ∧ u = false ∧ c.exps.length = 1 ∨ 0 ≤ c.laststep ∧ c.lastexp = e ∧ c.exps = [(1, 1)]) →
    normSteps mul2 [free2] e n s (c, u) ψ = some (2 ^ n * ψ.1, 2 ^ n * ψ.2) := by
  induction n with
  | zero =>
    intro s c u ψ _ _
    simp [normSteps]
  | succ n ih =>
    intro s c u ψ hs hc
    have hexp : (initExp (seen u [free2]) s e c).exps = [(1, 1)] := by
      rcases hc with ⟨h1, rfl, h3⟩ | ⟨h1, h2, h3⟩
      · obtain ⟨x, hx⟩ : ∃ x, c.exps = [x] := List.length_eq_one_iff.mp h3
        have ho : outdated (Part.unused free2) c s e := Or.inr (Or.inl h1)
        have hn : newExp (Part.unused free2) s e 1 = (1, 1) := rfl
        simp [initExp, seen, hx, refresh, ho, hn]
      · have ho : ∀ p : Part (ℂ × ℂ) (ℂ × ℂ), p.timeDep = false → ¬ outdated p c s e := by
          intro p hp h
          rcases h with ⟨h, -⟩ | h | h | h
          · rw [hp] at h
            exact Bool.noConfusion h
          · omega
          · exact h (by rw [h2])
          · exact h (by rw [h2])
        cases u with
        | true =>
          have h := ho free2 rfl
          simp [initExp, seen, h3, refresh, h]
        | false =>
          have h := ho free2.unused rfl
          simp [initExp, seen, h3, refresh, h]
    have hlen : (seen u [free2]).length = 1 := by
      cases u <;> rfl
    unfold normSteps normApply splitApply
    simp only [hexp, hlen]
    rw [step_of_ones u ψ, Option.bind_some, ih (s + 1) _ true _ (by omega) (Or.inr ⟨hs, rfl, hexp⟩)]
    congr 2 <;> ring

/-- C33 fails if the transformation has not been used before the first step: the exponentials are made without the
normalization and kept, so that with the kinetic energy zero, which should not change the wave function, `n` steps
multiply it by 2ⁿ. -/
theorem C33_violated_norm (e e0 : ℂ) (x : ℂ × ℂ) (n : Nat) (ψ : ℂ × ℂ) :
    normSteps mul2 [free2] e n 0 (Cache.fresh [x] e0, false) ψ = some (2 ^ n * ψ.1, 2 ^ n * ψ.2) ∧
      ∀ step φ, splitStep mul2 free2 [] step e φ = φ :=
  ⟨norm_steps e n 0 _ false ψ le_rfl (Or.inl ⟨rfl, rfl, rfl⟩), fun s φ => free2_step s e φ⟩

end QDng.Propa
