import Verif.NacIn.Model

/-!
Properties of the set-up of the non adiabatic coupling.
-/

namespace QDng.NacIn

open QDng.Common

variable {R G : Type}

/-- Spec: the number of dimensions that the parameters ask for. -/
def askedDims (p : Pars R) : Int := p.dims.getD 1

/-- Spec: the name of the file for dimension `i`: the given name with the number of the dimension; in one dimension with a
mass the name alone. -/
def askedFile (p : Pars R) (f : String) (i : Nat) : String :=
  match p.mass with
  | some _ => if askedDims p = 1 then f else f ++ toString i
  | none => f ++ toString i

theorem fileOf_eq (p : Pars R) (f : String) (d i : Nat) (h : askedDims p = d) : fileOf p d f i = askedFile p f i := by
  unfold fileOf askedFile
  rw [h]
  cases p.mass with
  | none => simp
  | some m =>
    by_cases hd : d = 1
    · simp [hd]
    · have : ¬ (d : Int) = 1 := by omega
      simp [hd, this]

theorem load_ok (rd : String → Option G) (p : Pars R) (f : String) : ∀ (k i : Nat) (s : Nac R G),
    (∀ j, i ≤ j → j < i + k → (rd (fileOf p s.dim f j)).isSome) →
    ∃ s', load rd p f k i s = .ok s' ∧ s'.dim = s.dim ∧ s'.sign = s.sign ∧ s'.mass = s.mass ∧ s'.buf = s.buf
      ∧ (∀ j, i ≤ j → j < i + k → ∃ g, rd (fileOf p s.dim f j) = some g ∧ s'.pot j = some (fileOf p s.dim f j, g)
          ∧ s'.nabla j = some j)
      ∧ (∀ j, ¬ (i ≤ j ∧ j < i + k) → s'.pot j = s.pot j ∧ s'.nabla j = s.nabla j) := by
  intro k
  induction k with
  | zero =>
    intro i s _
    exact ⟨s, rfl, rfl, rfl, rfl, rfl, fun j h1 h2 => by omega, fun _ _ => ⟨rfl, rfl⟩⟩
  | succ k ih =>
    intro i s h
    obtain ⟨g, hg⟩ := Option.isSome_iff_exists.1 (h i (Nat.le_refl _) (by omega))
    unfold load
    rw [hg]
    obtain ⟨s', e, h1, h2, h3, h4, h5, h6⟩ := ih (i + 1)
      (Nac.mk s.dim (fun j => if j = i then some (fileOf p s.dim f i, g) else s.pot j)
        (fun j => if j = i then some i else s.nabla j) s.sign s.mass s.buf)
      (fun j hj1 hj2 => h j (by omega) (by omega))
    refine ⟨s', e, h1, h2, h3, h4, ?_, ?_⟩
    · intro j hj1 hj2
      by_cases hj : j = i
      · subst hj
        obtain ⟨e1, e2⟩ := h6 j (by omega)
        refine ⟨g, hg, ?_, ?_⟩
        · rw [e1]; simp
        · rw [e2]; simp
      · exact h5 j (by omega) (by omega)
    · intro j hj
      obtain ⟨e1, e2⟩ := h6 j (by omega)
      have hji : j ≠ i := by omega
      rw [e1, e2]
      simp [hji]

theorem load_bad (rd : String → Option G) (p : Pars R) (f : String) : ∀ (k i : Nat) (s : Nac R G) (j : Nat),
    i ≤ j → j < i + k → rd (fileOf p s.dim f j) = none → ∃ s', load rd p f k i s = .threw s' := by
  intro k
  induction k with
  | zero => intro i s j h1 h2 _; omega
  | succ k ih =>
    intro i s j h1 h2 h3
    unfold load
    cases hg : rd (fileOf p s.dim f i) with
    | none => exact ⟨s, rfl⟩
    | some g =>
      have hji : j ≠ i := by
        intro h
        rw [h, hg] at h3
        cases h3
      exact ih (i + 1) _ j (by omega) (by omega) h3

theorem initPars_eq (rd : String → Option G) (p : Pars R) (s : Nac R G) (h1 : 1 ≤ askedDims p) (h4 : askedDims p ≤ 4) :
    initPars rd p s = initRest rd p (Nac.mk (askedDims p).toNat s.pot s.nabla s.sign s.mass s.buf) := by
  unfold initPars setDim askedDims at *
  cases hd : p.dims with
  | none => simp
  | some d =>
    rw [hd] at h1 h4
    simp only [Option.getD_some] at h1 h4 ⊢
    rw [if_neg (by omega), if_neg (by omega)]

theorem initPars_fine (rd : String → Option G) (p : Pars R) (s : Nac R G) (f : String) (hf : p.file = some f)
    (h1 : 1 ≤ askedDims p) (h4 : askedDims p ≤ 4)
    (hr : ∀ i : Nat, (i : Int) < askedDims p → (rd (askedFile p f i)).isSome) :
    ∃ s', initPars rd p s = .ok s' ∧ (s'.dim : Int) = askedDims p
      ∧ (∀ i : Nat, (i : Int) < askedDims p → ∃ g, rd (askedFile p f i) = some g
          ∧ s'.pot i = some (askedFile p f i, g) ∧ s'.nabla i = some i)
      ∧ s'.sign = p.sign.getD s.sign
      ∧ s'.mass = (if askedDims p = 1 then p.mass.getD s.mass else s.mass)
      ∧ s'.buf = s.buf := by
  have hc : askedDims p = ((askedDims p).toNat : Int) := by omega
  obtain ⟨s', e, q1, q2, q3, q4, q5, _⟩ := load_ok rd p f (askedDims p).toNat 0
    (Nac.mk (askedDims p).toNat s.pot s.nabla s.sign s.mass s.buf) (fun j _ hj => by
      show (rd (fileOf p (askedDims p).toNat f j)).isSome
      rw [fileOf_eq p f _ j hc]
      exact hr j (by omega))
  refine ⟨numbers p s', ?_, ?_, ?_, ?_, ?_, q4⟩
  · rw [initPars_eq rd p s h1 h4]
    unfold initRest
    rw [hf]
    simp only [e]
  · show (s'.dim : Int) = _
    rw [q1]
    exact hc.symm
  · intro i hi
    obtain ⟨g, r1, r2, r3⟩ := q5 i (Nat.zero_le _) (by omega)
    rw [show (Nac.mk (askedDims p).toNat s.pot s.nabla s.sign s.mass s.buf).dim = (askedDims p).toNat from rfl,
      fileOf_eq p f _ i hc] at r1 r2
    exact ⟨g, r1, r2, r3⟩
  · show p.sign.getD s'.sign = _
    rw [q2]
  · show (if s'.dim = 1 then p.mass.getD s'.mass else s'.mass) = _
    rw [q1, q3]
    show (if (askedDims p).toNat = 1 then p.mass.getD s.mass else s.mass) = _
    by_cases h : askedDims p = 1
    · rw [if_pos h, if_pos (by omega)]
    · rw [if_neg h, if_neg (by omega)]

/-- **C320 (part: new operators).**  With one to four dimensions, a file name and all files readable the coupling function
and the derivative of every dimension are set, the sign is the given one or one, the mass (only used in one dimension) the
given one or one. -/
theorem C320_partial (rd : String → Option G) (p : Pars R) (one : R) (f : String) (hf : p.file = some f)
    (h1 : 1 ≤ askedDims p) (h4 : askedDims p ≤ 4)
    (hr : ∀ i : Nat, (i : Int) < askedDims p → (rd (askedFile p f i)).isSome) :
    ∃ s', initPars rd p (fresh one) = .ok s' ∧ (s'.dim : Int) = askedDims p
      ∧ (∀ i : Nat, (i : Int) < askedDims p → ∃ g, rd (askedFile p f i) = some g
          ∧ s'.pot i = some (askedFile p f i, g) ∧ s'.nabla i = some i)
      ∧ s'.sign = p.sign.getD one
      ∧ s'.mass = (if askedDims p = 1 then p.mass.getD one else one)
      ∧ s'.buf = none :=
  initPars_fine rd p (fresh one) f hf h1 h4 hr

/-- **C320 (part: refusal, in every state).**  Other numbers of dimensions, a missing file name and files that cannot be read
are refused. -/
theorem C320_refused_partial (rd : String → Option G) (p : Pars R) (s : Nac R G)
    (h : askedDims p < 1 ∨ 4 < askedDims p ∨ p.file = none
      ∨ ∃ f, ∃ i : Nat, p.file = some f ∧ (i : Int) < askedDims p ∧ rd (askedFile p f i) = none) :
    ∃ s', initPars rd p s = .threw s' := by
  by_cases h1 : askedDims p < 1
  · unfold initPars askedDims at *
    cases hd : p.dims with
    | none => rw [hd] at h1; simp at h1
    | some d =>
      rw [hd] at h1
      simp only [Option.getD_some] at h1
      exact ⟨s, by simp only [if_pos h1]⟩
  by_cases h4 : 4 < askedDims p
  · unfold initPars askedDims setDim at *
    cases hd : p.dims with
    | none => rw [hd] at h4; simp at h4
    | some d =>
      rw [hd] at h4 h1
      simp only [Option.getD_some] at h4 h1
      exact ⟨s, by simp only [if_neg h1, if_pos h4]⟩
  rw [initPars_eq rd p s (by omega) (by omega)]
  unfold initRest
  rcases h with h | h | h | ⟨f, i, hf, hi, hn⟩
  · exact absurd h h1
  · exact absurd h h4
  · rw [h]; exact ⟨_, rfl⟩
  · rw [hf]
    have hc : askedDims p = ((askedDims p).toNat : Int) := by omega
    obtain ⟨s', e⟩ := load_bad rd p f (askedDims p).toNat 0
      (Nac.mk (askedDims p).toNat s.pot s.nabla s.sign s.mass s.buf) i (Nat.zero_le _) (by omega)
      (by
        show rd (fileOf p (askedDims p).toNat f i) = none
        rw [fileOf_eq p f _ i hc]; exact hn)
    simp only [e]
    exact ⟨s', rfl⟩

/-- **C320 is false for a repeated set-up**: without a sign the one of the set-up before is kept, and in more than one
dimension, where no mass can be given, the mass of a set-up before in one dimension. -/
theorem C320_violated (rd : String → Option G) (p : Pars R) (s : Nac R G) (f : String) (hf : p.file = some f)
    (h1 : 2 ≤ askedDims p) (h4 : askedDims p ≤ 4) (hs : p.sign = none)
    (hr : ∀ i : Nat, (i : Int) < askedDims p → (rd (askedFile p f i)).isSome) :
    ∃ s', initPars rd p s = .ok s' ∧ s'.sign = s.sign ∧ s'.mass = s.mass := by
  obtain ⟨s', e, _, _, q1, q2, _⟩ := initPars_fine rd p s f hf (by omega) h4 hr
  refine ⟨s', e, ?_, ?_⟩
  · rw [q1, hs]; rfl
  · rw [q2, if_neg (by omega)]

theorem prepLoop_iff [DecidableEq G] (g : G) (s : Nac R G) : ∀ k i,
    prepLoop g s k i = true ↔ ∀ j, i ≤ j → j < i + k → ∃ f, s.pot j = some (f, g) := by
  intro k
  induction k with
  | zero => intro i; exact ⟨fun _ j h1 h2 => by omega, fun _ => rfl⟩
  | succ k ih =>
    intro i
    unfold prepLoop
    cases hp : s.pot i with
    | none =>
      refine ⟨fun h => (by cases h), fun h => ?_⟩
      obtain ⟨f, hf⟩ := h i (Nat.le_refl _) (by omega)
      rw [hp] at hf
      cases hf
    | some q =>
      by_cases hq : q.2 = g
      · simp only [if_pos hq]
        rw [ih (i + 1)]
        constructor
        · intro h j h1 h2
          by_cases hj : j = i
          · rw [hj, hp, ← hq]; exact ⟨q.1, rfl⟩
          · exact h j (by omega) (by omega)
        · intro h j h1 h2
          exact h j (by omega) (by omega)
      · simp only [if_neg hq]
        refine ⟨fun h => (by cases h), fun h => ?_⟩
        obtain ⟨f, hf⟩ := h i (Nat.le_refl _) (by omega)
        rw [hp] at hf
        injection hf with hf
        exact absurd (by rw [hf]) hq

/-- **C321 (part: the first preparation).**  A wave function is accepted exactly if it is on a grid, with as many dimensions
as the operator, on which all coupling functions are given; then the operator works on this grid. -/
theorem C321_partial [DecidableEq G] (dimOf : G → Nat) (w : Wf G) (s : Nac R G) (hb : s.buf = none) :
    ((∃ s', initPsi dimOf w s = .ok s') ↔
      ∃ g, w = .grid g ∧ dimOf g = s.dim ∧ ∀ i, i < s.dim → ∃ f, s.pot i = some (f, g))
    ∧ (∀ s', initPsi dimOf w s = .ok s' → ∃ g, w = .grid g ∧ applyGrid s' = .val g ∧ s'.pot = s.pot
        ∧ s'.sign = s.sign ∧ s'.mass = s.mass)
    ∧ initPsi dimOf w s ≠ .ub := by
  cases w with
  | other =>
    refine ⟨⟨fun ⟨_, h⟩ => (by cases h), fun ⟨_, h, _⟩ => (by cases h)⟩, fun s' h => (by cases h), fun h => (by cases h)⟩
  | grid g =>
    unfold initPsi
    by_cases hd : s.dim = dimOf g
    · simp only [hb, hd, ne_eq, not_true_eq_false, if_false, Option.isSome_none, Bool.false_eq_true]
      by_cases hp : prepLoop g s (dimOf g) 0 = true
      · rw [if_pos hp]
        have hall := (prepLoop_iff g s _ _).1 hp
        refine ⟨⟨fun _ => ⟨g, rfl, rfl, fun i hi => hall i (Nat.zero_le _) (by omega)⟩, fun _ => ⟨_, rfl⟩⟩, ?_,
          fun h => (by cases h)⟩
        intro s' h
        injection h with h
        subst h
        exact ⟨g, rfl, rfl, rfl, rfl, rfl⟩
      · rw [if_neg hp]
        refine ⟨⟨fun ⟨_, h⟩ => (by cases h), fun ⟨g', hg, _, h⟩ => ?_⟩, fun s' h => (by cases h), fun h => (by cases h)⟩
        injection hg with hg
        subst hg
        exact absurd ((prepLoop_iff g s _ _).2 (fun j _ hj => h j (by omega))) hp
    · simp only [ne_eq, hd, not_false_eq_true, if_true]
      refine ⟨⟨fun ⟨_, h⟩ => (by cases h), fun ⟨g', hg, h, _⟩ => ?_⟩, fun s' h => (by cases h), fun h => (by cases h)⟩
      injection hg with hg
      subst hg
      exact absurd h.symm hd

/-- **C321 is false for a second preparation**: a wave function on any other grid with as many dimensions is accepted, and the
operator goes on with the first grid. -/
theorem C321_violated [DecidableEq G] (dimOf : G → Nat) (g g' : G) (s : Nac R G) (hb : s.buf = some g)
    (hd : dimOf g' = s.dim) : initPsi dimOf (.grid g') s = .ok s ∧ applyGrid s = .val g := by
  unfold initPsi applyGrid
  simp [hb, hd]

/-- **C321 is false without a preparation**: an operator that was only set up with parameters uses a null pointer when it is
applied. -/
theorem C321_violated_null (rd : String → Option G) (p : Pars R) (one : R) (s' : Nac R G)
    (h : initPars rd p (fresh one) = .ok s') : applyGrid s' = .ub := by
  by_cases hbad : askedDims p < 1 ∨ 4 < askedDims p ∨ p.file = none
      ∨ ∃ f, ∃ i : Nat, p.file = some f ∧ (i : Int) < askedDims p ∧ rd (askedFile p f i) = none
  · obtain ⟨_, e⟩ := C320_refused_partial rd p (fresh one) hbad
    rw [e] at h
    cases h
  · have hb : ∀ x, p.file = some x → ∀ i : Nat, (i : Int) < askedDims p → (rd (askedFile p x i)).isSome := by
      intro x hx i hi
      cases hq : rd (askedFile p x i) with
      | some _ => rfl
      | none => exact absurd (Or.inr (Or.inr (Or.inr ⟨x, i, hx, hi, hq⟩))) hbad
    cases hf : p.file with
    | none => exact absurd (Or.inr (Or.inr (Or.inl hf))) hbad
    | some f =>
      have a1 : ¬ askedDims p < 1 := fun h => hbad (Or.inl h)
      have a2 : ¬ 4 < askedDims p := fun h => hbad (Or.inr (Or.inl h))
      obtain ⟨s2, e, _, _, _, _, q⟩ := C320_partial rd p one f hf (by omega) (by omega) (hb f hf)
      rw [e] at h
      injection h with h
      rw [← h]
      unfold applyGrid
      rw [q]

/-! ### The hypotheses are met -/

/-- Two dimensions with files that are all on the same grid, number 7. -/
example : ∃ s', initPars (R := Nat) (fun _ => some 7) ⟨some 2, some "nac", none, none⟩ (fresh 1) = .ok s'
    ∧ s'.pot 1 = some ("nac1", 7) ∧ (∃ s2, initPsi (fun _ => 2) (.grid 7) s' = .ok s2 ∧ applyGrid s2 = .val 7
      ∧ initPsi (fun _ => 2) (.grid 8) s2 = .ok s2) := by
  obtain ⟨s', e, h1, h2, _, _, h5⟩ := C320_partial (G := Nat) (fun _ => some 7) ⟨some 2, some "nac", none, none⟩ 1 "nac"
    rfl (by decide) (by decide) (fun _ _ => rfl)
  have hd : s'.dim = 2 := by
    have : (s'.dim : Int) = 2 := h1
    omega
  have hp : ∀ i, i < 2 → ∃ f, s'.pot i = some (f, 7) := by
    intro i hi
    obtain ⟨g, r1, r2, _⟩ := h2 i (by show (i : Int) < 2; omega)
    injection r1 with r1
    exact ⟨_, by rw [r2, ← r1]⟩
  obtain ⟨s2, e2⟩ := (C321_partial (fun _ => 2) (.grid 7) s' h5).1.2 ⟨7, rfl, hd.symm, fun i hi => hp i (by omega)⟩
  refine ⟨s', e, ?_, s2, e2, ?_, ?_⟩
  · obtain ⟨g, r1, r2, _⟩ := h2 1 (by decide)
    injection r1 with r1
    rw [r2, ← r1]
    rfl
  · obtain ⟨g, q1, q2, _⟩ := (C321_partial (fun _ => 2) (.grid 7) s' h5).2.1 s2 e2
    injection q1 with q1
    rw [q2, q1]
  · have e3 := e2
    unfold initPsi at e3
    by_cases hc : prepLoop 7 s' s'.dim 0 = true
    · simp only [hd, h5, ne_eq, not_true_eq_false, if_false, Option.isSome_none, Bool.false_eq_true] at e3 hc
      rw [if_pos hc] at e3
      injection e3 with e3
      subst e3
      simp [initPsi, hd]
    · simp only [hd, h5, ne_eq, not_true_eq_false, if_false, Option.isSome_none, Bool.false_eq_true] at e3 hc
      rw [if_neg hc] at e3
      cases e3

end QDng.NacIn
