import Verif.Dms.Lemmas

/-
C183 (exponential of coupled potentials), C184 (external transformations), C185 (refused operators), C186 (energy
bounds of multistate operators) and C187 (copies of multistate operators).
-/

namespace QDng.Dms

open QDng.Common QDng.HMat Matrix

variable {S N : Nat}

/-! ### C183: the exponential of coupled potentials -/

/-- Specification: `r` is the exponential of `c` times the operator `f` at each grid point, applied to `ψ`. -/
def IsExponential (f : (Fin S → Fin N → ℂ) → Fin S → Fin N → ℂ) (c : ℂ) (ψ r : Fin S → Fin N → ℂ) : Prop :=
  ∃ A : Fin N → Matrix (Fin S) (Fin S) ℂ, (∀ φ i x, f φ i x = (A x).mulVec (fun j => φ j x) i) ∧
    ∀ i x, r i x = (NormedSpace.exp (c • A x)).mulVec (fun j => ψ j x) i

/-- The matrix is symmetric: hermitian mode, or equal values in both places. -/
def Symmetric (herm : Bool) (m : Fin S → Fin S → Option (Elem N)) : Prop :=
  herm = true ∨ ∀ i j x, gridMat m x i j = gridMat m x j i

theorem complete_symm (herm : Bool) (m : Fin S → Fin S → Option (Elem N)) (h : Symmetric herm m) (x : Fin N) :
    (gridMat (complete herm m) x).IsSymm := by
  ext i j
  show gridMat _ x j i = gridMat _ x i j
  rcases h with rfl | h
  · have : complete true m j i = complete true m i j := by
      unfold complete
      simp only [if_true]
      rcases lt_trichotomy i j with h | h | h
      · rw [if_neg (not_lt.mpr h.le), if_pos h, if_pos h]
      · rw [h]
      · rw [if_pos h, if_neg (not_lt.mpr h.le), if_pos h]
    unfold gridMat
    rw [this]
  · cases herm with
    | true =>
      have : complete true m j i = complete true m i j := by
        unfold complete
        simp only [if_true]
        rcases lt_trichotomy i j with h | h | h
        · rw [if_neg (not_lt.mpr h.le), if_pos h, if_pos h]
        · rw [h]
        · rw [if_pos h, if_neg (not_lt.mpr h.le), if_pos h]
      unfold gridMat
      rw [this]
    | false =>
      have : complete false m = m := by
        funext a b
        simp [complete]
      rw [this]
      exact h j i x

theorem complete_cases (herm : Bool) (m : Fin S → Fin S → Option (Elem N)) (i j : Fin S) (e : Elem N)
    (h : complete herm m i j = some e) : m i j = some e ∨ m j i = some e := by
  have key : ∀ a b : Option (Elem N), a.orElse (fun _ => b) = some e → a = some e ∨ b = some e := by
    intro a b hab
    cases a with
    | none => exact Or.inr hab
    | some v => exact Or.inl hab
  unfold complete at h
  split at h
  · split at h
    · exact key _ _ h
    · split at h
      · exact (key _ _ h).symm
      · exact Or.inl h
  · exact Or.inl h

theorem complete_diag (herm : Bool) (m : Fin S → Fin S → Option (Elem N)) (i : Fin S) :
    complete herm m i i = m i i := by
  unfold complete
  simp

theorem plain_complete (herm : Bool) (m : Fin S → Fin S → Option (Elem N)) (h : Plain m) : Plain (complete herm m) := by
  intro i j e he
  rcases complete_cases herm m i j e he with h1 | h1
  · exact h _ _ e h1
  · exact h _ _ e h1

/-- C183: for a symmetric matrix of static potentials with all diagonal elements, after any history of steps, a step
is at each grid point the exponential of the matrix which is applied there.  Without `unity` diagonal elements may be
missing if there is a coupling.  Missing: elements with a laser field (`C183_violated_dipole`), other matrices
(`C183_violated_nonhermitian`, `C183_violated_unity`, `C183_violated_missing`). -/
theorem C183_exponential_partial (L : Lapack S) (hL : L.Ok) (hS : 0 < S) (m : Fin S → Fin S → Option (Elem N))
    (unity herm : Bool) (hp : Plain m) (hstat : ∀ i j e, m i j = some e → ∀ t, e.fac t = 1) (hsym : Symmetric herm m)
    (hdiag : (∀ i, (m i i).isSome) ∨ (unity = false ∧ Coupled (complete herm m)))
    (l : List (Nat × ℂ × (Fin S → Fin N → ℂ))) (t : Nat) (c : ℂ) (ψ : Fin S → Fin N → ℂ) :
    ∃ o o' r o'', (Op.new m unity herm).init = .ok o ∧ o.steps L l = .val o' ∧ o'.part L t c ψ = .val (r, o'') ∧
      IsExponential (o'.apply t) c ψ r := by
  have hpc := plain_complete herm m hp
  obtain ⟨f, hf, hi⟩ := init_plain m unity herm hS hpc
  have hfd : f = true → FullDiagonal (complete herm m) := by
    intro h i
    rcases hdiag with hd | ⟨-, hd⟩
    · obtain ⟨e, he⟩ := Option.isSome_iff_exists.mp (hd i)
      exact ⟨e, by rw [complete_diag, he], (hp i i e he).1⟩
    · exact absurd hd (hf.mp h)
  obtain ⟨o', h1, h2, h3⟩ := steps_good hL (complete herm m) f hfd hf.mp l
    ⟨complete herm m, unity, herm, true, N, f, none, false, none, none, (Op.new m unity herm).timeDep⟩
    ⟨rfl, rfl, rfl, rfl, Or.inl rfl⟩
  obtain ⟨o'', h4, -, -⟩ := part_good hL _ f o' h2 hfd hf.mp t c ψ
  refine ⟨_, o', _, o'', hi, h1, h4, fun x => cpl (gridMat (complete herm m) x), ?_, ?_⟩
  · intro φ i x
    have hm := h2.1
    have := apply_static o' t (by rw [hm]; exact hpc) (by
      rw [hm]
      intro i j e he
      rcases complete_cases herm m i j e he with h | h
      · exact hstat _ _ e h t
      · exact hstat _ _ e h t) (by
      rw [hm, h3]
      rcases hdiag with hd | ⟨hd, -⟩
      · exact Or.inr fun i => by rw [complete_diag]; exact hd i
      · exact Or.inl hd) φ i x
    rw [hm] at this
    exact this
  · intro i x
    show (NormedSpace.exp (c • cpl (upper (gridMat (complete herm m) x)))).mulVec _ i = _
    rw [upper_symm _ (complete_symm herm m hsym x)]

/-- A potential. -/
def pot (v : Fin N → ℝ) : Elem N := ⟨true, v, fun _ => 1, false, none⟩

/-- Two coupled states on two grid points, the coupling given above the diagonal only. -/
def twoStates : Fin 2 → Fin 2 → Option (Elem 2) := fun i j =>
  if i = j then some (pot fun x => x.val + i.val) else if i < j then some (pot fun x => 1 - x.val) else none

/-- The hypotheses are met. -/
example : ∃ L : Lapack 2, L.Ok ∧ Plain twoStates ∧ (∀ i j e, twoStates i j = some e → ∀ t, e.fac t = 1) ∧
    Symmetric true twoStates ∧ (∀ i, (twoStates i i).isSome) ∧ Coupled (complete true twoStates) := by
  obtain ⟨L, h⟩ := exists_lapack 2
  refine ⟨L, h, ?_, ?_, Or.inl rfl, ?_, 0, 1, by decide, ?_⟩
  · intro i j e he
    unfold twoStates at he
    split at he
    · cases he
      exact ⟨rfl, rfl⟩
    · split at he
      · cases he
        exact ⟨rfl, rfl⟩
      · cases he
  · intro i j e he
    unfold twoStates at he
    split at he
    · cases he
      exact fun _ => rfl
    · split at he
      · cases he
        exact fun _ => rfl
      · cases he
  · intro i
    simp [twoStates]
  · simp [complete, twoStates]

/-- One state on one grid point. -/
theorem exp_one_state (f : (Fin 1 → Fin 1 → ℂ) → Fin 1 → Fin 1 → ℂ) (a c : ℂ)
    (hf : ∀ φ, f φ 0 0 = a * φ 0 0) (ψ r : Fin 1 → Fin 1 → ℂ) (h : IsExponential f c ψ r) :
    r 0 0 = Complex.exp (c * a) * ψ 0 0 := by
  obtain ⟨A, h1, h2⟩ := h
  have hA : A 0 = Matrix.diagonal fun _ => a := by
    refine matrix_of_mulVec _ _ fun v => ?_
    funext i
    have hi : i = 0 := Subsingleton.elim _ _
    subst hi
    have := h1 (fun j _ => v j) 0 0
    rw [hf] at this
    rw [← this, Matrix.mulVec_diagonal]
  rw [h2 0 0, hA, ← Matrix.diagonal_smul, Matrix.exp_diagonal, Matrix.mulVec_diagonal, Pi.coe_exp,
    Complex.exp_eq_exp_ℂ]
  rfl

/-- C183 fails for elements with a laser field: one state with the dipole moment 1 in the constant field 1 is
propagated with the energy +1, the operator applies −1. -/
theorem C183_violated_dipole (L : Lapack 1) (hL : L.Ok) (unity herm : Bool) (t : Nat) :
    let m : Fin 1 → Fin 1 → Option (Elem 1) := fun _ _ => some ⟨true, fun _ => 1, fun _ => -1, true, none⟩
    ∃ o r o', (Op.new m unity herm).init = .ok o ∧ o.part L t 1 (fun _ _ => 1) = .val (r, o') ∧
      r 0 0 = Complex.exp 1 ∧ o.apply t (fun _ _ => 1) 0 0 = -1 ∧
      ¬ IsExponential (o.apply t) 1 (fun _ _ => 1) r := by
  intro m
  have hp : Plain m := by
    intro i j e he
    cases he
    exact ⟨rfl, rfl⟩
  have hpc := plain_complete herm m hp
  obtain ⟨f, hf, hi⟩ := init_plain m unity herm one_pos hpc
  have hm : complete herm m = m := by
    funext i j
    have hij : i = j := Subsingleton.elim _ _
    rw [hij, complete_diag]
  rw [hm] at hi hf
  have hnc : ¬ Coupled m := by
    rintro ⟨i, j, h, -⟩
    exact h (Subsingleton.elim _ _)
  have hft : f = true := hf.mpr hnc
  obtain ⟨o', h4, -, -⟩ := part_good hL m f
    ⟨m, unity, herm, true, 1, f, none, false, none, none, (Op.new m unity herm).timeDep⟩
    ⟨rfl, rfl, rfl, rfl, Or.inl rfl⟩ (fun _ i => ⟨_, rfl, rfl⟩) (fun _ => hnc) t 1 (fun _ _ => 1)
  have happ : ∀ φ : Fin 1 → Fin 1 → ℂ, Op.apply
      ⟨m, unity, herm, true, 1, f, none, false, none, none, (Op.new m unity herm).timeDep⟩ t φ 0 0 = -1 * φ 0 0 := by
    intro φ
    unfold Op.apply
    rw [Fin.sum_univ_one]
    simp [m, Elem.act]
  have hr : (NormedSpace.exp ((1 : ℂ) • cpl (upper (gridMat m 0)))).mulVec (fun _ : Fin 1 => (1 : ℂ)) 0 =
      Complex.exp 1 := by
    have he := exp_one_state (fun φ i x => (cpl (upper (gridMat m x))).mulVec (fun j => φ j x) i) 1 1 (by
      intro φ
      simp [Matrix.mulVec, dotProduct, cpl, upper, gridMat, m]) (fun _ _ => 1)
      (fun i x => (NormedSpace.exp ((1 : ℂ) • cpl (upper (gridMat m x)))).mulVec (fun _ => 1) i)
      ⟨fun x => cpl (upper (gridMat m x)), fun φ i x => rfl, fun i x => rfl⟩
    rw [mul_one, mul_one] at he
    exact he
  refine ⟨_, _, o', hi, h4, hr, ?_, ?_⟩
  · rw [happ]
    norm_num
  · intro hc
    have h5 := exp_one_state _ (-1) 1 happ _ _ hc
    have h6 : Complex.exp 1 = Complex.exp (1 * -1) * 1 := by
      rw [← hr]
      exact h5
    rw [one_mul, mul_one] at h6
    have h7 := congrArg Complex.re h6
    have e1 : (Complex.exp 1).re = Real.exp 1 := by
      rw [← Complex.ofReal_one, Complex.exp_ofReal_re]
    have e2 : (Complex.exp (-1)).re = Real.exp (-1) := by
      rw [← Complex.ofReal_one, ← Complex.ofReal_neg, Complex.exp_ofReal_re]
    rw [e1, e2] at h7
    have := Real.exp_injective h7
    norm_num at this

theorem exp_nilpotent (V : Matrix (Fin 2) (Fin 2) ℂ) (h : V * V = 0) : NormedSpace.exp V = 1 + V := by
  rw [NormedSpace.exp_eq_tsum ℂ]
  have hz : ∀ k, k ∉ Finset.range 2 → ((Nat.factorial k : ℂ)⁻¹) • V ^ k = 0 := by
    intro k hk
    have hk2 : 2 ≤ k := by
      rw [Finset.mem_range] at hk
      omega
    obtain ⟨j, rfl⟩ := Nat.exists_eq_add_of_le hk2
    rw [pow_add, pow_two, h, zero_mul, smul_zero]
  show (∑' k : ℕ, ((Nat.factorial k : ℂ)⁻¹) • V ^ k) = 1 + V
  rw [tsum_eq_sum hz, Finset.sum_range_succ, Finset.sum_range_one]
  simp

/-- C183 fails for matrices which are not symmetric: they are accepted, but a coupling below the diagonal has no
effect in a step. -/
theorem C183_violated_nonhermitian (L : Lapack 2) (hL : L.Ok) (unity : Bool) (t : Nat) :
    let m : Fin 2 → Fin 2 → Option (Elem 1) := fun i j => some (pot fun _ => if j < i then 1 else 0)
    let ψ : Fin 2 → Fin 1 → ℂ := fun i _ => if i = 0 then 1 else 0
    ∃ o o', (Op.new m unity false).init = .ok o ∧ o.part L t 1 ψ = .val (ψ, o') ∧
      o.apply t ψ 1 0 = 1 ∧ ¬ IsExponential (o.apply t) 1 ψ ψ := by
  intro m ψ
  have hp : Plain m := by
    intro i j e he
    cases he
    exact ⟨rfl, rfl⟩
  have hm : complete false m = m := by
    funext i j
    simp [complete]
  obtain ⟨f, hf, hi⟩ := init_plain m unity false (by norm_num) (plain_complete false m hp)
  rw [hm] at hi hf
  have hcp : Coupled m := ⟨0, 1, by decide, rfl⟩
  have hff : f = false := by
    cases f with
    | false => rfl
    | true => exact absurd hcp (hf.mp rfl)
  subst hff
  obtain ⟨o', h4, -, -⟩ := part_good hL m false
    ⟨m, unity, false, true, 1, false, none, false, none, none, (Op.new m unity false).timeDep⟩
    ⟨rfl, rfl, rfl, rfl, Or.inl rfl⟩ (fun (h : false = true) => Bool.noConfusion h)
    (fun (h : false = true) => Bool.noConfusion h) t 1 ψ
  have hup : ∀ x, upper (gridMat m x) = 0 := by
    intro x
    ext i j
    unfold upper gridMat
    fin_cases i <;> fin_cases j <;> simp [m, pot]
  have hcz : cpl (0 : RMat 2) = 0 := by
    ext i j
    simp [cpl]
  have h5 : (fun i x => (NormedSpace.exp ((1 : ℂ) • cpl (upper (gridMat m x)))).mulVec (fun j => ψ j x) i) = ψ := by
    funext i x
    rw [hup, hcz, smul_zero, NormedSpace.exp_zero, Matrix.one_mulVec]
  rw [h5] at h4
  have happ := fun φ i x => apply_static
    ⟨m, unity, false, true, 1, false, none, false, none, none, (Op.new m unity false).timeDep⟩ t hp
    (fun i j e he => by cases he; rfl) (Or.inr fun i => rfl) φ i x
  refine ⟨_, o', hi, h4, ?_, ?_⟩
  · rw [happ]
    simp [Matrix.mulVec, dotProduct, Fin.sum_univ_two, cpl, gridMat, m, pot, ψ]
  · rintro ⟨A, h6, h7⟩
    have hA := grid_unique _ _ _ h6 happ
    have h8 := h7 1 0
    rw [hA, one_smul] at h8
    have hsq : cpl (gridMat m 0) * cpl (gridMat m 0) = 0 := by
      ext i j
      fin_cases i <;> fin_cases j <;>
        simp [Matrix.mul_apply, Fin.sum_univ_two, cpl, gridMat, m, pot]
    have h9 : (cpl (gridMat m 0)).mulVec (fun j => ψ j 0) 1 = 1 := by
      simp [Matrix.mulVec, dotProduct, Fin.sum_univ_two, cpl, gridMat, m, pot, ψ]
    have h10 : ψ 1 0 = (1 + cpl (gridMat m 0)).mulVec (fun j => ψ j 0) 1 := by
      rw [← exp_nilpotent _ hsq]
      exact h8
    rw [Matrix.add_mulVec, Matrix.one_mulVec, Pi.add_apply, h9] at h10
    simp [ψ] at h10

/-- C183 fails for missing diagonal elements with `unity` (the default): they act as one, a step takes them as
zero. -/
theorem C183_violated_unity (L : Lapack 2) (hL : L.Ok) (t : Nat) :
    let m : Fin 2 → Fin 2 → Option (Elem 1) := fun i j => if i < j then some (pot fun _ => 0) else none
    ∃ o, (Op.new m true true).init = .ok o ∧ (∀ c ψ, ∃ o', o.part L t c ψ = .val (ψ, o')) ∧
      ∀ ψ, o.apply t ψ = ψ := by
  intro m
  have hp : Plain m := by
    intro i j e he
    by_cases hij : i < j
    · simp only [m, hij, if_true] at he
      cases he
      exact ⟨rfl, rfl⟩
    · simp only [m, hij, if_false] at he
      cases he
  obtain ⟨f, hf, hi⟩ := init_plain m true true (by norm_num) (plain_complete true m hp)
  have hcp : Coupled (complete true m) := ⟨0, 1, by decide, by simp [complete, m]⟩
  have hff : f = false := by
    cases f with
    | false => rfl
    | true => exact absurd hcp (hf.mp rfl)
  subst hff
  have hz : ∀ x, gridMat (complete true m) x = 0 := by
    intro x
    ext i j
    unfold gridMat
    fin_cases i <;> fin_cases j <;> simp [complete, m, pot]
  have hup : ∀ x, cpl (upper (gridMat (complete true m) x)) = 0 := by
    intro x
    rw [hz]
    ext i j
    simp [cpl, upper]
  refine ⟨_, hi, fun c ψ => ?_, fun ψ => ?_⟩
  · obtain ⟨o', h4, -, -⟩ := part_good hL (complete true m) false
      ⟨complete true m, true, true, true, 1, false, none, false, none, none, (Op.new m true true).timeDep⟩
      ⟨rfl, rfl, rfl, rfl, Or.inl rfl⟩ (fun (h : false = true) => Bool.noConfusion h)
      (fun (h : false = true) => Bool.noConfusion h) t c ψ
    refine ⟨o', ?_⟩
    rw [h4]
    congr 2
    funext i x
    rw [hup, smul_zero, NormedSpace.exp_zero, Matrix.one_mulVec]
  · funext i x
    unfold Op.apply
    rw [Fin.sum_univ_two]
    fin_cases i <;> simp [complete, m, pot, Elem.act]

/-- C183 fails if a diagonal element is missing and there are no couplings: the first step uses a null pointer. -/
theorem C183_violated_missing (L : Lapack S) (m : Fin S → Fin S → Option (Elem N)) (unity herm : Bool)
    (hp : Plain m) (hc : ¬ Coupled (complete herm m)) (i : Fin S) (hi : m i i = none) :
    ∃ o, (Op.new m unity herm).init = .ok o ∧ ∀ t c ψ, o.part L t c ψ = .ub := by
  obtain ⟨f, hf, hin⟩ := init_plain m unity herm (lt_of_le_of_lt (Nat.zero_le _) i.isLt) (plain_complete herm m hp)
  refine ⟨_, hin, fun t c ψ => ?_⟩
  have hft : f = true := hf.mpr hc
  subst hft
  have hmiss : diagRep (complete herm m) = none := diagRep_missing _ i (by rw [complete_diag, hi])
  unfold Op.part Op.expo
  simp only [Option.isNone_none, if_true, Op.initDspace, Bool.true_or, hmiss]

/-- The hypotheses of `C183_violated_missing` are met by two states of which one has a potential. -/
example : let m : Fin 2 → Fin 2 → Option (Elem 1) := fun i j => if i = 0 ∧ j = 0 then some (pot fun _ => 1) else none
    Plain m ∧ ¬ Coupled (complete true m) ∧ m 1 1 = none := by
  intro m
  refine ⟨?_, ?_, rfl⟩
  · intro i j e he
    by_cases h : i = 0 ∧ j = 0
    · simp only [m, h, and_self, if_true] at he
      cases he
      exact ⟨rfl, rfl⟩
    · simp only [m, h, if_false] at he
      cases he
  · rintro ⟨i, j, hij, hs⟩
    fin_cases i <;> fin_cases j <;> simp [complete, m] at hij hs

/-! ### C184: external transformations -/

theorem scan_trans (m : Fin S → Fin S → Option (Elem N)) (T : Fin S → Trf N)
    (hd : ∀ i, ∃ e, m i i = some e ∧ e.od = true ∧ e.trans = some (T i)) (ho : ∀ i j, i ≠ j → m i j = none)
    (l : List (Fin S × Fin S)) : ∀ s : Scan S N, ∃ s', scan m l s = .inr s' ∧
      (s'.external = true ↔ s.external = true ∨ ∃ p ∈ l, p.1 = p.2) ∧
      (s'.fullDiag = true ↔ s.fullDiag = true ∧ ¬ ∃ p ∈ l, p.1 = p.2) ∧
      ∀ i, ((i, i) ∈ l ∨ s.cells i = .at (T i)) → s'.cells i = .at (T i) := by
  induction l with
  | nil => exact fun s => ⟨s, rfl, by simp, by simp, fun i h => h.elim nofun id⟩
  | cons p l ih =>
    intro s
    obtain ⟨i, j⟩ := p
    by_cases hij : i = j
    · subst hij
      obtain ⟨e, h1, h2, h3⟩ := hd i
      obtain ⟨s', g1, g2, g3, g4⟩ := ih ⟨true, false, Function.update s.cells i (.at (T i))⟩
      refine ⟨s', ?_, ?_, ?_, ?_⟩
      · unfold scan checkElem
        simp only [h1, h2, h3, Bool.not_true, Bool.false_eq_true, if_false, ne_eq, not_true_eq_false]
        exact g1
      · rw [g2]
        simp
      · rw [g3]
        simp
      · intro k hk
        apply g4
        by_cases hki : k = i
        · subst hki
          exact Or.inr (Function.update_self ..)
        · rcases hk with hk | hk
          · rcases List.mem_cons.mp hk with hk | hk
            · exact absurd (congrArg Prod.fst hk) hki
            · exact Or.inl hk
          · right
            show Function.update s.cells i _ k = _
            rw [Function.update_of_ne hki]
            exact hk
    · obtain ⟨s', g1, g2, g3, g4⟩ := ih s
      refine ⟨s', ?_, ?_, ?_, ?_⟩
      · unfold scan checkElem
        simp only [ho i j hij]
        exact g1
      · rw [g2]
        simp [hij]
      · rw [g3]
        simp [hij]
      · intro k hk
        apply g4
        rcases hk with hk | hk
        · rcases List.mem_cons.mp hk with hk | hk
          · exact absurd ((congrArg Prod.fst hk).symm.trans (congrArg Prod.snd hk)) hij
          · exact Or.inl hk
        · exact Or.inr hk

/-- C184: if all diagonal elements have a transformation with the same normalization, there are no couplings, and the
normalized transformation back undoes the transformation, a step is in each state the exponential of the element at
the current time.  Missing: `C184_violated_mixed`, `C184_violated_coupling`. -/
theorem C184_transform_partial (L : Lapack S) (hS : 0 < S) (m : Fin S → Fin S → Option (Elem N)) (unity herm : Bool)
    (e : Fin S → Elem N) (hd : ∀ i, m i i = some (e i)) (hod : ∀ i, (e i).od = true) (ho : ∀ i j, i ≠ j → m i j = none)
    (T : Fin S → Trf N) (hT : ∀ i, (e i).trans = some (T i)) (ν : ℝ) (hν : ∀ i, (T i).norm = ν)
    (F B : Fin S → Matrix (Fin N) (Fin N) ℂ) (hF : ∀ i φ, (T i).fwd φ = (F i).mulVec φ)
    (hB : ∀ i φ, (T i).bwd φ = (B i).mulVec φ) (hinv : ∀ i, (ν : ℂ) • (B i * F i) = 1)
    (t : Nat) (c : ℂ) (ψ : Fin S → Fin N → ℂ) :
    ∃ o r o', (Op.new m unity herm).init = .ok o ∧ o.part L t c ψ = .val (r, o') ∧
      ∀ i (A : Matrix (Fin N) (Fin N) ℂ), (∀ φ, (e i).act t φ = A.mulVec φ) →
        r i = (NormedSpace.exp (c • A)).mulVec (ψ i) := by
  have hcm : complete herm m = m := by
    funext i j
    by_cases hij : i = j
    · rw [hij, complete_diag]
    · unfold complete
      rw [ho i j hij, ho j i (Ne.symm hij)]
      simp
  obtain ⟨s, g1, g2, g3, g4⟩ := scan_trans m T (fun i => ⟨e i, hd i, hod i, hT i⟩) ho (pairs S)
    ⟨false, true, fun _ => .unset⟩
  have hpair : ∃ p ∈ pairs S, p.1 = p.2 := ⟨(⟨0, hS⟩, ⟨0, hS⟩), mem_pairs _ _, rfl⟩
  have he : s.external = true := g2.mpr (Or.inr hpair)
  have hf : s.fullDiag = false := by
    cases hh : s.fullDiag with
    | false => rfl
    | true => exact absurd hpair (g3.mp hh).2
  have hc : s.cells = fun i => .at (T i) := funext fun i => g4 i (Or.inl (mem_pairs i i))
  let o : Op S N := ⟨m, unity, herm, true, N, false, some fun i => .at (T i), true, none, none,
    (Op.new m unity herm).timeDep⟩
  have hinit : (Op.new m unity herm).init = .ok o := by
    have hS' : S ≠ 0 := Nat.ne_of_gt hS
    unfold Op.init
    simp only [Op.new, ne_eq, not_true_eq_false, if_false, hS', Bool.false_eq_true, hcm, g1, he, if_true, hf, hc]
    rfl
  have hall : ((List.finRange S).all fun k => (m k k).any Elem.od) = true := by
    rw [List.all_eq_true]
    intro k _
    rw [hd k]
    exact hod k
  have hav : (allVal fun i => (Cell.at (T i)).get) = some T := by
    unfold allVal
    exact dif_pos fun i => rfl
  refine ⟨o, fun i => (T i).bwd fun k => (T i).fwd (ψ i) k *
    (Complex.exp (((e i).base k : ℂ) * (c * ((e i).fac t : ℂ))) * (ν : ℂ)), o, hinit, ?_, ?_⟩
  · unfold Op.part Op.expo
    simp only [o, hall, if_true, Bool.false_eq_true, if_false, Op.norm, dif_pos hS, Cell.get, Option.map_some, hν,
      Op.transform]
    have hav' : (allVal fun i => some (T i)) = some T := hav
    simp only [hav', hd]
  · intro i A hA
    have h1 : ((ν : ℂ) • B i) * F i = 1 := by rw [Matrix.smul_mul]; exact hinv i
    have h2 : F i * ((ν : ℂ) • B i) = 1 := mul_eq_one_comm.mp h1
    have hFi : (F i)⁻¹ = (ν : ℂ) • B i := Matrix.inv_eq_left_inv h1
    have hu : IsUnit (F i) := ⟨⟨F i, (ν : ℂ) • B i, h2, h1⟩, rfl⟩
    have hAeq : A = (F i)⁻¹ * Matrix.diagonal (fun k => (((e i).base k * (e i).fac t : ℝ) : ℂ)) * F i := by
      have : ∀ v, A.mulVec v = ((F i)⁻¹ * Matrix.diagonal (fun k => (((e i).base k * (e i).fac t : ℝ) : ℂ)) *
          F i).mulVec v := by
        intro v
        rw [← hA v, hFi, ← Matrix.mulVec_mulVec, ← Matrix.mulVec_mulVec, Matrix.smul_mulVec, ← Matrix.mulVec_smul]
        unfold Elem.act
        rw [hT i]
        simp only
        rw [hB, hF, hν]
        congr 1
        funext k
        rw [Pi.smul_apply, Matrix.mulVec_diagonal, smul_eq_mul]
        ring
      ext a b
      have h := congrFun (this (Pi.single b 1)) a
      rwa [Matrix.mulVec_single_one, Matrix.mulVec_single_one] at h
    have hexp : NormedSpace.exp (c • A) = (F i)⁻¹ *
        Matrix.diagonal (fun k => Complex.exp (((e i).base k : ℂ) * (c * ((e i).fac t : ℂ)))) * F i := by
      have : c • A = (F i)⁻¹ * Matrix.diagonal (fun k => ((e i).base k : ℂ) * (c * ((e i).fac t : ℂ))) * F i := by
        rw [hAeq, ← Matrix.smul_mul, ← Matrix.mul_smul, ← Matrix.diagonal_smul]
        congr 3
        funext k
        rw [Pi.smul_apply, smul_eq_mul]
        push_cast
        ring
      rw [this, Matrix.exp_conj' _ _ hu, Matrix.exp_diagonal]
      congr 3
      funext k
      rw [Pi.coe_exp, Complex.exp_eq_exp_ℂ]
    rw [hexp, hFi, ← Matrix.mulVec_mulVec, ← Matrix.mulVec_mulVec, Matrix.smul_mulVec, ← Matrix.mulVec_smul]
    show (T i).bwd _ = _
    rw [hB, hF]
    congr 1
    funext k
    rw [Pi.smul_apply, Matrix.mulVec_diagonal, smul_eq_mul]
    ring

/-- The transformation of two points: sum and difference, with the normalization 1/2. -/
noncomputable def twoPoint : Trf 2 := ⟨fun φ => (!![1, 1; 1, -1] : Matrix (Fin 2) (Fin 2) ℂ).mulVec φ,
  fun φ => (!![1, 1; 1, -1] : Matrix (Fin 2) (Fin 2) ℂ).mulVec φ, 1 / 2⟩

/-- The hypotheses of `C184_transform_partial` are met by the Fourier transformation of two points. -/
example : ((1 / 2 : ℝ) : ℂ) • ((!![1, 1; 1, -1] : Matrix (Fin 2) (Fin 2) ℂ) * !![1, 1; 1, -1]) = 1 := by
  ext i j
  fin_cases i <;> fin_cases j <;> norm_num [Matrix.mul_apply, Fin.sum_univ_two]

/-- C184 fails if one state has an element with a transformation and another state one without: the entry of the
second state in the list of transformations is never set. -/
theorem C184_violated_mixed (L : Lapack 2) (T : Trf N) (v w : Fin N → ℝ) (unity herm : Bool) :
    let m : Fin 2 → Fin 2 → Option (Elem N) := fun i j =>
      if i = j then some (if i = 0 then ⟨true, v, fun _ => 1, false, some T⟩ else pot w) else none
    ∃ o, (Op.new m unity herm).init = .ok o ∧ ∀ t c ψ, o.part L t c ψ = .ub := by
  intro m
  have hcm : complete herm m = m := by
    funext i j
    by_cases hij : i = j
    · rw [hij, complete_diag]
    · unfold complete
      simp [m, hij, Ne.symm hij]
  let o : Op 2 N := ⟨m, unity, herm, true, N, false, some (Function.update (fun _ => Cell.unset) 0 (.at T)), true,
    none, none, (Op.new m unity herm).timeDep⟩
  refine ⟨o, ?_, ?_⟩
  · unfold Op.init
    simp only [Op.new, ne_eq, not_true_eq_false, if_false, Bool.false_eq_true, hcm]
    simp [pairs, List.finRange_succ, scan, checkElem, m, pot, o, Op.new]
  · intro t c ψ
    have hall : ((List.finRange 2).all fun k => (m k k).any Elem.od) = true := by
      simp [List.finRange_succ, m, pot]
    have hav : (allVal fun i => (Function.update (fun _ => Cell.unset) (0 : Fin 2) (Cell.at T) i).get) = none := by
      unfold allVal
      rw [dif_neg]
      intro h
      have h1 : (Function.update (fun _ => Cell.unset) (0 : Fin 2) (Cell.at T) 1).get.isSome = true := h 1
      rw [Function.update_of_ne (by decide)] at h1
      exact Bool.noConfusion h1
    unfold Op.part Op.expo
    simp only [o, hall, if_true, Bool.false_eq_true, if_false, Op.transform, hav]
    split <;> simp_all

/-- C184 fails for potentials as couplings between states with transformations: the operator is accepted and a step
ignores the coupling. -/
theorem C184_violated_coupling (L : Lapack 2) (unity : Bool) (t : Nat) :
    let T : Trf 1 := ⟨id, id, 1⟩
    let m : Fin 2 → Fin 2 → Option (Elem 1) := fun i j =>
      if i = j then some ⟨true, fun _ => 0, fun _ => 1, false, some T⟩ else some (pot fun _ => 1)
    ∃ o, (Op.new m unity true).init = .ok o ∧ (∀ c ψ, ∃ o', o.part L t c ψ = .val (ψ, o')) ∧
      ∀ ψ, o.apply t ψ = fun i x => ψ (1 - i) x := by
  intro T m
  have hcm : complete true m = m := by
    funext i j
    fin_cases i <;> fin_cases j <;> rfl
  let o : Op 2 1 := ⟨m, unity, true, true, 1, false, some fun _ => .at T, true, none, none,
    (Op.new m unity true).timeDep⟩
  refine ⟨o, ?_, fun c ψ => ⟨o, ?_⟩, fun ψ => ?_⟩
  · unfold Op.init
    simp only [Op.new, ne_eq, not_true_eq_false, if_false, Bool.false_eq_true, hcm]
    simp [pairs, List.finRange_succ, scan, checkElem, m, pot, o, Op.new]
    funext i
    fin_cases i <;> simp
  · have hall : ((List.finRange 2).all fun k => (m k k).any Elem.od) = true := by
      simp [List.finRange_succ, m]
    have hav : (allVal fun _ : Fin 2 => some T) = some fun _ => T := by
      unfold allVal
      exact dif_pos fun i => rfl
    unfold Op.part Op.expo
    simp only [o, hall, if_true, Bool.false_eq_true, if_false, Op.norm, Op.transform, Cell.get, hav]
    simp [m, T]
  · funext i x
    unfold Op.apply
    rw [Fin.sum_univ_two]
    fin_cases i <;> simp [o, m, pot, Elem.act, T]

/-! ### C185: refused operators -/

/-- Specification: an element the operator can not use. -/
def Unusable (m : Fin S → Fin S → Option (Elem N)) : Prop :=
  ∃ i j e, m i j = some e ∧ (e.od = false ∨ (i ≠ j ∧ e.trans.isSome))

theorem scan_refuses (m : Fin S → Fin S → Option (Elem N)) (l : List (Fin S × Fin S)) :
    ∀ s : Scan S N, (∃ s', scan m l s = .inl s') ↔
      ∃ p ∈ l, ∃ e, m p.1 p.2 = some e ∧ (e.od = false ∨ (p.1 ≠ p.2 ∧ e.trans.isSome)) := by
  induction l with
  | nil =>
    intro s
    simp [scan]
  | cons p l ih =>
    intro s
    obtain ⟨i, j⟩ := p
    have hsplit : (∃ p ∈ (i, j) :: l, ∃ e, m p.1 p.2 = some e ∧ (e.od = false ∨ (p.1 ≠ p.2 ∧ e.trans.isSome))) ↔
        (∃ e, m i j = some e ∧ (e.od = false ∨ (i ≠ j ∧ e.trans.isSome))) ∨
        ∃ p ∈ l, ∃ e, m p.1 p.2 = some e ∧ (e.od = false ∨ (p.1 ≠ p.2 ∧ e.trans.isSome)) := by
      simp only [List.exists_mem_cons_iff]
    rw [hsplit]
    unfold scan
    cases hc : checkElem m s i j with
    | none =>
      refine ⟨fun _ => Or.inl ?_, fun _ => ⟨_, rfl⟩⟩
      unfold checkElem at hc
      cases hm : m i j with
      | none => simp [hm] at hc
      | some e =>
        refine ⟨e, rfl, ?_⟩
        cases hod : e.od with
        | false => exact Or.inl rfl
        | true =>
          right
          cases ht : e.trans with
          | none =>
            exfalso
            by_cases hij : i = j
            · subst hij
              simp [hm, hod, ht] at hc
            · simp [hm, hod, ht, hij] at hc
          | some T =>
            by_cases hij : i = j
            · exfalso
              subst hij
              simp [hm, hod, ht] at hc
            · exact ⟨hij, rfl⟩
    | some s' =>
      simp only
      rw [ih s']
      refine ⟨Or.inr, fun h => h.elim (fun h => ?_) id⟩
      obtain ⟨e, he, hbad⟩ := h
      unfold checkElem at hc
      rcases hbad with hod | ⟨hij, ht⟩
      · simp [he, hod] at hc
      · obtain ⟨T, hT⟩ := Option.isSome_iff_exists.mp ht
        cases hod : e.od <;> simp [he, hod, hT, hij] at hc

/-- C185: the first initialisation refuses an operator exactly if it has an element which can not be used.  Missing:
further initialisations (`C185_violated_twice`). -/
theorem C185_refused_partial (m : Fin S → Fin S → Option (Elem N)) (unity herm : Bool) (hS : 0 < S) :
    (∃ o, (Op.new m unity herm).init = .threw o) ↔ Unusable (complete herm m) := by
  have hS' : S ≠ 0 := Nat.ne_of_gt hS
  have h := scan_refuses (complete herm m) (pairs S) ⟨false, true, fun _ => Cell.unset⟩
  have hu : Unusable (complete herm m) ↔ ∃ p ∈ pairs S, ∃ e, complete herm m p.1 p.2 = some e ∧
      (e.od = false ∨ (p.1 ≠ p.2 ∧ e.trans.isSome)) :=
    ⟨fun ⟨i, j, e, h1, h2⟩ => ⟨(i, j), mem_pairs i j, e, h1, h2⟩, fun ⟨p, _, e, h1, h2⟩ => ⟨p.1, p.2, e, h1, h2⟩⟩
  rw [hu, ← h]
  unfold Op.init
  simp only [Op.new, ne_eq, not_true_eq_false, if_false, hS', Bool.false_eq_true]
  cases hsc : scan (complete herm m) (pairs S) ⟨false, true, fun _ => Cell.unset⟩ with
  | inl s => exact ⟨fun _ => ⟨s, rfl⟩, fun _ => ⟨_, rfl⟩⟩
  | inr s =>
    simp only
    refine ⟨fun ⟨o, ho⟩ => ?_, fun ⟨s', hs⟩ => by cases hs⟩
    split at ho <;> cases ho

/-- The condition is met by a matrix with a kinetic energy as coupling, and not by `twoStates`. -/
example : Unusable (fun _ _ => some ⟨true, fun _ => 0, fun _ => 1, false, some twoPoint⟩ : Fin 2 → Fin 2 → Option (Elem 2)) :=
  ⟨0, 1, _, rfl, Or.inr ⟨by decide, rfl⟩⟩

/-- C185 fails for a second initialisation: an operator which has been refused is accepted unchanged the next time,
and a step of it is undefined. -/
theorem C185_violated_twice (L : Lapack S) (m : Fin S → Fin S → Option (Elem N)) (unity herm : Bool) (hS : 0 < S)
    (hN : 0 < N) (h : Unusable (complete herm m)) :
    ∃ o, (Op.new m unity herm).init = .threw o ∧ o.init = .ok o ∧
      (o.fullDiag = false → ∀ t c ψ, o.part L t c ψ = .ub) := by
  obtain ⟨o, ho⟩ := (C185_refused_partial m unity herm hS).mpr h
  have hS' : S ≠ 0 := Nat.ne_of_gt hS
  have hN' : N ≠ 0 := Nat.ne_of_gt hN
  have ho' := ho
  unfold Op.init at ho'
  simp only [Op.new, ne_eq, not_true_eq_false, if_false, hS', Bool.false_eq_true] at ho'
  cases hsc : scan (complete herm m) (pairs S) ⟨false, true, fun _ => Cell.unset⟩ with
  | inr s =>
    rw [hsc] at ho'
    simp only at ho'
    split at ho' <;> cases ho'
  | inl s =>
    rw [hsc] at ho'
    cases ho'
    refine ⟨_, ho, ?_, ?_⟩
    · unfold Op.init
      simp only [ne_eq, hN', not_false_eq_true, if_true]
    · intro hf t c ψ
      have hf' : s.fullDiag = false := hf
      unfold Op.part Op.expo
      simp only
      split
      · rename_i e o' he
        split at he
        · cases he
          simp only [hf', Bool.false_eq_true, if_false, Op.transform]
          split <;> simp_all
        · cases he
      · rename_i he
        split at he <;> cases he
      · rfl

/-- The hypotheses of `C185_violated_twice` are met: two states coupled by an operator with a transformation. -/
example : let m : Fin 2 → Fin 2 → Option (Elem 2) :=
      fun i j => some (if i = j then pot fun _ => 1 else ⟨true, fun _ => 0, fun _ => 1, false, some twoPoint⟩)
    ∃ o, (Op.new m true true).init = .threw o ∧ o.fullDiag = false := by
  intro m
  cases h : (Op.new m true true).init with
  | threw o =>
    refine ⟨o, rfl, ?_⟩
    unfold Op.init at h
    simp only [Op.new, ne_eq, not_true_eq_false, if_false, Bool.false_eq_true] at h
    simp [pairs, List.finRange_succ, scan, checkElem, m, pot, complete] at h
    rw [← h]
  | ok o =>
    unfold Op.init at h
    simp only [Op.new, ne_eq, not_true_eq_false, if_false, Bool.false_eq_true] at h
    simp [pairs, List.finRange_succ, scan, checkElem, m, pot, complete] at h
  | ub =>
    unfold Op.init at h
    simp only [Op.new, ne_eq, not_true_eq_false, if_false, Bool.false_eq_true] at h
    simp [pairs, List.finRange_succ, scan, checkElem, m, pot, complete] at h

/-! ### C186: energy bounds of multistate operators -/

/-- The energy of a state under the blocks `A i j`. -/
noncomputable def energy (A : Fin S → Fin S → (Fin N → ℂ) → Fin N → ℂ) (ψ : Fin S → Fin N → ℂ) : ℝ :=
  (∑ i, ∑ j, HMat.inner (ψ i) (A i j (ψ j))).re

/-- The total norm. -/
noncomputable def totalNorm (ψ : Fin S → Fin N → ℂ) : ℝ := ∑ i, HMat.normSq (ψ i)

theorem normSq_nonneg (ψ : Fin N → ℂ) : 0 ≤ HMat.normSq ψ := Finset.sum_nonneg fun _ _ => Complex.normSq_nonneg _

/-- C186: the upper bound is one if the magnitude of the upper bound of each diagonal block bounds its energies and
that of each coupling bounds its matrix elements.  Missing: couplings with larger negative values and the lower bound
(`C186_violated_emax`, `C186_violated_emin`). -/
theorem C186_emax_partial (L : Lapack (S + 1)) (hL : L.Ok)
    (A : Fin (S + 1) → Fin (S + 1) → (Fin N → ℂ) → Fin N → ℂ) (e : Fin (S + 1) → Fin (S + 1) → Option ℝ)
    (hsym : ∀ i j, e i j = e j i) (hnone : ∀ i j, e i j = none → ∀ φ, A i j φ = 0)
    (hdiag : ∀ i v, e i i = some v → ∀ φ, (HMat.inner φ (A i i φ)).re ≤ |v| * HMat.normSq φ)
    (hoff : ∀ i j v, i ≠ j → e i j = some v →
      ∀ φ χ, (HMat.inner φ (A i j χ)).re ≤ |v| * (Real.sqrt (HMat.normSq φ) * Real.sqrt (HMat.normSq χ)))
    (ψ : Fin (S + 1) → Fin N → ℂ) :
    energy A ψ ≤ msEmax L e * totalNorm ψ := by
  let a : Fin (S + 1) → ℝ := fun i => Real.sqrt (HMat.normSq (ψ i))
  have haa : ∀ i, a i * a i = HMat.normSq (ψ i) := fun i => Real.mul_self_sqrt (normSq_nonneg _)
  have h1 : energy A ψ ≤ ∑ i, ∑ j, boundMat e i j * (a i * a j) := by
    unfold energy
    rw [Complex.re_sum]
    refine Finset.sum_le_sum fun i _ => ?_
    rw [Complex.re_sum]
    refine Finset.sum_le_sum fun j _ => ?_
    unfold boundMat
    cases hv : e i j with
    | none =>
      rw [hnone i j hv]
      simp [HMat.inner]
    | some v =>
      by_cases hij : i = j
      · subst hij
        simp only
        rw [haa]
        exact hdiag i v hv (ψ i)
      · exact hoff i j v hij hv (ψ i) (ψ j)
  have hM : (boundMat e).IsSymm := by
    ext i j
    show boundMat e j i = boundMat e i j
    unfold boundMat
    rw [hsym]
  have h2 : ∑ i, ∑ j, boundMat e i j * (a i * a j) =
      (HMat.inner (fun i => (a i : ℂ)) ((cpl (upper (boundMat e))).mulVec fun i => (a i : ℂ))).re := by
    rw [upper_symm _ hM]
    unfold HMat.inner Matrix.mulVec dotProduct
    rw [Complex.re_sum]
    refine Finset.sum_congr rfl fun i _ => ?_
    rw [Finset.mul_sum, Complex.re_sum]
    refine Finset.sum_congr rfl fun j _ => ?_
    have : (starRingEnd ℂ) (a i : ℂ) * (cpl (boundMat e) i j * (a j : ℂ)) =
        ((boundMat e i j * (a i * a j) : ℝ) : ℂ) := by
      rw [Complex.conj_ofReal]
      show (a i : ℂ) * (((boundMat e i j : ℝ) : ℂ) * (a j : ℂ)) = _
      push_cast
      ring
    rw [this, Complex.ofReal_re]
  have h3 := (largest_vals hL (Nat.succ_pos S) (boundMat e)).1 fun i => (a i : ℂ)
  have h4 : HMat.normSq (fun i => (a i : ℂ)) = totalNorm ψ := by
    unfold totalNorm
    rw [HMat.normSq]
    refine Finset.sum_congr rfl fun i _ => ?_
    rw [Complex.normSq_ofReal, haa]
  have h5 : L.vals (boundMat e) ⟨S + 1 - 1, Nat.sub_lt (Nat.succ_pos S) Nat.one_pos⟩ ≤ msEmax L e := by
    unfold msEmax
    obtain ⟨g1, g2⟩ := le_vecMax (List.ofFn fun i : Fin S => L.vals (boundMat e) i.succ) (L.vals (boundMat e) 0)
    rcases Fin.eq_zero_or_eq_succ (⟨S + 1 - 1, Nat.sub_lt (Nat.succ_pos S) Nat.one_pos⟩ : Fin (S + 1)) with h | ⟨k, h⟩
    · rw [h]
      exact g1
    · rw [h]
      exact g2 _ (List.mem_ofFn.mpr ⟨k, rfl⟩)
  have h6 : 0 ≤ totalNorm ψ := Finset.sum_nonneg fun i _ => normSq_nonneg _
  rw [h4] at h3
  calc energy A ψ ≤ _ := h1
    _ = _ := h2
    _ ≤ _ := h3
    _ ≤ _ := mul_le_mul_of_nonneg_right h5 h6

/-- The multiplication with a potential. -/
noncomputable def mult (v : Fin N → ℝ) (φ : Fin N → ℂ) : Fin N → ℂ := fun x => (v x : ℂ) * φ x

/-- The hypotheses of `C186_emax_partial` are met by two states on one point with the energies 1 and −2 and the
coupling 1. -/
example : let v : Fin 2 → Fin 2 → ℝ := fun i j => if i = j then (if i = 0 then 1 else -2) else 1
    ∃ L : Lapack 2, L.Ok ∧ (∀ i j, some (v i j) = some (v j i)) ∧
      (∀ i (φ : Fin 1 → ℂ), (HMat.inner φ (mult (fun _ => v i i) φ)).re ≤ |v i i| * HMat.normSq φ) ∧
      ∀ i j, i ≠ j → ∀ φ χ : Fin 1 → ℂ, (HMat.inner φ (mult (fun _ => v i j) χ)).re ≤
        |v i j| * (Real.sqrt (HMat.normSq φ) * Real.sqrt (HMat.normSq χ)) := by
  intro v
  obtain ⟨L, h⟩ := exists_lapack 2
  refine ⟨L, h, ?_, ?_, ?_⟩
  · intro i j
    fin_cases i <;> fin_cases j <;> rfl
  · intro i φ
    simp only [HMat.inner, HMat.normSq, mult, Fin.sum_univ_one]
    have : starRingEnd ℂ (φ 0) * ((v i i : ℂ) * φ 0) = ((v i i * Complex.normSq (φ 0) : ℝ) : ℂ) := by
      push_cast
      rw [← Complex.mul_conj]
      ring
    rw [this, Complex.ofReal_re]
    exact mul_le_mul_of_nonneg_right (le_abs_self _) (Complex.normSq_nonneg _)
  · intro i j hij φ χ
    have hv : v i j = 1 := if_neg hij
    simp only [HMat.inner, HMat.normSq, mult, Fin.sum_univ_one, hv, abs_one, one_mul, Complex.ofReal_one]
    calc (starRingEnd ℂ (φ 0) * χ 0).re ≤ ‖starRingEnd ℂ (φ 0) * χ 0‖ := Complex.re_le_norm _
      _ = ‖φ 0‖ * ‖χ 0‖ := by rw [norm_mul, Complex.norm_conj]
      _ = _ := by rw [Complex.norm_def, Complex.norm_def]

/-- C186 fails for a lower bound which is negative: one state with the energy −1 has the lower bound 1. -/
theorem C186_violated_emin (L : Lapack 1) (hL : L.Ok) :
    msEmin L (fun _ _ => some (-1)) = 1 ∧
      energy (fun _ _ : Fin 1 => mult fun _ : Fin 1 => -1) (fun _ _ => 1) = -1 ∧
      totalNorm (fun _ _ => 1 : Fin 1 → Fin 1 → ℂ) = 1 := by
  have hM : boundMat (fun _ _ : Fin 1 => some (-1)) = 1 := by
    ext i j
    have hij : i = j := Subsingleton.elim _ _
    rw [hij, Matrix.one_apply_eq]
    simp [boundMat]
  refine ⟨?_, ?_, ?_⟩
  · have h := smallest_vals hL one_pos (1 : RMat 1)
    rw [upper_symm _ Matrix.isSymm_one, cpl_one] at h
    obtain ⟨h1, ψ, h2, h3⟩ := h
    have h4 : (HMat.inner ψ ((1 : Matrix (Fin 1) (Fin 1) ℂ).mulVec ψ)).re = L.vals 1 0 := h3
    rw [Matrix.one_mulVec, inner_self, Complex.ofReal_re, h2] at h4
    unfold msEmin
    rw [hM]
    simp [vecMin, ← h4]
  · simp [energy, HMat.inner, mult]
  · simp [totalNorm, HMat.normSq]

/-- C186 fails for the upper bound if a coupling has larger negative values: two states on two points with the
coupling 1 and −5 have the upper bound 1 and a state with the energy 5. -/
theorem C186_violated_emax (L : Lapack 2) (hL : L.Ok) :
    let v : Fin 2 → ℝ := fun x => if x = 0 then 1 else -5
    let A : Fin 2 → Fin 2 → (Fin 2 → ℂ) → Fin 2 → ℂ := fun i j => if i = j then fun _ => 0 else mult v
    let ψ : Fin 2 → Fin 2 → ℂ := fun i x => if x = 0 then 0 else if i = 0 then 1 else -1
    (∀ x, v x ≤ 1) ∧ v 0 = 1 ∧ msEmax L (fun i j => if i = j then none else some 1) = 1 ∧
      energy A ψ = 5 * totalNorm ψ := by
  intro v A ψ
  have hM : boundMat (fun i j : Fin 2 => if i = j then none else some 1) = pairMat := by
    ext i j
    fin_cases i <;> fin_cases j <;> simp [boundMat, pairMat]
  obtain ⟨h0, h1⟩ := pair_vals L hL
  refine ⟨?_, rfl, ?_, ?_⟩
  · intro x
    fin_cases x <;> norm_num [v]
  · unfold msEmax
    rw [hM, h0]
    have : List.ofFn (fun i : Fin 1 => L.vals pairMat i.succ) = [1] := by
      simp [List.ofFn_succ, h1]
    rw [this]
    unfold vecMax vecMax
    norm_num
  · simp [energy, totalNorm, HMat.inner, HMat.normSq, mult, Fin.sum_univ_two, A, ψ, v]
    norm_num

/-! ### C187: copies -/

theorem initDspace_keep (L : Lapack S) (o o' : Op S N) (h : o.initDspace L = .val o') :
    o'.herm = o.herm ∧ o'.inited = o.inited := by
  unfold Op.initDspace at h
  split at h
  · cases hd : diagRep o.mat with
    | some d =>
      rw [hd] at h
      cases h
      exact ⟨rfl, rfl⟩
    | none =>
      rw [hd] at h
      cases h
  · cases h
    exact ⟨rfl, rfl⟩

theorem expo_keep (L : Lapack S) (o o' : Op S N) (t : Nat) (c : ℂ) (e : Fin S → Fin N → ℂ)
    (h : o.expo L t c = .val (e, o')) : o'.herm = o.herm ∧ o'.inited = o.inited := by
  unfold Op.expo at h
  split at h
  · split at h
    · rename_i o1 h1
      have hk : o1.herm = o.herm ∧ o1.inited = o.inited := by
        split at h1
        · exact initDspace_keep L o o1 h1
        · cases h1
          exact ⟨rfl, rfl⟩
      split at h
      · cases h
        exact hk
      · cases h
    · cases h
    · cases h
  · split at h
    · cases h
      exact ⟨rfl, rfl⟩
    · cases h

theorem part_keep (L : Lapack S) (o o' : Op S N) (t : Nat) (c : ℂ) (ψ r : Fin S → Fin N → ℂ)
    (h : o.part L t c ψ = .val (r, o')) : o'.herm = o.herm ∧ o'.inited = o.inited := by
  unfold Op.part at h
  cases he : o.expo L t c with
  | val p =>
    obtain ⟨e, o1⟩ := p
    have hk := expo_keep L o o1 t c e he
    rw [he] at h
    simp only at h
    repeat' split at h
    all_goals first | (cases h; exact hk) | cases h
  | threw =>
    rw [he] at h
    cases h
  | ub =>
    rw [he] at h
    cases h

theorem steps_keep (L : Lapack S) (l : List (Nat × ℂ × (Fin S → Fin N → ℂ))) :
    ∀ o o' : Op S N, o.steps L l = .val o' → o'.herm = o.herm ∧ o'.inited = o.inited := by
  induction l with
  | nil =>
    intro o o' h
    cases h
    exact ⟨rfl, rfl⟩
  | cons a l ih =>
    intro o o' h
    obtain ⟨t, c, ψ⟩ := a
    unfold Op.steps at h
    cases hp : o.part L t c ψ with
    | val p =>
      obtain ⟨r, o1⟩ := p
      rw [hp] at h
      have h1 := part_keep L o o1 t c ψ r hp
      have h2 := ih o1 o' h
      exact ⟨h2.1.trans h1.1, h2.2.trans h1.2⟩
    | threw =>
      rw [hp] at h
      cases h
    | ub =>
      rw [hp] at h
      cases h

/-- C187: the copy of an operator of potentials with all diagonal elements, taken after any history of steps, is
applied as the original at all times, and all its steps are those of the original.  Missing: missing diagonal elements
with `unity`, operators which have not been initialised and the time dependence (`C187_violated_unity`,
`C187_violated_new`, `C187_violated_time`). -/
theorem C187_copy_partial (L : Lapack S) (hL : L.Ok) (hS : 0 < S) (m : Fin S → Fin S → Option (Elem N))
    (unity herm : Bool) (hp : Plain m) (hd : ∀ i, (m i i).isSome) (l : List (Nat × ℂ × (Fin S → Fin N → ℂ))) :
    ∃ o o1 o2, (Op.new m unity herm).init = .ok o ∧ o.steps L l = .val o1 ∧ o1.copy L = .val o2 ∧
      (∀ t ψ, o2.apply t ψ = o1.apply t ψ) ∧
      ∀ t c ψ, ∃ r p1 p2, o1.part L t c ψ = .val (r, p1) ∧ o2.part L t c ψ = .val (r, p2) := by
  have hpc := plain_complete herm m hp
  obtain ⟨f, hf, hi⟩ := init_plain m unity herm hS hpc
  have hfd : f = true → FullDiagonal (complete herm m) := by
    intro _ i
    obtain ⟨e, he⟩ := Option.isSome_iff_exists.mp (hd i)
    exact ⟨e, by rw [complete_diag, he], (hp i i e he).1⟩
  obtain ⟨o1, h1, h2, -⟩ := steps_good hL (complete herm m) f hfd hf.mp l
    ⟨complete herm m, unity, herm, true, N, f, none, false, none, none, (Op.new m unity herm).timeDep⟩
    ⟨rfl, rfl, rfl, rfl, Or.inl rfl⟩
  obtain ⟨k1, k2⟩ := steps_keep L l _ _ h1
  have k1' : o1.herm = herm := k1
  have k2' : o1.inited = true := k2
  have hmat : (fun i j => if herm = true ∧ i < j then complete herm m j i else complete herm m i j) =
      complete herm m := by
    funext i j
    split
    · rename_i h
      unfold complete
      simp only [h.1, if_true]
      rw [if_neg (not_lt.mpr h.2.le), if_pos h.2, if_pos h.2]
    · rfl
  obtain ⟨g1, g2, g3, g4, g5⟩ := id h2
  let r : Op S N := ⟨complete herm m, false, herm, true, o1.size, f, none, false, none, none, false⟩
  have hr : Good L (complete herm m) f r := ⟨rfl, rfl, rfl, rfl, Or.inl rfl⟩
  have hcopy : o1.copy L = if o1.ds.isSome then r.initDspace L else .val r := by
    unfold Op.copy
    simp only [k2', Bool.not_true, Bool.false_eq_true, if_false, g1, g2, g4, k1', Option.isSome_none, hmat, r]
  have hex : ∃ o2, o1.copy L = .val o2 ∧ Good L (complete herm m) f o2 := by
    rw [hcopy]
    split
    · cases f with
      | true =>
        have hdr := diagRep_full _ (hfd rfl)
        refine ⟨{ r with ds := some fun k x => gridMat (complete herm m) x k k }, ?_, rfl, rfl, rfl, rfl,
          Or.inr (Or.inl ⟨rfl, rfl⟩)⟩
        unfold Op.initDspace
        simp only [r, Bool.true_or, if_true, hdr]
      | false =>
        exact ⟨_, rfl, rfl, rfl, rfl, rfl, Or.inr (Or.inr ⟨rfl, rfl, rfl⟩)⟩
    · exact ⟨r, rfl, hr⟩
  obtain ⟨o2, q1, q2⟩ := hex
  refine ⟨_, o1, o2, hi, h1, q1, ?_, ?_⟩
  · intro t ψ
    funext i x
    unfold Op.apply
    refine Finset.sum_congr rfl fun j _ => ?_
    rw [g1, q2.1]
    cases hm : complete herm m i j with
    | some e => rfl
    | none =>
      simp only
      have hij : i ≠ j := by
        rintro rfl
        rw [complete_diag] at hm
        have := hd i
        rw [hm] at this
        exact Bool.noConfusion this
      rw [if_neg (fun h => hij h.1), if_neg (fun h => hij h.1)]
  · intro t c ψ
    obtain ⟨p1, e1, -, -⟩ := part_good hL _ f o1 h2 hfd hf.mp t c ψ
    obtain ⟨p2, e2, -, -⟩ := part_good hL _ f o2 q2 hfd hf.mp t c ψ
    exact ⟨_, p1, p2, e1, e2⟩

/-- The hypotheses are met by `twoStates`. -/
example : Plain twoStates ∧ ∀ i, (twoStates i i).isSome := by
  refine ⟨?_, fun i => by simp [twoStates]⟩
  intro i j e he
  unfold twoStates at he
  split at he
  · cases he
    exact ⟨rfl, rfl⟩
  · split at he
    · cases he
      exact ⟨rfl, rfl⟩
    · cases he

/-- C187 fails for missing diagonal elements: they act as one, in the copy as zero. -/
theorem C187_violated_unity (L : Lapack 2) (t : Nat) :
    let m : Fin 2 → Fin 2 → Option (Elem 1) := fun i j => if i < j then some (pot fun _ => 0) else none
    ∃ o o', (Op.new m true true).init = .ok o ∧ o.copy L = .val o' ∧ (∀ ψ, o.apply t ψ = ψ) ∧
      ∀ ψ, o'.apply t ψ = fun _ _ => 0 := by
  intro m
  have hp : Plain m := by
    intro i j e he
    by_cases hij : i < j
    · simp only [m, hij, if_true] at he
      cases he
      exact ⟨rfl, rfl⟩
    · simp only [m, hij, if_false] at he
      cases he
  obtain ⟨f, hf, hi⟩ := init_plain m true true (by norm_num) (plain_complete true m hp)
  refine ⟨_, _, hi, rfl, fun ψ => ?_, fun ψ => ?_⟩
  · funext i x
    unfold Op.apply
    rw [Fin.sum_univ_two]
    fin_cases i <;> simp [complete, m, pot, Elem.act]
  · funext i x
    unfold Op.apply
    rw [Fin.sum_univ_two]
    fin_cases i <;> simp [complete, m, pot, Elem.act]

/-- C187 fails for an operator which has not been initialised: copying it uses a null pointer. -/
theorem C187_violated_new (L : Lapack S) (m : Fin S → Fin S → Option (Elem N)) (unity herm : Bool) :
    (Op.new m unity herm).copy L = .ub := rfl

/-- C187 fails for the time dependence: no copy tells to be time dependent. -/
theorem C187_violated_time (L : Lapack S) (o o' : Op S N) (h : o.copy L = .val o') : o'.timeDep = false := by
  have key : ∀ p : Op S N, p.initDspace L = .val o' → o'.timeDep = p.timeDep := by
    intro p hp
    unfold Op.initDspace at hp
    split at hp
    · cases hd : diagRep p.mat with
      | some d =>
        rw [hd] at hp
        cases hp
        rfl
      | none =>
        rw [hd] at hp
        cases hp
    · cases hp
      rfl
  unfold Op.copy at h
  split at h
  · cases h
  · simp only at h
    split at h
    · exact key _ h
    · cases h
      rfl

/-- A time dependent operator, and its copy. -/
example (L : Lapack 1) : let m : Fin 1 → Fin 1 → Option (Elem 1) := fun _ _ => some ⟨true, fun _ => 1, fun t => t, true, none⟩
    ∃ o o', (Op.new m true true).init = .ok o ∧ o.timeDep = true ∧ o.copy L = .val o' ∧ o'.timeDep = false := by
  intro m
  refine ⟨_, _, rfl, ?_, rfl, rfl⟩
  simp [Op.new, m]

end QDng.Dms
