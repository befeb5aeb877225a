import Verif.Ops.ValidModel

/-
Properties of the validity checks of composite operators: C74.
-/

namespace QDng.Ops

variable {W : Type}

theorem listValidLoop_iff (psi : WF W) (ops : List (Check W)) :
    listValidLoop psi ops true = true ↔ ∀ o ∈ ops, o psi = true := by
  induction ops with
  | nil => simp [listValidLoop]
  | cons o l ih =>
    cases h : o psi <;> simp [listValidLoop, h, ih]

/-- C74, lists, sums and products of operators: a wave function is accepted exactly when it exists and every
member accepts it. -/
theorem C74_list (ops : List (Check W)) (psi : WF W) :
    listValid ops psi = true ↔ psi ≠ .null ∧ ∀ o ∈ ops, o psi = true := by
  cases psi <;> simp [listValid, listValidLoop_iff]

theorem rowValid_iff (m : Nat → Nat → Option (Check W)) (s : W) (i : Nat) :
    ∀ n j, rowValid m s i n j = true ↔ ∀ k, j ≤ k → k < j + n → ∀ o, m i k = some o → o (.single s) = true := by
  intro n
  induction n with
  | zero => intro j; simp [rowValid]; intros; omega
  | succ n ih =>
    intro j
    have e : rowValid m s i (n + 1) j =
        ((match m i j with | some o => o (.single s) | none => true) && rowValid m s i n (j + 1)) := by
      rw [rowValid]
      cases m i j with
      | none => simp
      | some o => cases h : o (.single s) <;> simp [h]
    rw [e, Bool.and_eq_true, ih (j + 1)]
    constructor
    · rintro ⟨h0, hr⟩ k h1 h2 o ho
      by_cases hk : k = j
      · subst hk
        rw [ho] at h0
        exact h0
      · exact hr k (by omega) (by omega) o ho
    · intro h
      refine ⟨?_, fun k h1 h2 => h k (by omega) (by omega)⟩
      have h0 := h j (Nat.le_refl _) (by omega)
      cases hm : m i j with
      | none => rfl
      | some o => exact h0 o hm

theorem rowsValid_iff (m : Nat → Nat → Option (Check W)) (n : Nat) :
    ∀ (l : List W) (i : Nat), rowsValid m n i l = true ↔
      ∀ (r : Nat) s, l[r]? = some s → ∀ k, k < n → ∀ o, m (i + r) k = some o → o (.single s) = true := by
  intro l
  induction l with
  | nil => intro i; simp [rowsValid]
  | cons a l ih =>
    intro i
    unfold rowsValid
    constructor
    · intro h r s hs k hk o ho
      split at h
      · cases h
      · rename_i hv
        cases r with
        | zero =>
          simp at hs
          subst hs
          have : rowValid m a i n 0 = true := by simpa using hv
          exact (rowValid_iff m a i n 0).mp this k (Nat.zero_le _) (by omega) o ho
        | succ r =>
          exact (ih (i + 1)).mp h r s (by simpa using hs) k hk o (by rw [show i + 1 + r = i + (r + 1) by omega]; exact ho)
    · intro h
      have h1 : rowValid m a i n 0 = true := by
        rw [rowValid_iff]
        intro k _ hk o ho
        exact h 0 a rfl k (by omega) o ho
      rw [h1]
      simp only [Bool.not_true, Bool.false_eq_true, if_false]
      rw [ih (i + 1)]
      intro r s hs k hk o ho
      exact h (r + 1) s (by simpa using hs) k hk o (by rw [show i + (r + 1) = i + 1 + r by omega]; exact ho)

/-- C74, multistate operators: a wave function is accepted exactly when it is a multistate wave function with the
number of states of the operator and every block accepts the state it writes to.  Missing: that it accepts the
state it reads (see `C74_violated_multistate`). -/
theorem C74_multistate_partial (n : Nat) (m : Nat → Nat → Option (Check W)) (psi : WF W) :
    multiValid n m psi = true ↔ ∃ l, psi = .multi l ∧ l.length = n ∧
      ∀ (i : Nat) s, l[i]? = some s → ∀ j, j < n → ∀ o, m i j = some o → o (.single s) = true := by
  cases psi with
  | null => simp [multiValid]
  | single w => simp [multiValid]
  | multi l =>
    unfold multiValid
    dsimp only
    constructor
    · intro h
      split at h
      · cases h
      · rename_i hl
        refine ⟨l, rfl, by simpa using hl, ?_⟩
        intro i s hs j hj o ho
        exact (rowsValid_iff m n l 0).mp h i s hs j hj o (by simpa using ho)
    · rintro ⟨l', h1, h2, h3⟩
      cases h1
      rw [if_neg (by simpa using h2), rowsValid_iff]
      intro r s hs k hk o ho
      exact h3 r s hs k hk o (by simpa using ho)

/-- C74 is violated for multistate operators: the block in row 0 and column 1 is applied to state 1 but only
state 0 is checked, so a wave function is accepted although the block refuses the state it will be applied to. -/
theorem C74_violated_multistate : ∃ (m : Nat → Nat → Option (Check Nat)) (a b : Nat) (o : Check Nat),
    m 0 1 = some o ∧ o (.single b) = false ∧ multiValid 2 m (.multi [a, b]) = true := by
  refine ⟨fun i j => if i = 0 ∧ j = 1 then some (fun w => match w with | .single 7 => true | _ => false) else none,
    7, 8, _, rfl, rfl, rfl⟩

/-- C74 is violated for the general split operator propagator: it accepts no wave function, whatever its parts
answer. -/
theorem C74_violated_split (ops : List (Check W)) (psi : WF W) : gspoValid ops psi = false := by
  induction ops with
  | nil => rfl
  | cons o l ih => unfold gspoValid; dsimp only; split <;> simp [ih]

/-- C74 is violated for the split operator propagator with two coupled states: the second state is accepted
unseen. -/
theorem C74_violated_coupled (tkin vpot0 : Check W) (a : W) (h1 : tkin (.single a) = true)
    (h2 : vpot0 (.single a) = true) (b : W) : spoValid true tkin vpot0 (.multi [a, b]) = true := by
  simp [spoValid, h1, h2]

example : listValid [fun _ => true, fun w => match w with | .single n => n == (3 : Nat) | _ => false] (.single 3) = true ∧
    listValid [fun _ => true, fun w => match w with | .single n => n == (3 : Nat) | _ => false] (.single 4) = false :=
  ⟨rfl, rfl⟩

example : multiValid 2 (fun i j => if i = j then some (fun w => match w with | .single n => n == (3 : Nat) | _ => false)
    else none) (.multi [3, 3]) = true := rfl

end QDng.Ops
