import Verif.Krylov.SpanLemmas
import Mathlib.Analysis.Matrix.Spectrum

namespace QDng.Krylov

open QDng.Krylov.Spec

variable {V : Type} [NormedAddCommGroup V] [InnerProductSpace ℂ V]

theorem setEntry_self (h : ℕ → ℕ → ℂ) (i j : ℕ) (x : ℂ) : setEntry h i j x i j = x := by
  simp [setEntry]

theorem setEntry_ne (h : ℕ → ℕ → ℂ) {i j i' j' : ℕ} (x : ℂ) (hne : i' ≠ i ∨ j' ≠ j) :
    setEntry h i j x i' j' = h i' j' := by
  unfold setEntry
  rw [if_neg (by omega)]

theorem orthLoop_succ (q : ℕ → V) (col m : ℕ) (w : V) (h : ℕ → ℕ → ℂ) :
    orthLoop q col (m + 1) w h =
      ((orthLoop q col m w h).1 + (-1 * (inner ℂ (q m) (orthLoop q col m w h).1 : ℂ)) • q m,
        setEntry (orthLoop q col m w h).2 m col (inner ℂ (q m) (orthLoop q col m w h).1)) := by
  unfold orthLoop
  rw [List.range_succ, List.foldl_append]
  rfl

/-- Only the first rows of the column are changed. -/
theorem orthLoop_other (q : ℕ → V) (col m : ℕ) (w : V) (h : ℕ → ℕ → ℂ) (i j : ℕ)
    (hij : m ≤ i ∨ j ≠ col) : (orthLoop q col m w h).2 i j = h i j := by
  induction m with
  | zero => rfl
  | succ m ih =>
    rw [orthLoop_succ]
    simp only
    rw [setEntry_ne _ _ (by omega), ih (by omega)]

/-- What is subtracted is what is stored. -/
theorem orthLoop_sum (q : ℕ → V) (col m : ℕ) (w : V) (h : ℕ → ℕ → ℂ) :
    w = (orthLoop q col m w h).1 +
      ∑ i ∈ Finset.range m, (orthLoop q col m w h).2 i col • q i := by
  induction m with
  | zero => simp [orthLoop]
  | succ m ih =>
    rw [orthLoop_succ, Finset.sum_range_succ]
    simp only
    rw [setEntry_self]
    have h1 : ∑ i ∈ Finset.range m, setEntry (orthLoop q col m w h).2 m col
        (inner ℂ (q m) (orthLoop q col m w h).1) i col • q i =
        ∑ i ∈ Finset.range m, (orthLoop q col m w h).2 i col • q i := by
      apply Finset.sum_congr rfl
      intro i hi
      rw [Finset.mem_range] at hi
      rw [setEntry_ne _ _ (by omega)]
    rw [h1]
    nth_rw 1 [ih]
    rw [neg_one_mul, neg_smul]
    abel

/-- The remainder is orthogonal. -/
theorem orthLoop_perp {q : ℕ → V} {l : ℕ} (O : Orth l q) (col m : ℕ) (hm : m ≤ l + 1) (w : V)
    (h : ℕ → ℕ → ℂ) : ∀ i < m, (inner ℂ (q i) (orthLoop q col m w h).1 : ℂ) = 0 := by
  induction m with
  | zero => intro i hi; omega
  | succ m ih =>
    intro i hi
    rw [orthLoop_succ]
    simp only
    rw [inner_add_right, inner_smul_right]
    by_cases hm' : i = m
    · subst hm'
      rw [O i i (by omega) (by omega), if_pos rfl]
      ring
    · rw [ih (by omega) i (by omega), O i m (by omega) (by omega), if_neg hm']
      ring

theorem underrun_pos : 0 < underrun := by
  unfold underrun
  positivity

/-- The recursion of the Arnoldi vectors `0 ... m`. -/
structure ARec (H : V →ₗ[ℂ] V) (ψ : V) (m : ℕ) (s : Ar V) : Prop where
  zero : s.q 0 = ψ
  step : ∀ j, j < m → H (s.q j) = ∑ i ∈ Finset.range (j + 2), s.h i j • s.q i
  hess : ∀ i j, j < m → j + 1 < i → s.h i j = 0
  sub : ∀ j, j < m → s.h (j + 1) j ≠ 0
  orth : ‖ψ‖ = 1 → Orth m s.q

/-- The next Arnoldi vector. -/
theorem ar_step {H : V →ₗ[ℂ] V} {ψ : V} {m : ℕ} {s : Ar V} (I : ARec H ψ m s)
    (hz : ∀ i j, m ≤ j → s.h i j = 0) {w : V} {h : ℕ → ℕ → ℂ}
    (hp : orthLoop s.q m (m + 1) (H (s.q m)) s.h = (w, h)) (hw : ‖w‖ ≠ 0) (o : ℕ) :
    ARec H ψ (m + 1) { q := Function.update s.q (m + 1) (((1 / ‖w‖ : ℝ) : ℂ) • w),
                       h := setEntry h (m + 1) m (‖w‖ : ℂ), order := o } ∧
      ∀ i j, m + 1 ≤ j → setEntry h (m + 1) m (‖w‖ : ℂ) i j = 0 := by
  have hw1 : (orthLoop s.q m (m + 1) (H (s.q m)) s.h).1 = w := by rw [hp]
  have hh : (orthLoop s.q m (m + 1) (H (s.q m)) s.h).2 = h := by rw [hp]
  have hoth : ∀ i j, (m + 1 ≤ i ∨ j ≠ m) → h i j = s.h i j := by
    intro i j hij
    rw [← hh]
    exact orthLoop_other _ _ _ _ _ _ _ hij
  have hbc : (‖w‖ : ℂ) ≠ 0 := by exact_mod_cast hw
  refine ⟨⟨?_, ?_, ?_, ?_, ?_⟩, ?_⟩
  · simp only
    rw [Function.update_of_ne (by omega)]
    exact I.zero
  · intro j hj
    simp only
    rw [Function.update_of_ne (by omega)]
    by_cases hjm : j = m
    · subst hjm
      rw [Finset.sum_range_succ, setEntry_self, Function.update_self, smul_smul]
      have h1 : ∑ i ∈ Finset.range (j + 1), setEntry h (j + 1) j (‖w‖ : ℂ) i j •
          Function.update s.q (j + 1) (((1 / ‖w‖ : ℝ) : ℂ) • w) i =
          ∑ i ∈ Finset.range (j + 1), h i j • s.q i := by
        apply Finset.sum_congr rfl
        intro i hi
        rw [Finset.mem_range] at hi
        rw [setEntry_ne _ _ (by omega), Function.update_of_ne (by omega)]
      rw [h1]
      have h2 : (‖w‖ : ℂ) * ((1 / ‖w‖ : ℝ) : ℂ) = 1 := by
        push_cast
        field_simp
      rw [h2, one_smul, add_comm]
      have h3 := orthLoop_sum s.q j (j + 1) (H (s.q j)) s.h
      rw [hw1, hh] at h3
      exact h3
    · rw [I.step j (by omega)]
      apply Finset.sum_congr rfl
      intro i hi
      rw [Finset.mem_range] at hi
      rw [setEntry_ne _ _ (by omega), Function.update_of_ne (by omega), hoth i j (by omega)]
  · intro i j hj hij
    simp only
    rw [setEntry_ne _ _ (by omega), hoth i j (by omega)]
    by_cases hjm : j = m
    · exact hz i j (by omega)
    · exact I.hess i j (by omega) hij
  · intro j hj
    simp only
    by_cases hjm : j = m
    · subst hjm
      rw [setEntry_self]
      exact hbc
    · rw [setEntry_ne _ _ (by omega), hoth _ _ (by omega)]
      exact I.sub j (by omega)
  · intro hψ
    have O := I.orth hψ
    have hperp : ∀ i < m + 1, (inner ℂ (s.q i) w : ℂ) = 0 := by
      have := orthLoop_perp O m (m + 1) (le_refl _) (H (s.q m)) s.h
      rw [hw1] at this
      exact this
    intro i j hi hj
    simp only
    by_cases h1 : i = m + 1
    · by_cases h2 : j = m + 1
      · subst h1; subst h2
        rw [Function.update_self, if_pos rfl]
        exact unit_vec hw
      · subst h1
        rw [Function.update_self, Function.update_of_ne h2, if_neg (fun h => h2 h.symm),
          inner_smul_left, ← inner_conj_symm, hperp j (by omega)]
        simp
    · by_cases h2 : j = m + 1
      · subst h2
        rw [Function.update_self, Function.update_of_ne h1, if_neg h1, inner_smul_right,
          hperp i (by omega)]
        simp
      · rw [Function.update_of_ne h1, Function.update_of_ne h2]
        exact O i j (by omega) (by omega)
  · intro i j hj
    rw [setEntry_ne _ _ (by omega), hoth i j (by omega), hz i j (by omega)]

/-- The loop after the first vector. -/
theorem ar_loop {H : V →ₗ[ℂ] V} {ψ : V} {dt psinorm conv : ℝ} :
    ∀ (k m : ℕ) (s : Ar V), ARec H ψ (m + 1) s → (∀ i j, m + 1 ≤ j → s.h i j = 0) →
      s.order = m + 2 →
      ∃ l, ARec H ψ (l + 1) (arLoop H dt psinorm conv k (m + 2) s) ∧
        (arLoop H dt psinorm conv k (m + 2) s).order = l + 2 ∧ m ≤ l ∧ l ≤ m + k ∧
        (conv ≤ 0 → l = m + k ∨ ∃ c : ℕ → ℂ,
          ‖H ((arLoop H dt psinorm conv k (m + 2) s).q (l + 1)) - ∑ i ∈ Finset.range (l + 2),
            c i • (arLoop H dt psinorm conv k (m + 2) s).q i‖ < underrun) := by
  intro k
  induction k with
  | zero =>
    intro m s I hz ho
    exact ⟨m, I, ho, le_refl _, by omega, fun _ => Or.inl rfl⟩
  | succ k ih =>
    intro m s I hz ho
    rw [arLoop]
    simp only [show m + 2 - 1 = m + 1 by omega]
    cases hp : orthLoop s.q (m + 1) (m + 2) (H (s.q (m + 1))) s.h with
    | mk w h =>
      simp only
      have hw1 : (orthLoop s.q (m + 1) (m + 2) (H (s.q (m + 1))) s.h).1 = w := by rw [hp]
      have hh : (orthLoop s.q (m + 1) (m + 2) (H (s.q (m + 1))) s.h).2 = h := by rw [hp]
      have hoth : ∀ i j, (m + 2 ≤ i ∨ j ≠ m + 1) → h i j = s.h i j := by
        intro i j hij
        rw [← hh]
        exact orthLoop_other _ _ _ _ _ _ _ hij
      by_cases hn : ‖w‖ < underrun
      · rw [if_pos hn]
        refine ⟨m, ⟨I.zero, ?_, ?_, ?_, I.orth⟩, ho, le_refl _, by omega, ?_⟩
        · intro j hj
          simp only
          rw [I.step j hj]
          apply Finset.sum_congr rfl
          intro i _
          rw [hoth i j (by omega)]
        · intro i j hj hij
          simp only
          rw [hoth i j (by omega)]
          exact I.hess i j hj hij
        · intro j hj
          simp only
          rw [hoth _ j (by omega)]
          exact I.sub j hj
        · intro _
          refine Or.inr ⟨fun i => h i (m + 1), ?_⟩
          have h3 := orthLoop_sum s.q (m + 1) (m + 2) (H (s.q (m + 1))) s.h
          rw [hw1, hh] at h3
          simp only
          conv_lhs => rw [h3, add_sub_cancel_right]
          exact hn
      · rw [if_neg hn]
        have hw : ‖w‖ ≠ 0 := by
          have := underrun_pos
          intro h0
          rw [h0] at hn
          exact hn this
        obtain ⟨I', hz'⟩ := ar_step I hz hp hw (m + 2 + 1)
        split
        · rename_i herr
          refine ⟨m + 1, I', rfl, by omega, by omega, ?_⟩
          intro hc
          exact absurd (lt_of_lt_of_le herr hc) (not_lt.2 (norm_nonneg _))
        · obtain ⟨l, h1, h2, h3, h4, h5⟩ := ih (m + 1) _ I' hz' rfl
          refine ⟨l, h1, h2, by omega, by omega, ?_⟩
          intro hc
          rcases h5 hc with h6 | h6
          · exact Or.inl (by omega)
          · exact Or.inr h6

/-- The basis and the matrix of `BuildLZB`, when there are at least two vectors. -/
structure ABuilt (H : V →ₗ[ℂ] V) (ψ : V) (m : ℕ) (s : Ar V) : Prop where
  zero : s.q 0 = ψ
  order : s.order = m + 1
  two : 1 ≤ m
  step : ∀ j, j < m → H (s.q j) = ∑ i ∈ Finset.range (j + 2), s.h i j • s.q i
  hess : ∀ i j, j < m → j + 1 < i → s.h i j = 0
  sub : ∀ j, j < m → s.h (j + 1) j ≠ 0
  last : ∀ i, i ≤ m → s.h i m = inner ℂ (s.q i) (H (s.q m))
  orth : ‖ψ‖ = 1 → Orth m s.q

/-- The last column. -/
theorem last_col (f : ℕ → ℂ) (col n : ℕ) (h : ℕ → ℕ → ℂ) (i j : ℕ) :
    (List.range n).foldl (fun h j => setEntry h j col (f j)) h i j =
      if i < n ∧ j = col then f i else h i j := by
  induction n with
  | zero => simp
  | succ n ih =>
    rw [List.range_succ, List.foldl_append]
    simp only [List.foldl_cons, List.foldl_nil]
    by_cases h1 : i = n ∧ j = col
    · obtain ⟨rfl, rfl⟩ := h1
      rw [setEntry_self, if_pos ⟨by omega, rfl⟩]
    · rw [setEntry_ne _ _ (by omega), ih]
      by_cases h2 : i < n ∧ j = col
      · rw [if_pos h2, if_pos ⟨by omega, h2.2⟩]
      · rw [if_neg h2, if_neg (by omega)]

/-- Without an underrun in the first step. -/
theorem ar_build {H : V →ₗ[ℂ] V} {maxorder : ℕ} (ho : 3 ≤ maxorder) {dt conv : ℝ} {stale : ℕ → V}
    {order0 : ℕ} {ψ : V} (hres : underrun ≤ ‖H ψ - (inner ℂ ψ (H ψ) : ℂ) • ψ‖) :
    ∃ m, ABuilt H ψ m (arBuild H maxorder dt conv stale order0 ψ) ∧ m + 1 ≤ maxorder ∧
      (conv ≤ 0 → m + 1 = maxorder ∨ ∃ c : ℕ → ℂ,
        ‖H ((arBuild H maxorder dt conv stale order0 ψ).q m) - ∑ i ∈ Finset.range (m + 1),
            c i • (arBuild H maxorder dt conv stale order0 ψ).q i‖ < underrun) := by
  -- the first step
  have I0 : ARec H ψ 0 { q := Function.update stale 0 ψ, h := (fun _ _ => 0), order := order0 } := by
    refine ⟨by simp only [Function.update_self], fun j hj => absurd hj (by omega),
      fun i j hj => absurd hj (by omega), fun j hj => absurd hj (by omega), ?_⟩
    intro hψ i j hi hj
    obtain rfl : i = 0 := by omega
    obtain rfl : j = 0 := by omega
    simp only
    rw [Function.update_self, inner_self_eq_norm_sq_to_K, hψ]
    simp
  have key : ∃ l, ARec H ψ (l + 1) (arLoop H dt ‖ψ‖ conv (maxorder - 1) 1
        { q := Function.update stale 0 ψ, h := (fun _ _ => 0), order := order0 }) ∧
      (arLoop H dt ‖ψ‖ conv (maxorder - 1) 1
        { q := Function.update stale 0 ψ, h := (fun _ _ => 0), order := order0 }).order = l + 2 ∧
      l + 2 ≤ maxorder ∧ (conv ≤ 0 → l + 2 = maxorder ∨ ∃ c : ℕ → ℂ,
          ‖H ((arLoop H dt ‖ψ‖ conv (maxorder - 1) 1
            { q := Function.update stale 0 ψ, h := (fun _ _ => 0), order := order0 }).q (l + 1)) -
            ∑ i ∈ Finset.range (l + 2), c i • (arLoop H dt ‖ψ‖ conv (maxorder - 1) 1
            { q := Function.update stale 0 ψ, h := (fun _ _ => 0), order := order0 }).q i‖ <
              underrun) := by
    obtain ⟨k, rfl⟩ : ∃ k, maxorder = k + 2 := ⟨maxorder - 2, by omega⟩
    rw [show k + 2 - 1 = k + 1 by omega, arLoop]
    simp only [show 1 - 1 = 0 by omega]
    have hw0 : (orthLoop (Function.update stale 0 ψ) 0 1 (H (Function.update stale 0 ψ 0))
        (fun _ _ => 0)).1 = H ψ - (inner ℂ ψ (H ψ) : ℂ) • ψ := by
      rw [orthLoop_succ]
      simp only [orthLoop, List.range_zero, List.foldl_nil, Function.update_self]
      rw [neg_one_mul, neg_smul, sub_eq_add_neg]
    rw [← hw0] at hres
    cases hp : orthLoop (Function.update stale 0 ψ) 0 1 (H (Function.update stale 0 ψ 0))
        (fun _ _ => 0) with
    | mk w h =>
      rw [hp] at hres
      simp only at hres ⊢
      rw [if_neg (not_lt.2 hres)]
      have hw : ‖w‖ ≠ 0 := by
        have := underrun_pos
        intro h0
        rw [h0] at hres
        exact absurd (lt_of_lt_of_le this hres) (lt_irrefl _)
      obtain ⟨I', hz'⟩ := ar_step I0 (fun _ _ _ => rfl) hp hw 2
      split
      · rename_i herr
        refine ⟨0, I', rfl, by omega, ?_⟩
        intro hc
        exact absurd (lt_of_lt_of_le herr hc) (not_lt.2 (norm_nonneg _))
      · obtain ⟨l, h1, h2, h3, h4, h5⟩ := ar_loop (conv := conv) (dt := dt) (psinorm := ‖ψ‖) k 0 _
          I' hz' rfl
        refine ⟨l, h1, h2, by omega, ?_⟩
        intro hc
        rcases h5 hc with h6 | h6
        · exact Or.inl (by omega)
        · exact Or.inr h6
  obtain ⟨l, h1, h2, h3, h4⟩ := key
  unfold arBuild
  simp only
  set s := arLoop H dt ‖ψ‖ conv (maxorder - 1) 1
    { q := Function.update stale 0 ψ, h := (fun _ _ => 0), order := order0 } with hs
  rw [h2]
  simp only [show l + 2 - 1 = l + 1 by omega]
  have hcol : ∀ i j, (List.range (l + 2)).foldl (fun h j => setEntry h j (l + 1)
      (inner ℂ (s.q j) (H (s.q (l + 1))) : ℂ)) s.h i j =
      if i < l + 2 ∧ j = l + 1 then (inner ℂ (s.q i) (H (s.q (l + 1))) : ℂ) else s.h i j :=
    last_col _ _ _ _
  refine ⟨l + 1, ⟨h1.zero, rfl, by omega, ?_, ?_, ?_, ?_, h1.orth⟩, h3, h4⟩
  · intro j hj
    simp only
    rw [h1.step j hj]
    apply Finset.sum_congr rfl
    intro i _
    rw [hcol, if_neg (by omega)]
  · intro i j hj hij
    simp only
    rw [hcol, if_neg (by omega)]
    exact h1.hess i j hj hij
  · intro j hj
    simp only
    rw [hcol, if_neg (by omega)]
    exact h1.sub j hj
  · intro i hi
    simp only
    rw [hcol, if_pos ⟨by omega, rfl⟩]

/-- With an underrun in the first step the old order stays. -/
theorem ar_build_eigen {H : V →ₗ[ℂ] V} {maxorder : ℕ} (ho : 3 ≤ maxorder) {dt conv : ℝ}
    {stale : ℕ → V} {order0 : ℕ} (h0 : 2 ≤ order0) {ψ : V}
    (hres : ‖H ψ - (inner ℂ ψ (H ψ) : ℂ) • ψ‖ < underrun) :
    (arBuild H maxorder dt conv stale order0 ψ).q 0 = ψ ∧
      (arBuild H maxorder dt conv stale order0 ψ).order = order0 ∧
      (arBuild H maxorder dt conv stale order0 ψ).h 0 0 = inner ℂ ψ (H ψ) ∧
      ∀ i, i ≠ 0 → (arBuild H maxorder dt conv stale order0 ψ).h i 0 = 0 := by
  have hw0 : orthLoop (Function.update stale 0 ψ) 0 1 (H ψ) (fun _ _ => 0) =
      (H ψ - (inner ℂ ψ (H ψ) : ℂ) • ψ, setEntry (fun _ _ => 0) 0 0 (inner ℂ ψ (H ψ) : ℂ)) := by
    rw [orthLoop_succ]
    simp only [orthLoop, List.range_zero, List.foldl_nil, Function.update_self]
    rw [neg_one_mul, neg_smul, sub_eq_add_neg]
  obtain ⟨k, rfl⟩ : ∃ k, maxorder = k + 2 := ⟨maxorder - 2, by omega⟩
  have hl : arLoop H dt ‖ψ‖ conv (k + 2 - 1) 1
      { q := Function.update stale 0 ψ, h := (fun _ _ => 0), order := order0 } =
      { q := Function.update stale 0 ψ, h := setEntry (fun _ _ => 0) 0 0 (inner ℂ ψ (H ψ) : ℂ),
        order := order0 } := by
    rw [show k + 2 - 1 = k + 1 by omega, arLoop]
    simp only [show 1 - 1 = 0 by omega, Function.update_self, hw0]
    rw [if_pos hres]
  unfold arBuild
  simp only [hl]
  refine ⟨Function.update_self _ _ _, trivial, ?_, ?_⟩
  · rw [last_col, if_neg (by omega), setEntry_self]
  · intro i hi
    rw [last_col, if_neg (by omega), setEntry_ne _ _ (Or.inl hi)]

theorem haMat_kry {H : V →ₗ[ℂ] V} {ψ : V} {m : ℕ} {s : Ar V} (B : ABuilt H ψ m s) :
    Kry H s.q (m + 1) (m + 1) (haMat (m + 1) s.h) := by
  refine ⟨?_, ?_, ?_⟩
  · intro i j h
    exact B.hess i j (by omega) h
  · intro i j h1 h2
    omega
  · intro j hj
    rw [B.step j (by omega)]
    have h1 : ∑ i ∈ Finset.range (j.val + 2), s.h i j • s.q i =
        ∑ i ∈ Finset.range (m + 1), s.h i j • s.q i := by
      apply Finset.sum_subset
      · intro i hi
        rw [Finset.mem_range] at *
        omega
      · intro i hi hi'
        rw [Finset.mem_range] at *
        rw [B.hess i j (by omega) (by omega), zero_smul]
    rw [h1, Finset.sum_range]
    rfl

/-- The small matrix is the Hamiltonian between the Arnoldi vectors. -/
theorem ABuilt.proj {H : V →ₗ[ℂ] V} {ψ : V} (hψ : ‖ψ‖ = 1) {m : ℕ} {s : Ar V} (B : ABuilt H ψ m s)
    (i j : Fin (m + 1)) : haMat (m + 1) s.h i j = inner ℂ (s.q i) (H (s.q j)) := by
  have O := B.orth hψ
  by_cases hj : j.val < m
  · rw [(haMat_kry B).col j (by omega), inner_sum, Finset.sum_eq_single i]
    · rw [inner_smul_right, O i i (by omega) (by omega), if_pos rfl, mul_one]
    · intro l _ hl
      rw [inner_smul_right, O i l (by omega) (by omega), if_neg (fun h => hl (Fin.ext h.symm)),
        mul_zero]
    · simp
  · have hjm : j.val = m := by omega
    simp only [haMat]
    rw [hjm]
    exact B.last i (by omega)

/-- The Arnoldi vectors lie in the Krylov spaces. -/
theorem ABuilt.q_mem {H : V →ₗ[ℂ] V} {ψ : V} {m : ℕ} {s : Ar V}
    (B : ABuilt H ψ m s) : ∀ j, j ≤ m → s.q j ∈ KS H ψ (j + 1) := by
  intro j
  induction j using Nat.strong_induction_on with
  | _ j ih =>
    intro hj
    cases j with
    | zero =>
      rw [B.zero]
      simpa using pow_mem_KS H ψ (n := 1) (k := 0) (by omega)
    | succ j =>
      have hbc := B.sub j (by omega)
      have hs := B.step j (by omega)
      rw [Finset.sum_range_succ] at hs
      have hq : s.q (j + 1) = (s.h (j + 1) j)⁻¹ • (H (s.q j) -
          ∑ i ∈ Finset.range (j + 1), s.h i j • s.q i) := by
        rw [hs, eq_inv_smul_iff₀ hbc]
        abel
      rw [hq]
      apply Submodule.smul_mem
      refine Submodule.sub_mem _ (map_KS H ψ (ih j (by omega) (by omega))) ?_
      apply Submodule.sum_mem
      intro i hi
      rw [Finset.mem_range] at hi
      exact Submodule.smul_mem _ _ (KS_mono H ψ (by omega) (ih i (by omega) (by omega)))

/-- The Krylov vectors lie in the space of the Arnoldi vectors. -/
theorem ABuilt.pow_mem {H : V →ₗ[ℂ] V} {ψ : V} {m : ℕ} {s : Ar V}
    (B : ABuilt H ψ m s) (k : ℕ) (hk : k ≤ m) : (H ^ k) ψ ∈ QS s.q (m + 1) := by
  let z : Fin (m + 1) := ⟨0, by omega⟩
  rw [← B.zero, ← (haMat_kry B).moment (z := z) rfl k (by omega)]
  apply Submodule.sum_mem
  intro i _
  exact Submodule.smul_mem _ _ (q_mem_QS _ i.isLt)

theorem arCoef_some {L : GenDiag} {n : ℕ} {h : ℕ → ℕ → ℂ} {tau : ℂ} {c : Fin n → ℂ}
    (hc : arCoef L n h tau = some c) :
    L.evec n (haMat n h) * (L.evec n (haMat n h))⁻¹ = 1 ∧
    ∀ z : Fin n, z.val = 0 → ∀ i, c i = ∑ j, L.evec n (haMat n h) i j *
      ((L.evec n (haMat n h))⁻¹ j z * (fun x => Complex.exp (x * tau)) (L.eval n (haMat n h) j)) := by
  unfold arCoef at hc
  simp only at hc
  split at hc
  · rename_i hu
    obtain rfl := Option.some.inj hc
    refine ⟨Matrix.mul_nonsing_inv _ hu, ?_⟩
    intro z hz i
    simp only [Matrix.mulVec, dotProduct]
    apply Finset.sum_congr rfl
    intro j _
    congr 2
    rw [Finset.sum_eq_single z]
    · rw [if_pos hz, mul_one]
    · intro l _ hl
      rw [if_neg (fun h => hl (Fin.ext (by omega))), mul_zero]
    · simp
  · cases hc

/-- The coefficients, from a decomposition of the first unit vector in eigenvectors of the matrix. -/
theorem arCoef_decomp {L : GenDiag} {n : ℕ} {h : ℕ → ℕ → ℂ} {tau : ℂ} {c : Fin n → ℂ}
    (hc : arCoef L n h tau = some c) (z : Fin n) (hz : z.val = 0)
    (m : ℕ) (l : Fin m → ℂ) (v : Fin m → Fin n → ℂ)
    (hv : ∀ k, (haMat n h).mulVec (v k) = l k • v k)
    (hsum : ∀ j, ∑ k, v k j = if j = z then 1 else 0) (i : Fin n) :
    c i = ∑ k, Complex.exp (l k * tau) * v k i := by
  obtain ⟨hZ, hcz⟩ := arCoef_some hc
  rw [hcz z hz i]
  have h1 : ∀ k, ∑ j, L.evec n (haMat n h) i j * ((L.evec n (haMat n h))⁻¹.mulVec (v k) j *
      (fun x => Complex.exp (x * tau)) (L.eval n (haMat n h) j)) = Complex.exp (l k * tau) * v k i :=
    fun k => coef_eigen (L.eigen n (haMat n h)) hZ (fun x => Complex.exp (x * tau)) (hv k) i
  simp only [← h1]
  rw [Finset.sum_comm]
  apply Finset.sum_congr rfl
  intro j _
  rw [← Finset.mul_sum, ← Finset.sum_mul]
  congr 2
  simp only [Matrix.mulVec, dotProduct]
  rw [Finset.sum_comm]
  simp only [← Finset.mul_sum, hsum]
  simp

/-- A quadratic form of the coefficients in a basis of orthonormal eigenvectors. -/
theorem herm_form {n : ℕ} {U M : Matrix (Fin n) (Fin n) ℂ} {lam : Fin n → ℝ} {f : Fin n → ℂ}
    (hU : U.conjTranspose * U = 1) (hM : M * U = U * Matrix.diagonal f) {tau : ℂ} (ht : tau.re = 0)
    (z : Fin n) :
    dotProduct (star (U.mulVec fun j => (starRingEnd ℂ) (U z j) * Complex.exp ((lam j : ℂ) * tau)))
      (M.mulVec (U.mulVec fun j => (starRingEnd ℂ) (U z j) * Complex.exp ((lam j : ℂ) * tau))) =
      M z z := by
  have hU' : U * U.conjTranspose = 1 := mul_eq_one_comm.1 hU
  rw [unitary_form M (Matrix.diagonal f) (by rw [hM, ← Matrix.mul_assoc, hU, Matrix.one_mul])]
  have h1 : M z z = ∑ j, U z j * (starRingEnd ℂ) (U z j) * f j := by
    have h2 : M = U * Matrix.diagonal f * U.conjTranspose := by
      rw [← hM, Matrix.mul_assoc, hU', Matrix.mul_one]
    conv_lhs => rw [h2]
    rw [Matrix.mul_apply]
    apply Finset.sum_congr rfl
    intro j _
    rw [Matrix.mul_diagonal, Matrix.conjTranspose_apply]
    simp only [Complex.star_def]
    ring
  rw [h1]
  simp only [dotProduct, Matrix.mulVec_diagonal, Pi.star_apply]
  apply Finset.sum_congr rfl
  intro j _
  rw [star_mul', Complex.star_def, Complex.conj_conj]
  have := exp_unit (x := lam j) ht
  linear_combination U z j * (starRingEnd ℂ) (U z j) * f j * this

/-- The coefficients do not depend on the choice of the eigenvectors. -/
theorem arCoef_unitary {L : GenDiag} {n : ℕ} {h : ℕ → ℕ → ℂ} {tau : ℂ} {c : Fin n → ℂ}
    (hc : arCoef L n h tau = some c) {U : Matrix (Fin n) (Fin n) ℂ} {lam : Fin n → ℂ}
    (hU : U * U.conjTranspose = 1) (hTU : haMat n h * U = U * Matrix.diagonal lam) (z : Fin n)
    (hz : z.val = 0) :
    c = U.mulVec fun j => (starRingEnd ℂ) (U z j) * Complex.exp (lam j * tau) := by
  obtain ⟨hZ, hcz⟩ := arCoef_some hc
  funext i
  rw [hcz z hz i]
  have h1 : ∀ k, ∑ j, L.evec n (haMat n h) i j * ((L.evec n (haMat n h))⁻¹.mulVec (fun l => U l k) j *
      (fun x => Complex.exp (x * tau)) (L.eval n (haMat n h) j)) =
      Complex.exp (lam k * tau) * U i k := by
    intro k
    refine coef_eigen (L.eigen n (haMat n h)) hZ (fun x => Complex.exp (x * tau)) ?_ i
    funext l
    have := congrFun (congrFun hTU l) k
    rw [Matrix.mul_diagonal, Matrix.mul_apply] at this
    simp only [Matrix.mulVec, dotProduct, Pi.smul_apply, smul_eq_mul]
    rw [this, mul_comm]
  simp only [Matrix.mulVec, dotProduct]
  have h2 : ∀ k, U i k * ((starRingEnd ℂ) (U z k) * Complex.exp (lam k * tau)) =
      ∑ j, (starRingEnd ℂ) (U z k) * (L.evec n (haMat n h) i j *
        ((L.evec n (haMat n h))⁻¹.mulVec (fun l => U l k) j *
          (fun x => Complex.exp (x * tau)) (L.eval n (haMat n h) j))) := by
    intro k
    rw [← Finset.mul_sum, h1]
    ring
  simp only [h2]
  rw [Finset.sum_comm]
  apply Finset.sum_congr rfl
  intro j _
  have h3 : (L.evec n (haMat n h))⁻¹ j z =
      ∑ k, (starRingEnd ℂ) (U z k) * (L.evec n (haMat n h))⁻¹.mulVec (fun l => U l k) j := by
    simp only [Matrix.mulVec, dotProduct, Finset.mul_sum]
    rw [Finset.sum_comm]
    rw [Finset.sum_eq_single z]
    · have h4 := congrFun (congrFun hU z) z
      rw [Matrix.mul_apply, Matrix.one_apply_eq] at h4
      simp only [Matrix.conjTranspose_apply, Complex.star_def] at h4
      calc (L.evec n (haMat n h))⁻¹ j z = (L.evec n (haMat n h))⁻¹ j z *
            ∑ k, U z k * (starRingEnd ℂ) (U z k) := by rw [h4, mul_one]
        _ = _ := by
          rw [Finset.mul_sum]
          apply Finset.sum_congr rfl
          intro k _
          ring
    · intro l _ hl
      have h4 := congrFun (congrFun hU l) z
      rw [Matrix.mul_apply, Matrix.one_apply_ne hl] at h4
      simp only [Matrix.conjTranspose_apply, Complex.star_def] at h4
      calc _ = (L.evec n (haMat n h))⁻¹ j l * ∑ k, U l k * (starRingEnd ℂ) (U z k) := by
            rw [Finset.mul_sum]
            apply Finset.sum_congr rfl
            intro k _
            ring
        _ = 0 := by rw [h4, mul_zero]
    · simp
  rw [h3]
  rw [Finset.sum_mul, Finset.mul_sum]
  apply Finset.sum_congr rfl
  intro k _
  ring

end QDng.Krylov
