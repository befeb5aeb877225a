import Verif.Oct.PropsMore

/-
When the optimal control program stops; the feedback method; the shape.
-/

namespace QDng.Oct

open Spec

noncomputable section

variable {V : Type} [NormedAddCommGroup V] [InnerProductSpace ℂ V]

/-! ### When it stops -/

/-- The value the criterion uses: the sum of the last two changes. -/
def change (x y z : ℝ) : ℝ := |x - y| + |y - z|

theorem report_yield_nonneg (c : Setup V) (st : St V) (wt : Nat → V) : 0 ≤ (report c st wt).yield := norm_nonneg _

/-- The main loop, by the list of the three start values and the yields. -/
theorem mainLoop_stops (c : Setup V) (psiI psiT : Nat → V) (k : Nat) (first : Bool) (delta : ℝ) (d : ℝ × ℝ × ℝ)
    (st : St V) :
    let r := mainLoop c psiI psiT k first delta d st
    let ys := d.1 :: d.2.1 :: d.2.2 :: r.1.map Line.yield
    r.1.length ≤ k ∧
    (r.1 = [] → r.2.2 = delta ∧ (0 < k → delta ≤ c.convergence)) ∧
    ∀ j, j < r.1.length → ∃ x y z, ys[j + 1]? = some x ∧ ys[j + 2]? = some y ∧ ys[j + 3]? = some z ∧
      (j + 1 < r.1.length ↔ j + 1 < k ∧ c.convergence < change x y z) ∧
      (j + 1 = r.1.length → r.2.2 = change x y z) := by
  induction k generalizing first delta d st with
  | zero => exact ⟨le_rfl, fun _ => ⟨rfl, fun h => absurd h (lt_irrefl 0)⟩, fun j hj => absurd hj (Nat.not_lt_zero j)⟩
  | succ k ih =>
    unfold mainLoop
    by_cases hd : delta > c.convergence
    · rw [if_pos hd]
      obtain ⟨st', hst'⟩ : ∃ st', st' = iteration c psiI psiT first st := ⟨_, rfl⟩
      obtain ⟨y, hy⟩ : ∃ y, y = (report c st' st'.phit).yield := ⟨_, rfl⟩
      have hy0 : 0 ≤ y := by rw [hy]; exact report_yield_nonneg c st' st'.phit
      obtain ⟨e, he⟩ : ∃ e, e = change d.2.1 d.2.2 y := ⟨_, rfl⟩
      have hde : abs (0 + abs (d.2.1 - d.2.2) + abs (d.2.2 - abs (report c st' st'.phit).yield)) = e := by
        rw [he, ← hy, abs_of_nonneg hy0, zero_add]
        exact abs_of_nonneg (add_nonneg (abs_nonneg _) (abs_nonneg _))
      have hih := ih false e (d.2.1, d.2.2, y) { st' with lf := st'.lb, lb := st'.lf }
      simp only [← hst']
      rw [hde, ← hy, abs_of_nonneg hy0]
      obtain ⟨r, hr⟩ : ∃ r, r = mainLoop c psiI psiT k false e (d.2.1, d.2.2, y) { st' with lf := st'.lb, lb := st'.lf } :=
        ⟨_, rfl⟩
      rw [← hr] at hih ⊢
      obtain ⟨h1, h2, h3⟩ := hih
      simp only [List.length_cons, List.map_cons, ← hy] at h1 h2 h3 ⊢
      refine ⟨by omega, fun h => absurd h (List.cons_ne_nil _ _), fun j hj => ?_⟩
      cases j with
      | zero =>
        refine ⟨d.2.1, d.2.2, y, rfl, rfl, rfl, ?_, fun h => ?_⟩
        · rw [← he]
          constructor
          · intro h
            have hpos : 0 < r.1.length := by omega
            have hk : 0 < k := by omega
            refine ⟨by omega, ?_⟩
            by_contra hc
            have : r.1 = [] := by
              rw [hr]
              cases k with
              | zero => rfl
              | succ k => unfold mainLoop; rw [if_neg (by linarith)]
            rw [this] at hpos
            exact absurd hpos (lt_irrefl 0)
          · rintro ⟨hk, hc⟩
            by_contra hn
            have h0 : r.1 = [] := List.length_eq_zero_iff.1 (by omega)
            have := (h2 h0).2 (by omega)
            linarith
        · rw [← he]
          exact (h2 (List.length_eq_zero_iff.1 (by omega))).1
      | succ j =>
        obtain ⟨x, y', z, a1, a2, a3, a4, a5⟩ := h3 j (by omega)
        refine ⟨x, y', z, a1, a2, a3, ?_, fun h => a5 (by omega)⟩
        constructor
        · intro h
          have := a4.1 (by omega)
          exact ⟨by omega, this.2⟩
        · rintro ⟨hk, hc⟩
          have := a4.2 ⟨by omega, hc⟩
          omega
    · rw [if_neg hd]
      exact ⟨Nat.zero_le _, fun _ => ⟨rfl, fun _ => not_lt.1 hd⟩, fun j hj => absurd hj (Nat.not_lt_zero j)⟩

/-- C128: there are at most as many lines as iterations asked for; from the third iteration on, the program goes on
exactly when iterations are left and the sum of the last two changes of the yield is above the criterion, and it says
that convergence is reached exactly if the sum behind the last line is not.  (Partial: for the first two iterations see
`C128_early_violated`.) -/
theorem C128_stops_partial (c : Setup V) (psiI psiT : Nat → V) (series : Nat → Nat → V) (guess : Fields) (buf0 : Buf V) :
    let r := run c psiI psiT series guess buf0
    r.lines.length ≤ c.iterations ∧
    ∀ i x y z, r.lines[i]? = some x → r.lines[i + 1]? = some y → r.lines[i + 2]? = some z →
      (i + 3 < r.lines.length ↔
        i + 3 < c.iterations ∧ c.convergence < |x.yield - y.yield| + |y.yield - z.yield|) ∧
      (i + 3 = r.lines.length → (r.converged = true ↔ |x.yield - y.yield| + |y.yield - z.yield| ≤ c.convergence)) := by
  intro r
  have h := mainLoop_stops c psiI (targets c psiT series) c.iterations true 1 (1, 1, 1)
    (start c psiI psiT series guess buf0).2
  refine ⟨h.1, fun i x y z hx hy hz => ?_⟩
  have hlen : i + 2 < r.lines.length := (List.getElem?_eq_some_iff.1 hz).1
  obtain ⟨x', y', z', a1, a2, a3, a4, a5⟩ := h.2.2 (i + 2) hlen
  have b1 : x' = x.yield := by
    have : (r.lines.map Line.yield)[i]? = some x' := a1
    rw [List.getElem?_map, hx] at this
    exact (Option.some.inj this).symm
  have b2 : y' = y.yield := by
    have : (r.lines.map Line.yield)[i + 1]? = some y' := a2
    rw [List.getElem?_map, hy] at this
    exact (Option.some.inj this).symm
  have b3 : z' = z.yield := by
    have : (r.lines.map Line.yield)[i + 2]? = some z' := a3
    rw [List.getElem?_map, hz] at this
    exact (Option.some.inj this).symm
  subst b1 b2 b3
  refine ⟨a4, fun hl => ?_⟩
  show decide (_ ≤ _) = true ↔ _
  rw [decide_eq_true_iff, a5 hl]
  rfl

/-- C128: behind the first iteration the criterion compares the yield with the number one, whatever the yield of the
guess was: a run with a yield close to one there (of several targets, whose yields are summed) stops and says that
convergence is reached. -/
theorem C128_first (c : Setup V) (psiI psiT : Nat → V) (series : Nat → Nat → V) (guess : Fields) (buf0 : Buf V)
    (a : Line V) (ha : (run c psiI psiT series guess buf0).lines[0]? = some a)
    (h1 : |1 - a.yield| ≤ c.convergence) :
    (run c psiI psiT series guess buf0).lines.length = 1 ∧ (run c psiI psiT series guess buf0).converged = true := by
  have h := mainLoop_stops c psiI (targets c psiT series) c.iterations true 1 (1, 1, 1)
    (start c psiI psiT series guess buf0).2
  have hlen : 0 < (run c psiI psiT series guess buf0).lines.length := (List.getElem?_eq_some_iff.1 ha).1
  obtain ⟨x, y, z, a1, a2, a3, a4, a5⟩ := h.2.2 0 hlen
  have b1 : x = 1 := (Option.some.inj a1).symm
  have b2 : y = 1 := (Option.some.inj a2).symm
  have b3 : z = a.yield := by
    have : ((run c psiI psiT series guess buf0).lines.map Line.yield)[0]? = some z := a3
    rw [List.getElem?_map, ha] at this
    exact (Option.some.inj this).symm
  subst b1 b2 b3
  have hc : change 1 1 a.yield ≤ c.convergence := by
    unfold change
    rw [sub_self, abs_zero, zero_add]
    exact h1
  have h2 : ¬ 0 + 1 < (run c psiI psiT series guess buf0).lines.length := fun hh =>
    absurd (a4.1 hh).2 (not_lt.2 hc)
  have h3 : 0 + 1 = (run c psiI psiT series guess buf0).lines.length := by omega
  refine ⟨h3.symm, ?_⟩
  show decide (_ ≤ _) = true
  rw [decide_eq_true_iff]
  exact (a5 h3).trans_le hc

/-! ### The feedback method -/

theorem evolve_method (c : Setup V) (m : Method) (f : Fields) (x : V) (n : Nat) :
    evolve { c with method := m } f x n = evolve c f x n := by
  induction n with
  | zero => rfl
  | succ n ih =>
    rw [evolve_succ, evolve_succ, ih]
    rfl

theorem calcCorr_method (c : Setup V) (m : Method) (wi wt : Nat → V) :
    calcCorr { c with method := m } wi wt = calcCorr c wi wt := by
  unfold calcCorr
  rw [corrLoop_eq, corrLoop_eq]

/-- The iterations of the feedback method and of the method rabitz find the same field. -/
theorem feedback_same (c : Setup V) (hm : c.method = .rabitz) (hmv : c.moving = false) (ho : c.operators = false)
    (hs : 0 < c.steps) (psiI psiT : Nat → V) (k : Nat) (first : Bool) (delta : ℝ) (d : ℝ × ℝ × ℝ) (st st' : St V)
    (hlb : st.lb = st'.lb) (hlf : ∀ l s, c.steps ≤ s → st.lf l s = st'.lf l s)
    (hb' : Before { c with method := .rabitzfb } psiI psiT first st') :
    let r := mainLoop c psiI psiT k first delta d st
    let r' := mainLoop { c with method := .rabitzfb } psiI psiT k first delta d st'
    r.1.map (fun a => (a.fields, a.phii, a.yield)) = r'.1.map (fun a => (a.fields, a.phii, a.yield)) ∧
      r.2.1.lb = r'.2.1.lb ∧ r.2.2 = r'.2.2 := by
  induction k generalizing first delta d st st' with
  | zero => exact ⟨rfl, hlb, rfl⟩
  | succ k ih =>
    have hb : Before c psiI psiT first st :=
      ⟨fun h => absurd (hm.symm.trans h) (by decide), fun h => absurd (hm.symm.trans h) (by decide)⟩
    obtain ⟨hA, _⟩ := iteration_spec c psiI psiT first st hs hb
    obtain ⟨hA', hB'⟩ := iteration_spec { c with method := .rabitzfb } psiI psiT first st' hs hb'
    unfold mainLoop
    by_cases hd : delta > c.convergence
    · rw [if_pos hd, if_pos (show delta > ({ c with method := .rabitzfb } : Setup V).convergence from hd)]
      obtain ⟨S, hS⟩ : ∃ S, S = iteration c psiI psiT first st := ⟨_, rfl⟩
      obtain ⟨S', hS'⟩ : ∃ S', S' = iteration { c with method := .rabitzfb } psiI psiT first st' := ⟨_, rfl⟩
      simp only [← hS, ← hS']
      rw [← hS] at hA
      rw [← hS'] at hA' hB'
      obtain ⟨chi, b1, f1, _⟩ := hA.work (.inl hmv)
      obtain ⟨chi', b2, f2, _⟩ := hA'.work (.inr rfl)
      have l1 : lastOf c psiI psiT st.lb = psiT := by unfold lastOf; rw [ho]; rfl
      have l2 : lastOf { c with method := .rabitzfb } psiI psiT st'.lb = psiT := by
        unfold lastOf
        rw [if_neg (show ¬ ({ c with method := .rabitzfb } : Setup V).operators = true by
          show ¬ c.operators = true; rw [ho]; decide)]
      rw [l1] at b1
      rw [l2, ← hlb] at b2
      rw [← hlb] at f2
      have b2' : Back c st.lb psiT chi' := ⟨b2.last, b2.step⟩
      have f2' : Forth c st.lb psiI chi' st.lf S'.lf S'.phii := by
        refine ⟨fun t => ?_, fun l s hsl => ?_, fun l s hsl => ?_⟩
        · rw [f2.phii t, evolve_method]
        · rw [f2.field l s hsl]
          unfold newField
          rw [hm]
          show -1 * c.shape s / (c.alpha * c.ntargets) * _ = -1 * c.shape s / (c.alpha * c.ntargets) * _
          rw [calcCorr_method]
          congr 1
          exact calcCorr_congr c (fun t => evolve_method c .rabitzfb _ _ _) fun _ => rfl
        · rw [f2.rest l s hsl, hlf l s hsl]
      obtain ⟨e1, e2⟩ := f1.unique f2' fun t s hsl => b1.unique b2' t s (by omega)
      have e3 : S.phit = S'.phit := by
        funext t
        rw [hA.phit ho t, hA'.phit ho t]
      have ey : (report c S S.phit).yield = (report { c with method := .rabitzfb } S' S'.phit).yield := by
        rw [report_yield, report_yield, e2, e3]
        rfl
      have hlb2 : S.lb = S'.lb := by rw [hA.lb, hA'.lb, hlb]
      have hih := ih false
        (abs (0 + abs (d.2.1 - d.2.2) + abs (d.2.2 - abs (report c S S.phit).yield)))
        (d.2.1, d.2.2, abs (report c S S.phit).yield) { S with lf := S.lb, lb := S.lf }
        { S' with lf := S'.lb, lb := S'.lf } e1 (fun l s _ => congrFun (congrFun hlb2 l) s) (hB' _ rfl rfl)
      rw [← ey]
      refine ⟨?_, hih.2⟩
      rw [List.map_cons, List.map_cons, hih.1]
      congr 1
      show (S.lf, S.phii, _) = (S'.lf, S'.phii, _)
      rw [e1, e2, ey]
    · rw [if_neg hd, if_neg (show ¬ delta > ({ c with method := .rabitzfb } : Setup V).convergence from hd)]
      exact ⟨rfl, hlb, rfl⟩

/-- C129: the backward propagation of the feedback method is to use the field it has just found ("Propagate Target
Backward with new field").  It uses the old one: for targets that are wave functions every run of rabitzfb has the same
fields and yields as the run of rabitz, the feedback has no effect. -/
theorem C129_feedback_violated (c : Setup V) (hm : c.method = .rabitz) (hmv : c.moving = false) (ho : c.operators = false)
    (hs : 0 < c.steps) (psiI psiT : Nat → V) (series : Nat → Nat → V) (guess : Fields) (buf0 : Buf V) :
    let r := run c psiI psiT series guess buf0
    let r' := run { c with method := .rabitzfb } psiI psiT series guess buf0
    r.lines.map (fun a => (a.fields, a.phii, a.yield)) = r'.lines.map (fun a => (a.fields, a.phii, a.yield)) ∧
      r.final = r'.final ∧ r.converged = r'.converged := by
  intro r r'
  have h1 := start_fields c psiI psiT series guess buf0
  have h2 := start_fields { c with method := .rabitzfb } psiI psiT series guess buf0
  have h := feedback_same c hm hmv ho hs psiI (targets c psiT series) c.iterations true 1 (1, 1, 1)
    (start c psiI psiT series guess buf0).2 (start { c with method := .rabitzfb } psiI psiT series guess buf0).2
    (h1.1.trans h2.1.symm) (fun l s _ => by rw [h1.2.1, h2.2.1])
    ⟨fun _ h => absurd h (by decide), fun _ h => absurd h (by decide)⟩
  refine ⟨h.1, congrFun h.2.1 0, ?_⟩
  show decide (_ ≤ _) = decide (_ ≤ _)
  exact decide_eq_decide.2 (by rw [h.2.2]; rfl)

/-- The theorem is about inputs that exist. -/
example (steps iterations : Nat) (hs : 0 < steps) (U : Qubit ≃ₗᵢ[ℂ] Qubit) (buf0 : Buf Qubit) :
    let c := fun m => kicked U flip m false false steps iterations 5 fun _ x => x
    (run (c .rabitz) (fun _ => level 0) (fun _ => level 1) (fun _ _ => 0) (fun _ _ => 1) buf0).final =
      (run (c .rabitzfb) (fun _ => level 0) (fun _ => level 1) (fun _ _ => 0) (fun _ _ => 1) buf0).final :=
  (C129_feedback_violated (kicked U flip .rabitz false false steps iterations 5 fun _ x => x) rfl rfl rfl hs _ _ _ _ _).2.1

/-- C129: targets that are operators.  The feedback method, designed for them, applies the operator to the initial
wave function instead of the final one: if there is nothing of the target in the initial wave functions (the usual
case), the field of every iteration is zero. -/
theorem C129_operator_violated (c : Setup V) (hm : c.method = .rabitzfb) (ho : c.operators = true)
    (hs : 0 < c.steps) (psiI psiT : Nat → V) (series : Nat → Nat → V) (guess : Fields) (buf0 : Buf V)
    (h0 : ∀ t, c.target t (psiI t) = 0) (hb0 : ∀ s e, c.bwd s e 0 = 0) (hg0 : ∀ g, c.gobbler = some g → g 0 = 0) :
    ∀ a ∈ (run c psiI psiT series guess buf0).lines, ∀ l s, s < c.steps → a.fields l s = 0 := by
  intro a ha l s hsl
  obtain ⟨i, hi⟩ := List.mem_iff_getElem?.1 ha
  obtain ⟨p, hp⟩ : ∃ p, ((run c psiI psiT series guess buf0).guess ::
      (run c psiI psiT series guess buf0).lines)[i]? = some p := by
    have := (List.getElem?_eq_some_iff.1 hi).1
    exact ⟨_, List.getElem?_eq_getElem (by simp only [List.length_cons]; omega)⟩
  obtain ⟨st, st', _, h2, h3, _⟩ := (run_follows c psiI psiT series guess buf0 hs).1 i p a hp hi
  obtain ⟨chi, b, f, _⟩ := h2.work (.inr hm)
  have hl : lastOf c psiI (targets c psiT series) st.lb = fun _ => 0 := by
    unfold lastOf
    rw [if_pos ho, if_pos hm]
    exact funext h0
  rw [hl] at b
  have hz : ∀ j t s, s + j = c.steps → chi t s = 0 := by
    intro j
    induction j with
    | zero => intro t s h; obtain rfl : s = c.steps := by omega
              exact b.last t
    | succ j ih =>
      intro t s h
      rw [b.step t s (by omega), ih t (s + 1) (by omega), stepB_eq, hb0]
      unfold absorb
      split
      · rfl
      · rename_i g hg; exact hg0 g hg
  subst h3
  show st'.lf l s = 0
  rw [f.field l s hsl]
  have hc : calcCorr c (fun t => evolve c st'.lf (psiI t) s) (fun t => chi t s) = 0 := by
    unfold calcCorr
    rw [corrLoop_eq]
    refine Finset.sum_eq_zero fun t _ => ?_
    rw [hz (c.steps - s) t s (by omega)]
    simp
  rw [hc]
  unfold newField
  rw [hm]
  exact mul_zero _

/-- In the two level system: the target is the upper level, the initial wave function is the lower one. -/
example (steps iterations : Nat) (hs : 0 < steps) (U : Qubit ≃ₗᵢ[ℂ] Qubit) (buf0 : Buf Qubit) :
    ∀ a ∈ (run (kicked U flip .rabitzfb true true steps iterations 3 fun _ x => upper x) (fun _ => level 0)
      (fun _ => level 1) (fun _ _ => 0) (fun _ _ => 1) buf0).lines, ∀ l s, s < steps → a.fields l s = 0 :=
  C129_operator_violated _ rfl rfl hs _ _ _ _ _ (fun _ => by
      show (level 0) 1 • level 1 = 0
      rw [level, PiLp.single_apply, if_neg (by decide), zero_smul])
    (fun s e => by
      show kick flip _ (U.symm 0) = 0
      unfold kick
      simp) (fun g hg => by cases hg)

/-! ### The shape -/

/-- C130: at the time steps where the shape is zero Krotov keeps the field of the guess in all iterations, the other
methods give zero. -/
theorem C130_shape (c : Setup V) (hs : 0 < c.steps) (hmv : c.moving = false) (psiI psiT : Nat → V)
    (series : Nat → Nat → V) (guess : Fields) (buf0 : Buf V) (hgu : ∀ l s, s < c.steps → guess l s = guess 0 s)
    (s : Nat) (hsl : s < c.steps) (h0 : c.shape s = 0) :
    ∀ a ∈ (run c psiI psiT series guess buf0).lines, ∀ l,
      a.fields l s = if c.method = .krotov then guess l s else 0 := by
  have key : ∀ i a, ((run c psiI psiT series guess buf0).guess :: (run c psiI psiT series guess buf0).lines)[i]? = some a →
      (i = 0 → ∀ l, a.fields l s = guess l s) ∧
      (i ≠ 0 → ∀ l, a.fields l s = if c.method = .krotov then guess l s else 0) := by
    intro i
    induction i with
    | zero =>
      intro a ha
      rw [List.getElem?_cons_zero, Option.some.injEq] at ha
      refine ⟨fun _ l => ?_, fun h => absurd rfl h⟩
      subst ha
      exact congrFun (congrFun (start_fields c psiI psiT series guess buf0).2.2.1 l) s
    | succ i ih =>
      intro a ha
      refine ⟨fun h => absurd h (by omega), fun _ l => ?_⟩
      obtain ⟨p, hp⟩ : ∃ p, ((run c psiI psiT series guess buf0).guess ::
          (run c psiI psiT series guess buf0).lines)[i]? = some p := by
        have := (List.getElem?_eq_some_iff.1 ha).1
        exact ⟨_, List.getElem?_eq_getElem (by omega)⟩
      obtain ⟨_, _, _, _, chi, _, f, _⟩ := consecutive_spec c psiI psiT series guess buf0 hs hmv hgu p a ⟨i, hp, ha⟩
      rw [f.field l s hsl]
      unfold newField
      by_cases hm : c.method = .krotov
      · rw [hm, if_pos rfl]
        show p.fields 0 s - c.shape s / _ * _ = _
        rw [h0, zero_div, zero_mul, sub_zero, hgu l s hsl]
        by_cases hi : i = 0
        · exact (ih p hp).1 hi 0
        · rw [(ih p hp).2 hi 0, if_pos hm]
      · rw [if_neg hm]
        cases h : c.method with
        | krotov => exact absurd h hm
        | rabitz => show -1 * c.shape s / _ * _ = _; rw [h0, mul_zero, zero_div, zero_mul]
        | rabitzfb => show -1 * c.shape s / _ * _ = _; rw [h0, mul_zero, zero_div, zero_mul]
  intro a ha
  obtain ⟨i, hi⟩ := List.mem_iff_getElem?.1 ha
  exact (key (i + 1) a hi).2 (by omega)

example (steps iterations : Nat) (hs : 5 < steps) (U : Qubit ≃ₗᵢ[ℂ] Qubit) (buf0 : Buf Qubit) :
    let c := { kicked U flip .krotov false false steps iterations 3 (fun _ x => x) with
      shape := fun s => if s = 0 then 0 else 1 }
    ∀ a ∈ (run c (fun _ => level 0) (fun _ => level 1) (fun _ _ => 0) (fun _ s => s + 7) buf0).lines,
      a.fields 0 0 = 7 := by
  intro c a ha
  have h := C130_shape c (by show 0 < steps; omega) rfl (fun _ => level 0) (fun _ => level 1) (fun _ _ => 0)
    (fun _ s => s + 7) buf0 (fun _ _ _ => rfl) 0 (by show 0 < steps; omega) rfl a ha 0
  rw [h, if_pos (show c.method = .krotov from rfl), Nat.cast_zero, zero_add]

/-- C130: several lasers with different guess fields.  Where the shape is zero nothing is to change, but from the first
iteration on all lasers have the field of the first one. -/
theorem C130_lasers_violated (c : Setup V) (hs : 0 < c.steps) (psiI psiT : Nat → V) (series : Nat → Nat → V)
    (guess : Fields) (buf0 : Buf V) (hm : c.method = .krotov) (hmv : c.moving = false) (s : Nat) (hsl : s < c.steps)
    (h0 : c.shape s = 0) (l : Nat) (hl : guess l s ≠ guess 0 s) :
    ∀ a ∈ (run c psiI psiT series guess buf0).lines, a.fields l s = guess 0 s ∧ a.fields l s ≠ guess l s := by
  have key : ∀ i a, ((run c psiI psiT series guess buf0).guess :: (run c psiI psiT series guess buf0).lines)[i]? = some a →
      a.fields 0 s = guess 0 s ∧ (i ≠ 0 → a.fields l s = guess 0 s) := by
    intro i
    induction i with
    | zero =>
      intro a ha
      rw [List.getElem?_cons_zero, Option.some.injEq] at ha
      refine ⟨?_, fun h => absurd rfl h⟩
      subst ha
      exact congrFun (congrFun (start_fields c psiI psiT series guess buf0).2.2.1 0) s
    | succ i ih =>
      intro a ha
      obtain ⟨p, hp⟩ : ∃ p, ((run c psiI psiT series guess buf0).guess ::
          (run c psiI psiT series guess buf0).lines)[i]? = some p := by
        have := (List.getElem?_eq_some_iff.1 ha).1
        exact ⟨_, List.getElem?_eq_getElem (by omega)⟩
      obtain ⟨st, st', h1, h2, h3, _⟩ := (run_follows c psiI psiT series guess buf0 hs).1 i p a hp ha
      obtain ⟨chi, _, f, _⟩ := h2.work (.inl hmv)
      have hf : ∀ l, a.fields l s = guess 0 s := by
        intro l
        subst h3
        show st'.lf l s = _
        rw [f.field l s hsl]
        unfold newField
        rw [hm]
        show st.lb 0 s - c.shape s / _ * _ = _
        rw [h0, zero_div, zero_mul, sub_zero, h1]
        exact (ih p hp).1
      exact ⟨hf 0, fun _ => hf l⟩
  intro a ha
  obtain ⟨i, hi⟩ := List.mem_iff_getElem?.1 ha
  have := (key (i + 1) a hi).2 (by omega)
  exact ⟨this, by rw [this]; exact hl.symm⟩

/-- Not empty: two lasers, one of which has no field in the guess. -/
example (steps iterations : Nat) (hs : 0 < steps) (U : Qubit ≃ₗᵢ[ℂ] Qubit) (buf0 : Buf Qubit) :
    let c := { kicked U flip .krotov false false steps iterations 3 (fun _ x => x) with
      shape := fun s => if s = 0 then 0 else 1 }
    ∀ a ∈ (run c (fun _ => level 0) (fun _ => level 1) (fun _ _ => 0) (fun l _ => if l = 1 then 0 else 2) buf0).lines,
      a.fields 1 0 = 2 := fun a ha =>
  (C130_lasers_violated { kicked U flip .krotov false false steps iterations 3 (fun _ x => x) with
      shape := fun s => if s = 0 then 0 else 1 } hs _ _ _ _ _ rfl rfl 0 hs rfl 1 (by
    show (0 : ℝ) ≠ 2
    norm_num) a ha).1

/-! ### A run that stops too early -/

/-- Three levels. -/
abbrev Three := EuclideanSpace ℂ (Fin 3)

/-- A field that is not zero exchanges the first two levels. -/
def early : Setup Three where
  steps := 1
  dt := 1
  method := .rabitz
  operators := false
  phase := false
  moving := false
  ntargets := 2
  alpha := 1
  shape := fun _ => 0
  iterations := 50
  convergence := 1 / 100000
  fwd := fun _ e x => if e 0 = 0 then x else LinearIsometryEquiv.piLpCongrLeft 2 ℂ ℂ (Equiv.swap (0 : Fin 3) 1) x
  bwd := fun _ e x => if e 0 = 0 then x else LinearIsometryEquiv.piLpCongrLeft 2 ℂ ℂ (Equiv.swap (0 : Fin 3) 1) x
  gobbler := none
  mu := LinearIsometryEquiv.piLpCongrLeft 2 ℂ ℂ (Equiv.swap (0 : Fin 3) 1)
  target := fun _ x => x

/-- The initial wave functions. -/
def earlyI : Nat → Three := fun _ => EuclideanSpace.single 0 1

/-- The targets. -/
def earlyT : Nat → Three := fun t => if t = 0 then EuclideanSpace.single 0 1 else EuclideanSpace.single 2 1

/-- C128: in the first iteration of this run (two targets, normalised wave functions, 50 iterations) the yield rises from
zero to one, and the program stops and says that convergence is reached. -/
theorem C128_early_violated (buf0 : Buf Three) :
    let r := run early earlyI earlyT (fun _ _ => 0) (fun _ _ => 1) buf0
    r.guess.yield = 0 ∧ r.lines.map Line.yield = [1] ∧ r.converged = true := by
  intro r
  have hg : (1 : ℝ) > early.convergence := by show (1 : ℝ) > 1 / 100000; norm_num
  have h124 := C124_yield_of_field early earlyI earlyT (fun _ _ => 0) (fun _ _ => 1) buf0 (by decide)
  have ht : targets early earlyT (fun _ _ => 0) = earlyT := rfl
  have hlen : 0 < r.lines.length := by
    show 0 < (mainLoop early earlyI _ (49 + 1) true 1 _ _).1.length
    unfold mainLoop
    rw [if_pos hg]
    exact Nat.succ_pos _
  obtain ⟨a, ha⟩ : ∃ a, r.lines[0]? = some a := ⟨_, List.getElem?_eq_getElem hlen⟩
  have hmem : a ∈ r.lines := List.mem_of_getElem? ha
  have hf : ∀ l, a.fields l 0 = 0 := fun l =>
    C130_shape early (by decide) rfl earlyI earlyT (fun _ _ => 0) (fun _ _ => 1) buf0 (fun _ _ _ => rfl) 0 (by decide) rfl
      a hmem l
  have hin : ∀ i j : Fin 3, (inner ℂ (EuclideanSpace.single i (1 : ℂ)) (EuclideanSpace.single j (1 : ℂ) : Three) : ℂ) =
      if i = j then 1 else 0 := by
    intro i j
    rw [EuclideanSpace.inner_single_left, map_one, one_mul, PiLp.single_apply]
  have hy : ∀ w : Nat → Three, Spec.yield early w earlyT =
      ‖(inner ℂ (w 0) (EuclideanSpace.single 0 1) : ℂ)‖ ^ 2 + ‖(inner ℂ (w 1) (EuclideanSpace.single 2 1) : ℂ)‖ ^ 2 := by
    intro w
    show ∑ t ∈ Finset.range 2, ‖(inner ℂ (w t) (earlyT t) : ℂ)‖ ^ 2 = _
    rw [Finset.sum_range_succ, Finset.sum_range_one]
    rfl
  have hya : a.yield = 1 := by
    rw [h124.2.1 a (List.mem_cons_of_mem _ hmem)]
    simp only [ht]
    rw [hy]
    have he : ∀ t, evolve early a.fields (earlyI t) early.steps = EuclideanSpace.single 0 1 := by
      intro t
      show (if a.fields 0 0 = 0 then earlyI t else _) = _
      rw [if_pos (hf 0)]
      rfl
    rw [he, he, hin, hin, if_pos rfl, if_neg (by decide), norm_one, norm_zero]
    norm_num
  have hstop := C128_first early earlyI earlyT (fun _ _ => 0) (fun _ _ => 1) buf0 a ha (by
    rw [hya, sub_self, abs_zero]
    show (0 : ℝ) ≤ 1 / 100000
    norm_num)
  refine ⟨?_, ?_, hstop.2⟩
  · rw [h124.2.1 _ (List.mem_cons_self ..), h124.1]
    simp only [ht]
    rw [hy]
    have he : ∀ t, evolve early (fun _ _ => 1) (earlyI t) early.steps = EuclideanSpace.single 1 1 := by
      intro t
      show (if (1 : ℝ) = 0 then earlyI t else LinearIsometryEquiv.piLpCongrLeft 2 ℂ ℂ (Equiv.swap (0 : Fin 3) 1)
        (EuclideanSpace.single 0 1)) = _
      rw [if_neg one_ne_zero, LinearIsometryEquiv.piLpCongrLeft_single, Equiv.swap_apply_left]
    rw [he, he, hin, hin, if_neg (by decide), if_neg (by decide), norm_zero]
    norm_num
  · have : r.lines = [a] := by
      have h1 : r.lines.length = 1 := hstop.1
      obtain ⟨x, hx⟩ := List.length_eq_one_iff.1 h1
      rw [hx] at ha ⊢
      rw [List.getElem?_cons_zero, Option.some.injEq] at ha
      rw [ha]
    rw [this, List.map_singleton, hya]

end

end QDng.Oct
