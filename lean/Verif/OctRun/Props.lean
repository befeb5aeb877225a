import Mathlib.Tactic.NormNum
import Mathlib.Tactic.Linarith
import Verif.OctRun.Model

/-
C245: the parameters of the optimal control program are checked.
C246: a wrong input ends with a message.
-/

namespace QDng.OctRun
open QDng.Common

noncomputable section

/-! ### Specification -/

/-- The input as the header and the messages ask for it. -/
structure Good (a : Attr) : Prop where
  dt : a.dt ≠ 0
  steps : 0 < a.steps
  method : a.method = none ∨ a.method = some "krotov".toList ∨ a.method = some "rabitz".toList ∨
    a.method = some "rabitzfb".toList ∨ a.method = some "freq".toList
  shape : ∃ f, a.shape = some (some f) ∧ f.dt = a.dt ∧ a.steps ≤ f.nt
  /-- frequency shaping: a mask file that fits, or bounds below the highest frequency -/
  mask : a.method = some "freq".toList →
    (∃ f, a.freq = some (some f) ∧ f.dt = a.dt ∧ f.nt = a.steps / 2 + 1) ∨
    (a.freq = none ∧ (a.freql ≠ none ∨ a.freqh ≠ none) ∧
      ∀ f, a.freql = some f ∨ a.freqh = some f → |f| * ((a.steps : ℝ) - 1) * a.dt / (2 * Real.pi) ≤ (a.steps / 2 + 1 : Int))
  iterations : ∀ n, a.iterations = some n → 1 ≤ n
  conv : ∀ x, a.conv = some x → 0 ≤ x
  coup : a.coup = none ∨ a.coup = some "dipole".toList
  ttype : a.ttype = none ∨ a.ttype = some "operator".toList ∨ a.ttype = some "overlap".toList
  ntargets : ∀ n, a.ntargets = some n → 1 ≤ n ∧ n ≤ 16
  alpha : a.alpha ≠ some 0

/-- A directory name that is usable: nothing, or a name. -/
def GoodDir (preset : Str) (a : Attr) : Prop := preset ≠ [] ∨ a.dir ≠ some []

/-! ### Lemmas -/

theorem chooseMethod_some (m : Option Str) : (chooseMethod m).isSome ↔
    (m = none ∨ m = some "krotov".toList ∨ m = some "rabitz".toList ∨ m = some "rabitzfb".toList ∨ m = some "freq".toList) := by
  unfold chooseMethod
  cases m with
  | none => simp
  | some s =>
    dsimp only
    by_cases h1 : s = "krotov".toList
    · rw [if_pos h1]; simp [h1]
    · rw [if_neg h1]
      by_cases h2 : s = "rabitz".toList
      · rw [if_pos h2]; simp [h2]
      · rw [if_neg h2]
        by_cases h3 : s = "rabitzfb".toList
        · rw [if_pos h3]; simp [h3]
        · rw [if_neg h3]
          by_cases h4 : s = "freq".toList
          · rw [if_pos h4]; simp [h4]
          · rw [if_neg h4]
            simp only [Option.isSome_none, Bool.false_eq_true, Option.some.injEq, reduceCtorEq, false_or, false_iff]
            tauto

theorem chooseMethod_freq (m : Option Str) : chooseMethod m = some .freq ↔ m = some "freq".toList := by
  unfold chooseMethod
  cases m with
  | none => simp
  | some s =>
    dsimp only
    by_cases h1 : s = "krotov".toList
    · rw [if_pos h1, h1]
      refine ⟨fun h => by simp at h, fun h => absurd (Option.some.inj h) (by decide)⟩
    · rw [if_neg h1]
      by_cases h2 : s = "rabitz".toList
      · rw [if_pos h2, h2]
        refine ⟨fun h => by simp at h, fun h => absurd (Option.some.inj h) (by decide)⟩
      · rw [if_neg h2]
        by_cases h3 : s = "rabitzfb".toList
        · rw [if_pos h3, h3]
          refine ⟨fun h => by simp at h, fun h => absurd (Option.some.inj h) (by decide)⟩
        · rw [if_neg h3]
          by_cases h4 : s = "freq".toList
          · rw [if_pos h4, h4]; simp
          · rw [if_neg h4]
            refine ⟨fun h => by simp at h, fun h => absurd (Option.some.inj h) h4⟩

theorem shapeOk_iff (dt : ℝ) (steps : Int) (s : Option (Option LaserFile)) :
    shapeOk dt steps s = true ↔ ∃ f, s = some (some f) ∧ f.dt = dt ∧ steps ≤ f.nt := by
  unfold shapeOk
  match s with
  | none => simp
  | some none => simp
  | some (some f) =>
    simp only [ne_eq, gt_iff_lt, Bool.not_eq_true', decide_eq_false_iff_not, not_or, not_not, not_lt, Option.some.injEq,
      exists_eq_left']
    exact and_congr_left fun _ => eq_comm

theorem nfreq_pos {n : Int} (h : 0 < n) : nfreq n = n / 2 + 1 := by
  unfold nfreq
  rw [Int.tdiv_eq_ediv_of_nonneg h.le]

theorem boundOk_iff (steps : Int) (dt : ℝ) (f : Option ℝ) :
    boundOk steps dt f = true ↔ ∀ x, f = some x → cutoff steps dt x ≤ nfreq steps := by
  unfold boundOk
  cases f with
  | none => simp
  | some x =>
    simp only [gt_iff_lt, Bool.not_eq_true', decide_eq_false_iff_not, not_lt, Option.some.injEq, forall_eq']

theorem freqOk_iff (a : Attr) (h : 0 < a.steps) : freqOk a = true ↔
    (∃ f, a.freq = some (some f) ∧ f.dt = a.dt ∧ f.nt = a.steps / 2 + 1) ∨
    (a.freq = none ∧ (a.freql ≠ none ∨ a.freqh ≠ none) ∧
      ∀ f, a.freql = some f ∨ a.freqh = some f → |f| * ((a.steps : ℝ) - 1) * a.dt / (2 * Real.pi) ≤ (a.steps / 2 + 1 : Int)) := by
  unfold freqOk
  rw [nfreq_pos h]
  match hf : a.freq with
  | some none => simp
  | some (some f) => simp
  | none =>
    have h1 : ¬ (a.steps / 2 + 1 < 0) := by omega
    dsimp only
    by_cases hs : a.freql.isSome = true ∨ a.freqh.isSome = true
    · rw [if_pos hs, if_neg h1, Bool.and_eq_true, boundOk_iff, boundOk_iff, nfreq_pos h]
      have hs' : a.freql ≠ none ∨ a.freqh ≠ none := by
        rw [← Option.isSome_iff_ne_none, ← Option.isSome_iff_ne_none]; exact hs
      constructor
      · rintro ⟨p, q⟩
        refine .inr ⟨rfl, hs', fun f hf => ?_⟩
        rcases hf with hf | hf
        · exact p f hf
        · exact q f hf
      · rintro (⟨f, hff, _⟩ | ⟨_, _, hb⟩)
        · cases hff
        · exact ⟨fun x hx => hb x (.inl hx), fun x hx => hb x (.inr hx)⟩
    · rw [if_neg hs]
      have hs' : ¬ (a.freql ≠ none ∨ a.freqh ≠ none) := by
        rw [← Option.isSome_iff_ne_none, ← Option.isSome_iff_ne_none]; exact hs
      refine ⟨fun h => by simp at h, ?_⟩
      rintro (⟨f, hff, _⟩ | ⟨_, hb, _⟩)
      · cases hff
      · exact absurd hb hs'

theorem targets_some (t : Option Str) : (chooseTargets t).isSome ↔
    (t = none ∨ t = some "operator".toList ∨ t = some "overlap".toList) := by
  unfold chooseTargets
  cases t with
  | none => simp
  | some s =>
    dsimp only
    by_cases h1 : s = "operator".toList
    · rw [if_pos h1]; simp [h1]
    · rw [if_neg h1]
      by_cases h2 : s = "overlap".toList
      · rw [if_pos h2]; simp [h2]
      · rw [if_neg h2]
        simp only [Option.isSome_none, Bool.false_eq_true, Option.some.injEq, reduceCtorEq, false_or, false_iff]
        tauto

theorem coupOk_iff (t : Option Str) : coupOk t = true ↔ (t = none ∨ t = some "dipole".toList) := by
  unfold coupOk
  cases t with
  | none => simp
  | some s => simp

theorem atLeast_iff (x : Option Int) : (x.isNone || !decide (x.getD 0 < 1)) = true ↔ ∀ n, x = some n → 1 ≤ n := by
  cases x with
  | none => simp
  | some n => simp

open Classical in
theorem nonneg_iff (x : Option ℝ) : (x.isNone || !decide (x.getD 0 < 0)) = true ↔ ∀ n, x = some n → 0 ≤ n := by
  cases x with
  | none => simp
  | some n => simp

theorem middle_iff (a : Attr) (h : 0 < a.steps) : middleOk a = true ↔
    (a.method = none ∨ a.method = some "krotov".toList ∨ a.method = some "rabitz".toList ∨
      a.method = some "rabitzfb".toList ∨ a.method = some "freq".toList) ∧
    (∃ f, a.shape = some (some f) ∧ f.dt = a.dt ∧ a.steps ≤ f.nt) ∧
    (a.method = some "freq".toList →
      (∃ f, a.freq = some (some f) ∧ f.dt = a.dt ∧ f.nt = a.steps / 2 + 1) ∨
      (a.freq = none ∧ (a.freql ≠ none ∨ a.freqh ≠ none) ∧
        ∀ f, a.freql = some f ∨ a.freqh = some f →
          |f| * ((a.steps : ℝ) - 1) * a.dt / (2 * Real.pi) ≤ (a.steps / 2 + 1 : Int))) ∧
    (∀ n, a.iterations = some n → 1 ≤ n) ∧ (∀ x, a.conv = some x → 0 ≤ x) ∧
    (a.coup = none ∨ a.coup = some "dipole".toList) ∧
    (a.ttype = none ∨ a.ttype = some "operator".toList ∨ a.ttype = some "overlap".toList) := by
  rw [← chooseMethod_some, ← chooseMethod_freq, ← targets_some, ← coupOk_iff, ← nonneg_iff, ← atLeast_iff, ← shapeOk_iff,
    ← freqOk_iff a h]
  unfold middleOk
  cases chooseMethod a.method with
  | none => simp
  | some m =>
    simp only [Bool.and_eq_true, Bool.or_eq_true, decide_eq_true_eq, Option.isSome_some, Option.some.injEq, true_and]
    by_cases hm : m = .freq
    · simp only [hm, ne_eq, not_true_eq_false, decide_false, Bool.false_eq_true, false_or, forall_const]
      tauto
    · simp only [hm, ne_eq, not_false_eq_true, decide_true, true_or, false_imp_iff, true_and]
      tauto

theorem chooseDir_val (preset : Str) (a : Attr) (h : GoodDir preset a) : ∃ d, Prog.chooseDir preset a.dir = .val d := by
  unfold Prog.chooseDir
  cases hd : a.dir with
  | none => exact ⟨preset, rfl⟩
  | some x =>
    dsimp only
    by_cases hp : preset = []
    · have hx : x ≠ [] := by
        rintro rfl
        rcases h with h | h
        · exact h hp
        · exact h hd
      rw [if_pos hp]
      unfold Prog.addSlash
      cases hl : x.getLast? with
      | none => exact absurd (List.getLast?_eq_none_iff.mp hl) hx
      | some l => dsimp only; split <;> exact ⟨_, rfl⟩
    · rw [if_neg hp]
      exact ⟨preset, rfl⟩

/-! ### C245 -/

/-- For a positive number of steps, a usable directory and a method other than freq (or both bounds given for it):
exactly good input is accepted, everything else is refused, and the settings are those given. -/
theorem C245_checked_partial (preset : Str) (a : Attr) (hsteps : 0 ≤ a.steps) (hdir : GoodDir preset a)
    (hprint : a.method = some "freq".toList → a.freq = none ∧ a.freql ≠ none ∧ a.freqh ≠ none) :
    (Good a → ∃ d, (initParams preset a).ans = .val (conf a d)) ∧ (¬ Good a → (initParams preset a).ans = .threw) := by
  obtain ⟨d, hd⟩ := chooseDir_val preset a hdir
  have hpr : printOk a = true := by
    unfold printOk
    by_cases hm : a.method = some "freq".toList
    · obtain ⟨p, q, r⟩ := hprint hm
      rw [p]
      rw [← Option.isSome_iff_ne_none] at q r
      rw [q, r]
      simp
    · have : chooseMethod a.method ≠ some .freq := fun h => hm ((chooseMethod_freq _).1 h)
      simp [this]
  have halpha : |a.alpha.getD 1| = 0 ↔ a.alpha = some 0 := by
    rw [abs_eq_zero]
    cases a.alpha with
    | none => simp
    | some x => simp
  have hnt : ¬ (a.ntargets.getD 1 < 1 ∨ a.ntargets.getD 1 > 16) ↔ ∀ n, a.ntargets = some n → 1 ≤ n ∧ n ≤ 16 := by
    cases a.ntargets with
    | none => simp
    | some n => simp
  unfold initParams
  rw [hd]
  dsimp only
  by_cases h1 : a.dt = 0
  · rw [if_pos h1]
    exact ⟨fun g => absurd h1 g.dt, fun _ => rfl⟩
  rw [if_neg h1]
  by_cases h2 : a.steps = 0
  · rw [if_pos h2]
    exact ⟨fun g => absurd h2 (by have := g.steps; omega), fun _ => rfl⟩
  rw [if_neg h2]
  have hpos : 0 < a.steps := by omega
  have hmid := middle_iff a hpos
  by_cases h3 : middleOk a = false
  · rw [if_pos h3]
    refine ⟨fun g => ?_, fun _ => rfl⟩
    rw [hmid.2 ⟨g.method, g.shape, g.mask, g.iterations, g.conv, g.coup, g.ttype⟩] at h3
    cases h3
  rw [if_neg h3]
  rw [Bool.not_eq_false] at h3
  obtain ⟨m1, m2, m3, m4, m5, m6, m7⟩ := hmid.1 h3
  by_cases h4 : a.ntargets.getD 1 < 1 ∨ a.ntargets.getD 1 > 16
  · rw [if_pos h4]
    exact ⟨fun g => absurd h4 (hnt.2 g.ntargets), fun _ => rfl⟩
  rw [if_neg h4]
  by_cases h5 : |a.alpha.getD 1| = 0
  · rw [if_pos h5]
    exact ⟨fun g => absurd (halpha.1 h5) g.alpha, fun _ => rfl⟩
  rw [if_neg h5, if_neg (by simp [hpr])]
  refine ⟨fun _ => ⟨d, rfl⟩, fun hn => ?_⟩
  exact absurd ⟨h1, hpos, m1, m2, m3, m4, m5, m6, m7, hnt.1 h4, fun e => h5 (halpha.2 e)⟩ hn

/-- The settings of accepted input: those given, and the documented defaults for what is not given. -/
theorem C245_settings (preset : Str) (a : Attr) (c : Conf) (h : (initParams preset a).ans = .val c) :
    c.dt = a.dt ∧ c.steps = a.steps ∧ c.fname = a.fname.getD "laser".toList ∧
    (a.method = none → c.method = .krotov) ∧ (a.method = some "krotov".toList → c.method = .krotov) ∧
    (a.method = some "rabitz".toList → c.method = .rabitz) ∧
    (a.method = some "rabitzfb".toList → c.method = .rabitzfb) ∧ (a.method = some "freq".toList → c.method = .freq) ∧
    c.iterations = a.iterations.getD 50 ∧ c.conv = a.conv.getD 1e-5 ∧ c.writel = a.writel.getD false ∧
    (c.operators = true ↔ a.ttype = some "operator".toList) ∧ c.mv = a.mv.getD false ∧ c.phase = a.phase.getD false ∧
    c.ntargets = a.ntargets.getD 1 ∧ 1 ≤ c.ntargets ∧ c.ntargets ≤ 16 ∧ c.alpha = a.alpha.getD 1 ∧ c.alpha ≠ 0 := by
  unfold initParams at h
  by_cases g1 : a.dt = 0
  · rw [if_pos g1] at h; cases h
  rw [if_neg g1] at h
  by_cases g2 : a.steps = 0
  · rw [if_pos g2] at h; cases h
  rw [if_neg g2] at h
  cases hd : Prog.chooseDir preset a.dir with
  | threw => rw [hd] at h; cases h
  | ub => rw [hd] at h; cases h
  | val d =>
    rw [hd] at h
    dsimp only at h
    by_cases g3 : middleOk a = false
    · rw [if_pos g3] at h; cases h
    rw [if_neg g3] at h
    by_cases g4 : a.ntargets.getD 1 < 1 ∨ a.ntargets.getD 1 > 16
    · rw [if_pos g4] at h; cases h
    rw [if_neg g4] at h
    by_cases g5 : |a.alpha.getD 1| = 0
    · rw [if_pos g5] at h; cases h
    rw [if_neg g5] at h
    by_cases g6 : printOk a = false
    · rw [if_pos g6] at h; cases h
    rw [if_neg g6] at h
    injection h with h
    subst h
    have hm : ∀ {s m}, a.method = some s → chooseMethod (some s) = some m → (conf a d).method = m := by
      intro s m e1 e2
      show (chooseMethod a.method).getD .krotov = m
      rw [e1, e2]; rfl
    refine ⟨rfl, rfl, rfl, ?_, fun e => hm e rfl, fun e => hm e rfl, fun e => hm e rfl, fun e => hm e rfl, rfl, rfl, rfl, ?_, rfl,
      rfl, rfl, ?_, ?_, rfl, ?_⟩
    · intro e
      show (chooseMethod a.method).getD .krotov = _
      rw [e]; rfl
    · show (chooseTargets a.ttype).getD false = true ↔ _
      cases a.ttype with
      | none => simp [chooseTargets]
      | some s =>
        unfold chooseTargets
        dsimp only
        by_cases e : s = "operator".toList
        · rw [if_pos e]; simp [e]
        · rw [if_neg e]
          have : ¬ (some s = some "operator".toList) := fun x => e (Option.some.inj x)
          refine ⟨fun x => ?_, fun x => absurd x this⟩
          by_cases e2 : s = "overlap".toList
          · rw [if_pos e2] at x; cases x
          · rw [if_neg e2] at x; cases x
    · show 1 ≤ a.ntargets.getD 1
      omega
    · show a.ntargets.getD 1 ≤ 16
      omega
    · show a.alpha.getD 1 ≠ 0
      exact fun e => g5 (abs_eq_zero.2 e)

/-- The table goes to a file in the output directory if it was asked for, by `writeyield` or by a name. -/
theorem C245_yield_file (a : Attr) (d : Str) :
    (conf a d).yieldFile = (match a.yfile with
      | none => if a.writeyield then some (d ++ "Yield".toList) else none
      | some [] => some (d ++ "Yield".toList)
      | some (c :: cs) => some (d ++ c :: cs)) := by
  show yieldFile a d = _
  unfold yieldFile
  match a.yfile with
  | none => cases a.writeyield <;> simp
  | some [] => simp
  | some (c :: cs) => simp

/-- A negative number of steps is accepted, whatever the rest of a good input says. -/
theorem C245_violated_negative (a : Attr) (hg : Good a) (hm : a.method ≠ some "freq".toList) (n : Int) (hn : n < 0)
    (hd : a.dir = none) : (initParams [] { a with steps := n }).ans = .val (conf { a with steps := n } []) := by
  have hmf : chooseMethod a.method ≠ some .freq := fun h => hm ((chooseMethod_freq _).1 h)
  have hsh : shapeOk a.dt n a.shape = true := by
    rw [shapeOk_iff]
    obtain ⟨f, h1, h2, h3⟩ := hg.shape
    have := hg.steps
    exact ⟨f, h1, h2, by omega⟩
  have hmid : middleOk { a with steps := n } = true := by
    have h := (middle_iff a hg.steps).2 ⟨hg.method, hg.shape, hg.mask, hg.iterations, hg.conv, hg.coup, hg.ttype⟩
    unfold middleOk at h ⊢
    dsimp only
    cases hc : chooseMethod a.method with
    | none => rw [hc] at h; cases h
    | some m =>
      rw [hc] at h
      have hmm : m ≠ .freq := fun e => hmf (by rw [hc, e])
      simp only [Bool.and_eq_true, Bool.or_eq_true, decide_eq_true_eq] at h ⊢
      exact ⟨⟨⟨⟨⟨hsh, .inl hmm⟩, h.1.1.1.2⟩, h.1.1.2⟩, h.1.2⟩, h.2⟩
  have hnt : ¬ (a.ntargets.getD 1 < 1 ∨ a.ntargets.getD 1 > 16) := by
    cases hx : a.ntargets with
    | none => simp
    | some k => have := hg.ntargets k hx; simp; omega
  have hal : ¬ |a.alpha.getD 1| = 0 := by
    rw [abs_eq_zero]
    cases hx : a.alpha with
    | none => simp
    | some x =>
      intro h
      exact hg.alpha (by rw [hx]; simpa using h)
  have hdd : Prog.chooseDir [] a.dir = .val [] := by rw [hd]; rfl
  unfold initParams
  dsimp only
  rw [hdd]
  dsimp only
  rw [if_neg hg.dt, if_neg hn.ne, if_neg (by simp [hmid]), if_neg hnt, if_neg hal, if_neg]
  unfold printOk
  simp [hmf]

/-- With the method freq and a good input, values that were never set are printed, unless both bounds are given. -/
theorem C245_violated_freq (preset : Str) (a : Attr) (hg : Good a) (hdir : GoodDir preset a)
    (hm : a.method = some "freq".toList) (hb : a.freq ≠ none ∨ a.freql = none ∨ a.freqh = none) :
    (initParams preset a).ans = .ub := by
  obtain ⟨d, hd⟩ := chooseDir_val preset a hdir
  have hmid := (middle_iff a hg.steps).2 ⟨hg.method, hg.shape, hg.mask, hg.iterations, hg.conv, hg.coup, hg.ttype⟩
  have hnt : ¬ (a.ntargets.getD 1 < 1 ∨ a.ntargets.getD 1 > 16) := by
    cases hx : a.ntargets with
    | none => simp
    | some k => have := hg.ntargets k hx; simp; omega
  have hal : ¬ |a.alpha.getD 1| = 0 := by
    rw [abs_eq_zero]
    cases hx : a.alpha with
    | none => simp
    | some x =>
      intro h
      exact hg.alpha (by rw [hx]; simpa using h)
  unfold initParams
  rw [hd]
  dsimp only
  rw [if_neg hg.dt, if_neg hg.steps.ne', if_neg (by simp [hmid]), if_neg hnt, if_neg hal, if_pos]
  unfold printOk
  rw [(chooseMethod_freq _).2 hm]
  rcases hb with hb | hb | hb
  · rw [← Option.isSome_iff_ne_none] at hb
    simp [Option.isSome_iff_exists] at hb ⊢
    obtain ⟨x, hx⟩ := hb
    simp [hx]
  · simp [hb]
  · simp [hb]

/-! ### C246 -/

/-- What holds: once the search for the laser field has come back, an error ends with a message; and good input, if all
goes well, with the result. -/
theorem C246_message_partial (preset : Str) (a : Attr) (e : Events) (c : Conf) (h : (initParams preset a).ans = .val c)
    (h1 : e.loaded = true) (h2 : e.searched = true) :
    octRun preset a e = if e.rest then .finished else .failed := by
  have hn : ¬ (initParams preset a).ntargets > 16 := by
    intro hgt
    unfold initParams at h hgt
    by_cases g1 : a.dt = 0
    · rw [if_pos g1] at h; cases h
    rw [if_neg g1] at h hgt
    by_cases g2 : a.steps = 0
    · rw [if_pos g2] at h; cases h
    rw [if_neg g2] at h hgt
    cases hd : Prog.chooseDir preset a.dir with
    | threw => rw [hd] at h; cases h
    | ub => rw [hd] at h; cases h
    | val d =>
      rw [hd] at h hgt
      dsimp only at h hgt
      by_cases g3 : middleOk a = false
      · rw [if_pos g3] at h; cases h
      rw [if_neg g3] at h hgt
      by_cases g4 : a.ntargets.getD 1 < 1 ∨ a.ntargets.getD 1 > 16
      · rw [if_pos g4] at h; cases h
      rw [if_neg g4] at hgt
      have : a.ntargets.getD 1 > 16 := by
        revert hgt
        split
        · exact id
        · split <;> exact id
      exact g4 (.inr this)
  unfold octRun
  dsimp only
  rw [h]
  dsimp only
  rw [if_neg (by simp [h1]), if_neg (by simp [h2])]
  have hd : ∀ x, destruct (initParams preset a).ntargets true x = x := fun x => by
    unfold destruct
    rw [if_neg hn, if_pos rfl]
  rw [hd, hd]
  cases e.rest <;> simp

/-- An input that is refused never ends with a message: the destructor reads a pointer that was not set.  The same holds
for a missing propagator, wave function or target. -/
theorem C246_violated (preset : Str) (a : Attr) (e : Events)
    (h : (initParams preset a).ans = .threw ∨ e.loaded = false ∨ e.searched = false) : octRun preset a e = .ub := by
  have hd : ∀ n x, destruct n false x = .ub := fun n x => by unfold destruct; simp
  unfold octRun
  dsimp only
  cases hi : (initParams preset a).ans with
  | ub => rfl
  | threw => exact hd _ _
  | val c =>
    rw [hi] at h
    dsimp only
    by_cases h1 : e.loaded = false
    · rw [if_pos h1]; exact hd _ _
    · rw [if_neg h1]
      rcases h with h | h | h
      · cases h
      · exact absurd h h1
      · rw [if_pos h]; exact hd _ _

/-- A number of targets above 16 is refused, but the destructor uses it to read arrays with 16 elements; this would be
so even if the pointer were set. -/
theorem C246_violated_targets (a : Attr) (hg : Good a) (hd : a.dir = none) (n : Int) (hn : 16 < n) (coupSet : Bool)
    (x : End) :
    (initParams [] { a with ntargets := some n }).ans = .threw ∧
    destruct (initParams [] { a with ntargets := some n }).ntargets coupSet x = .ub := by
  have hmid : middleOk { a with ntargets := some n } = true :=
    (middle_iff a hg.steps).2 ⟨hg.method, hg.shape, hg.mask, hg.iterations, hg.conv, hg.coup, hg.ttype⟩
  have he : initParams [] { a with ntargets := some n } = ⟨.threw, n⟩ := by
    have hdd : Prog.chooseDir [] a.dir = .val [] := by rw [hd]; rfl
    unfold initParams
    dsimp only
    rw [hdd]
    dsimp only
    rw [if_neg hg.dt, if_neg hg.steps.ne', if_neg (by simp [hmid]), if_pos]
    · rfl
    · right; exact hn
  rw [he]
  refine ⟨rfl, ?_⟩
  unfold destruct
  rw [if_pos hn]

/-! ### The hypotheses can be met -/

/-- An input with a shape file of 100 values. -/
def sample : Attr :=
  { dt := 10, steps := 100, dir := none, fname := none, writeyield := true, yfile := none, method := none
    shape := some (some ⟨10, 100⟩), freq := none, freql := none, freqh := none, iterations := some 20, conv := none
    writel := none, coup := none, ttype := some "overlap".toList, mv := none, phase := some true, ntargets := some 2
    alpha := some 5 }

theorem sample_good : Good sample where
  dt := by norm_num [sample]
  steps := by norm_num [sample]
  method := .inl rfl
  shape := ⟨⟨10, 100⟩, rfl, rfl, by norm_num [sample]⟩
  mask := fun h => by simp [sample] at h
  iterations := by intro n h; simp [sample] at h; omega
  conv := by intro x h; simp [sample] at h
  coup := .inl rfl
  ttype := .inr (.inr rfl)
  ntargets := by intro n h; simp [sample] at h; omega
  alpha := by norm_num [sample]

example : ∃ d, (initParams [] sample).ans = .val (conf sample d) :=
  (C245_checked_partial [] sample (by norm_num [sample]) (.inr (by simp [sample])) (fun h => by simp [sample] at h)).1
    sample_good

example : (initParams [] { sample with steps := -7 }).ans = .val (conf { sample with steps := -7 } []) :=
  C245_violated_negative sample sample_good (by simp [sample]) (-7) (by norm_num) rfl

/-- A good input with a mask file. -/
def sampleFreq : Attr := { sample with method := some "freq".toList, freq := some (some ⟨10, 51⟩) }

theorem sampleFreq_good : Good sampleFreq where
  dt := by norm_num [sampleFreq, sample]
  steps := by norm_num [sampleFreq, sample]
  method := .inr (.inr (.inr (.inr rfl)))
  shape := ⟨⟨10, 100⟩, rfl, rfl, by norm_num [sampleFreq, sample]⟩
  mask := fun _ => .inl ⟨⟨10, 51⟩, rfl, rfl, by norm_num [sampleFreq, sample]⟩
  iterations := by intro n h; simp [sampleFreq, sample] at h; omega
  conv := by intro x h; simp [sampleFreq, sample] at h
  coup := .inl rfl
  ttype := .inr (.inr rfl)
  ntargets := by intro n h; simp [sampleFreq, sample] at h; omega
  alpha := by norm_num [sampleFreq, sample]

example : (initParams [] sampleFreq).ans = .ub :=
  C245_violated_freq [] sampleFreq sampleFreq_good (.inr (by simp [sampleFreq, sample])) rfl (.inl (by simp [sampleFreq]))

/-- C246: an input without shape file is refused. -/
example (e : Events) : octRun [] { sample with shape := none } e = .ub := by
  refine C246_violated [] _ e (.inl ?_)
  refine (C245_checked_partial [] { sample with shape := none } (by norm_num [sample]) (.inr (by simp [sample]))
    (fun h => by simp [sample] at h)).2 fun g => ?_
  obtain ⟨f, hf, _⟩ := g.shape
  simp at hf

example : octRun [] sample ⟨true, true, false⟩ = .failed := by
  obtain ⟨d, hd⟩ := (C245_checked_partial [] sample (by norm_num [sample]) (.inr (by simp [sample]))
    (fun h => by simp [sample] at h)).1 sample_good
  exact C246_message_partial [] sample ⟨true, true, false⟩ _ hd rfl rfl

end

end QDng.OctRun
