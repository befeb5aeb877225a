import Verif.EigRun.Model
import Mathlib.Tactic.NormNum
import Mathlib.Tactic.Linarith
import Mathlib.Tactic.Ring

/-
C238: the parameters of the calculation of eigenfunctions are checked.
C239: the table of energies.
-/

namespace QDng.EigRun
open QDng.Common

/-! ### Specification -/

/-- The attributes that are accepted, from the documentation in the header and the messages. -/
structure Good (a : Attr) : Prop where
  method : a.method = none ∨ a.method = some "imag".toList ∨ a.method = some "ac".toList ∨ a.method = some "lanczos".toList
  dt : a.dt ≠ none
  /-- relaxation -/
  nef : a.method = none ∨ a.method = some "imag".toList → ∀ n, a.nef = some n → 1 ≤ n
  start : a.method = none ∨ a.method = some "imag".toList → ∀ s, a.start = some s → 0 ≤ s ∧ s ≤ a.nef.getD 20
  conv : a.method = none ∨ a.method = some "imag".toList → ∀ x, a.conv = some x → x ≤ 1
  /-- autocorrelation -/
  tol : a.method = some "ac".toList → ∀ x, a.tol = some x → 0 ≤ x
  width : a.method = some "ac".toList → ∀ w, a.width = some w → 0 ≤ w
  steps : a.method ≠ some "lanczos".toList → ∀ n, a.steps = some n → 1 ≤ n
  fname : a.fname ≠ some []
  ename : a.ename ≠ some []

/-- A directory name that is usable: nothing, or a name. -/
def GoodDir (preset : Str) (a : Attr) : Prop := preset ≠ [] ∨ a.dir ≠ some []

theorem chooseDir_val (preset : Str) (a : Attr) (h : GoodDir preset a) :
    ∃ d, Prog.chooseDir preset a.dir = .val d ∧
      d = (match a.dir with
        | none => preset
        | some x => if preset ≠ [] then preset else if x.getLast? = some '/' then x else x ++ ['/']) := by
  unfold Prog.chooseDir
  cases hd : a.dir with
  | none => exact ⟨preset, rfl, rfl⟩
  | some x =>
    dsimp only
    by_cases hp : preset = []
    · have hx : x ≠ [] := by
        rintro rfl
        rcases h with h | h
        · exact h hp
        · exact h hd
      rw [if_pos hp, if_neg (by simpa using hp)]
      unfold Prog.addSlash
      cases hl : x.getLast? with
      | none => exact absurd (List.getLast?_eq_none_iff.mp hl) hx
      | some l =>
        dsimp only
        by_cases hls : l = '/'
        · subst hls
          simp
        · simp [hls]
    · rw [if_neg hp, if_pos hp]
      exact ⟨preset, rfl, rfl⟩

theorem imag_iff (a : Attr) (c : Conf) (hc : c.nef = 20) (hs : c.start = 0) :
    (∃ c', imagParams a c = some c') ↔
      (∀ n, a.nef = some n → 1 ≤ n) ∧ (∀ s, a.start = some s → 0 ≤ s ∧ s ≤ a.nef.getD 20) ∧ (∀ x, a.conv = some x → x ≤ 1) := by
  unfold imagParams
  dsimp only
  rw [hc, hs]
  cases hn : a.nef with
  | none =>
    cases hst : a.start with
    | none =>
      cases hcv : a.conv with
      | none => simp
      | some x =>
        by_cases hx : x > 1
        · simp [hx]
        · simp [hx]; exact not_lt.mp hx
    | some s =>
      by_cases h0 : s < 0
      · simp [h0]
      · by_cases h1 : s > 20
        · simp [h0, h1]
        · cases hcv : a.conv with
          | none => simp [h0, h1]; omega
          | some x =>
            by_cases hx : x > 1
            · simp [h0, h1, hx]
            · simp [h0, h1, hx]; exact ⟨by omega, not_lt.mp hx⟩
  | some n =>
    by_cases h2 : n < 1
    · simp [h2]
    · cases hst : a.start with
      | none =>
        cases hcv : a.conv with
        | none => simp [h2]; omega
        | some x =>
          by_cases hx : x > 1
          · simp [h2, hx]
          · simp [h2, hx]; exact ⟨by omega, not_lt.mp hx⟩
      | some s =>
        by_cases h0 : s < 0
        · simp [h0, h2]
        · by_cases h1 : s > n
          · simp [h0, h1, h2]
          · cases hcv : a.conv with
            | none => simp [h0, h1, h2]; omega
            | some x =>
              by_cases hx : x > 1
              · simp [h0, h1, h2, hx]
              · simp [h0, h1, h2, hx]; exact ⟨by omega, by omega, not_lt.mp hx⟩

theorem ac_iff (a : Attr) (c : Conf) :
    (∃ c', acParams a c = some c') ↔ (∀ x, a.tol = some x → 0 ≤ x) ∧ (∀ w, a.width = some w → 0 ≤ w) := by
  unfold acParams
  dsimp only
  cases ht : a.tol with
  | none =>
    cases hw : a.width with
    | none => simp
    | some w =>
      by_cases h : w < 0
      · simp [h]
      · simp [h]; omega
  | some x =>
    by_cases hx : x < 0
    · simp [hx]
    · cases hw : a.width with
      | none => simp [hx]; exact not_lt.mp hx
      | some w =>
        by_cases h : w < 0
        · simp [hx, h]
        · simp [hx, h]; exact ⟨not_lt.mp hx, by omega⟩

theorem step_iff (a : Attr) (c : Conf) :
    (∃ c', stepParams a c = some c') ↔ (c.method ≠ .lanczos → ∀ n, a.steps = some n → 1 ≤ n) := by
  unfold stepParams
  by_cases hm : c.method = .lanczos
  · simp [hm]
  · simp only [hm, ne_eq, not_false_eq_true, if_true, true_implies]
    cases hs : a.steps with
    | none => simp
    | some n =>
      by_cases h : n < 1
      · simp [h]
      · simp [h]; omega

theorem name_iff (a : Attr) (c : Conf) : (∃ c', nameParams a c = some c') ↔ a.fname ≠ some [] ∧ a.ename ≠ some [] := by
  unfold nameParams
  by_cases h1 : a.fname = some []
  · simp [h1]
  · by_cases h2 : a.ename = some []
    · simp [h1, h2]
    · simp [h1, h2]

theorem imag_method (a : Attr) (c c' : Conf) (h : imagParams a c = some c') : c'.method = c.method := by
  unfold imagParams at h
  dsimp only at h
  repeat' split at h
  all_goals first | (cases h; done) | (injection h with h; subst h; rfl)

theorem ac_method (a : Attr) (c c' : Conf) (h : acParams a c = some c') : c'.method = c.method := by
  unfold acParams at h
  dsimp only at h
  repeat' split at h
  all_goals first | (cases h; done) | (injection h with h; subst h; rfl)

/-- The parameters of the method. -/
theorem method_iff (a : Attr) (m : Method) (c : Conf) (hm : c.method = m) (hc : c.nef = 20) (hs : c.start = 0) :
    (∃ c', methodParams m a c = some c' ∧ c'.method = m) ↔
      (m = .imag → (∀ n, a.nef = some n → 1 ≤ n) ∧ (∀ s, a.start = some s → 0 ≤ s ∧ s ≤ a.nef.getD 20) ∧ (∀ x, a.conv = some x → x ≤ 1)) ∧
      (m = .ac → (∀ x, a.tol = some x → 0 ≤ x) ∧ (∀ w, a.width = some w → 0 ≤ w)) := by
  cases m with
  | imag =>
    have := imag_iff a c hc hs
    constructor
    · rintro ⟨c', h, _⟩
      exact ⟨fun _ => this.mp ⟨c', h⟩, fun e => by cases e⟩
    · rintro ⟨h, _⟩
      obtain ⟨c', h'⟩ := this.mpr (h rfl)
      exact ⟨c', h', (imag_method a c c' h').trans hm⟩
  | ac =>
    have := ac_iff a c
    constructor
    · rintro ⟨c', h, _⟩
      exact ⟨fun e => (by cases e), fun _ => this.mp ⟨c', h⟩⟩
    · rintro ⟨_, h⟩
      obtain ⟨c', h'⟩ := this.mpr (h rfl)
      exact ⟨c', h', (ac_method a c c' h').trans hm⟩
  | lanczos =>
    constructor
    · intro _
      exact ⟨fun e => (by cases e), fun e => (by cases e)⟩
    · intro _
      exact ⟨_, rfl, hm⟩

theorem choose_cases (o : Option Str) (m : Method) :
    chooseMethod o = some m ↔
      (m = .imag ∧ (o = none ∨ o = some "imag".toList)) ∨ (m = .ac ∧ o = some "ac".toList) ∨ (m = .lanczos ∧ o = some "lanczos".toList) := by
  unfold chooseMethod
  cases o with
  | none => cases m <;> simp
  | some s =>
    dsimp only
    by_cases h1 : s = "imag".toList
    · subst h1; cases m <;> simp
    · by_cases h2 : s = "ac".toList
      · subst h2; cases m <;> simp
      · by_cases h3 : s = "lanczos".toList
        · subst h3; cases m <;> simp
        · cases m <;> simp_all

/-! ### C238 -/

/-- C238: with a usable directory name the set-up ends with an exception exactly if one of the documented conditions is violated, and otherwise
succeeds; it never ends in another way.  Missing: an empty directory, see the violation. -/
theorem C238_checked_partial (preset : Str) (a : Attr) (hd : GoodDir preset a) :
    ((∃ c, initParams preset a = .val c) ↔ Good a) ∧ (initParams preset a = .threw ↔ ¬ Good a) := by
  have key : (∃ c, initParams preset a = .val c) ∧ Good a ∨ initParams preset a = .threw ∧ ¬ Good a := by
    obtain ⟨d, hdv, _⟩ := chooseDir_val preset a hd
    unfold initParams
    cases hm : chooseMethod a.method with
    | none =>
      right
      refine ⟨rfl, fun g => ?_⟩
      have : ∃ m, chooseMethod a.method = some m := by
        rcases g.method with h | h | h | h
        · exact ⟨.imag, (choose_cases _ _).mpr (Or.inl ⟨rfl, Or.inl h⟩)⟩
        · exact ⟨.imag, (choose_cases _ _).mpr (Or.inl ⟨rfl, Or.inr h⟩)⟩
        · exact ⟨.ac, (choose_cases _ _).mpr (Or.inr (Or.inl ⟨rfl, h⟩))⟩
        · exact ⟨.lanczos, (choose_cases _ _).mpr (Or.inr (Or.inr ⟨rfl, h⟩))⟩
      obtain ⟨m, h⟩ := this
      rw [hm] at h
      cases h
    | some m =>
      have hmc := (choose_cases a.method m).mp hm
      have himag : m = .imag ↔ a.method = none ∨ a.method = some "imag".toList := by
        rcases hmc with ⟨e, h | h⟩ | ⟨e, h⟩ | ⟨e, h⟩ <;> rw [e, h] <;> simp
      have hac : m = .ac ↔ a.method = some "ac".toList := by
        rcases hmc with ⟨e, h | h⟩ | ⟨e, h⟩ | ⟨e, h⟩ <;> rw [e, h] <;> simp
      have hlz : m = .lanczos ↔ a.method = some "lanczos".toList := by
        rcases hmc with ⟨e, h | h⟩ | ⟨e, h⟩ | ⟨e, h⟩ <;> rw [e, h] <;> simp
      dsimp only
      cases hdt : a.dt with
      | none => exact Or.inr ⟨rfl, fun g => g.dt hdt⟩
      | some dt =>
        dsimp only
        have hmi := method_iff a m { initial preset with method := m, dt := dt } rfl rfl rfl
        by_cases hg1 : (m = .imag → (∀ n, a.nef = some n → 1 ≤ n) ∧ (∀ s, a.start = some s → 0 ≤ s ∧ s ≤ a.nef.getD 20) ∧
            (∀ x, a.conv = some x → x ≤ 1)) ∧ (m = .ac → (∀ x, a.tol = some x → 0 ≤ x) ∧ (∀ w, a.width = some w → 0 ≤ w))
        · obtain ⟨c1, hc1, hm1⟩ := hmi.mpr hg1
          rw [hc1]
          dsimp only
          have hsi := step_iff a c1
          rw [hm1] at hsi
          by_cases hg2 : m ≠ .lanczos → ∀ n, a.steps = some n → 1 ≤ n
          · obtain ⟨c2, hc2⟩ := hsi.mpr hg2
            rw [hc2]
            dsimp only
            by_cases hg3 : a.fname ≠ some [] ∧ a.ename ≠ some []
            · obtain ⟨c3, hc3⟩ := (name_iff a c2).mpr hg3
              rw [hc3]
              dsimp only
              rw [hdv]
              refine Or.inl ⟨⟨_, rfl⟩, ?_⟩
              exact
                { method := by
                    rcases hmc with ⟨_, h | h⟩ | ⟨_, h⟩ | ⟨_, h⟩ <;> rw [h] <;> simp
                  dt := by rw [hdt]; simp
                  nef := fun h => (hg1.1 (himag.mpr h)).1
                  start := fun h => (hg1.1 (himag.mpr h)).2.1
                  conv := fun h => (hg1.1 (himag.mpr h)).2.2
                  tol := fun h => (hg1.2 (hac.mpr h)).1
                  width := fun h => (hg1.2 (hac.mpr h)).2
                  steps := fun h => hg2 (fun e => h (hlz.mp e))
                  fname := hg3.1
                  ename := hg3.2 }
            · have : nameParams a c2 = none := by
                cases hn : nameParams a c2 with
                | none => rfl
                | some c3 => exact absurd ((name_iff a c2).mp ⟨c3, hn⟩) hg3
              rw [this]
              exact Or.inr ⟨rfl, fun g => hg3 ⟨g.fname, g.ename⟩⟩
          · have : stepParams a c1 = none := by
              cases hn : stepParams a c1 with
              | none => rfl
              | some c3 => exact absurd (hsi.mp ⟨c3, hn⟩) hg2
            rw [this]
            exact Or.inr ⟨rfl, fun g => hg2 (fun h => g.steps (fun e => h (hlz.mpr e)))⟩
        · have : methodParams m a { initial preset with method := m, dt := dt } = none := by
            cases hn : methodParams m a { initial preset with method := m, dt := dt } with
            | none => rfl
            | some c3 =>
              refine absurd (hmi.mp ⟨c3, hn, ?_⟩) hg1
              cases m with
              | imag => exact imag_method a _ c3 hn
              | ac => exact ac_method a _ c3 hn
              | lanczos => injection hn with hn; subst hn; rfl
          rw [this]
          exact Or.inr ⟨rfl, fun g => hg1 ⟨fun h => ⟨g.nef (himag.mp h), g.start (himag.mp h), g.conv (himag.mp h)⟩,
            fun h => ⟨g.tol (hac.mp h), g.width (hac.mp h)⟩⟩⟩
  rcases key with ⟨⟨c, h⟩, g⟩ | ⟨h, g⟩
  · exact ⟨⟨fun _ => g, fun _ => ⟨c, h⟩⟩, ⟨fun e => (by rw [h] at e; cases e), fun e => absurd g e⟩⟩
  · exact ⟨⟨fun ⟨c, e⟩ => (by rw [h] at e; cases e), fun e => absurd e g⟩, ⟨fun _ => g, fun _ => h⟩⟩

/-- C238 is violated: with an empty directory in the input and none on the command line the set-up looks at the character before the first one
of an empty string. -/
theorem C238_violated_empty_directory (a : Attr) (hg : Good a) (hd : a.dir = some []) : initParams [] a = .ub := by
  have h1 := (C238_checked_partial [] { a with dir := none } (Or.inr (by simp))).1.mpr
    ⟨hg.method, hg.dt, hg.nef, hg.start, hg.conv, hg.tol, hg.width, hg.steps, hg.fname, hg.ename⟩
  obtain ⟨c, hc⟩ := h1
  unfold initParams at hc ⊢
  dsimp only at hc ⊢
  cases hm : chooseMethod a.method with
  | none => rw [hm] at hc; cases hc
  | some m =>
    rw [hm] at hc
    dsimp only at hc ⊢
    cases hdt : a.dt with
    | none => rw [hdt] at hc; cases hc
    | some dt =>
      rw [hdt] at hc
      dsimp only at hc ⊢
      have hmp : ∀ m c0, methodParams m { a with dt := some dt, dir := none } c0 = methodParams m a c0 := by
        intro m c0
        cases m <;> rfl
      have hsp : ∀ c0, stepParams { a with dt := some dt, dir := none } c0 = stepParams a c0 := fun _ => rfl
      have hnp : ∀ c0, nameParams { a with dt := some dt, dir := none } c0 = nameParams a c0 := fun _ => rfl
      rw [hmp] at hc
      cases h1 : methodParams m a { initial [] with method := m, dt := dt } with
      | none => rw [h1] at hc; cases hc
      | some c1 =>
        rw [h1] at hc
        dsimp only at hc ⊢
        rw [hsp] at hc
        cases h2 : stepParams a c1 with
        | none => rw [h2] at hc; cases hc
        | some c2 =>
          rw [h2] at hc
          dsimp only at hc ⊢
          rw [hnp] at hc
          cases h3 : nameParams a c2 with
          | none => rw [h3] at hc; cases hc
          | some c3 =>
            dsimp only
            rw [hd]
            rfl

/-- C238, the settings: for the relaxation the values are those of the input, with 20 functions, 512 steps, the first function, diagonalization
and a convergence of 1e-5 (1e-8 without diagonalization) as defaults; the names of the files and the directory likewise, where the
directory of the command line has precedence and a slash is appended. -/
theorem C238_settings (preset : Str) (a : Attr) (hd : GoodDir preset a) (hm : a.method = none ∨ a.method = some "imag".toList) (c : Conf)
    (h : initParams preset a = .val c) :
    a.dt = some c.dt ∧ c.nef = a.nef.getD 20 ∧ c.start = a.start.getD 0 ∧ c.diag = a.diag.getD true ∧
      c.conv = a.conv.getD (if c.diag = true then 1e-5 else 1e-8) ∧ c.steps = a.steps.getD 512 ∧ c.fname = a.fname.getD "ef".toList ∧
      c.ename = a.ename.getD "energy.dat".toList ∧
      c.dir = (match a.dir with
        | none => preset
        | some x => if preset ≠ [] then preset else if x.getLast? = some '/' then x else x ++ ['/']) := by
  obtain ⟨d, hdv, hdd⟩ := chooseDir_val preset a hd
  have hch : chooseMethod a.method = some .imag := (choose_cases _ _).mpr (Or.inl ⟨rfl, hm⟩)
  unfold initParams at h
  rw [hch] at h
  dsimp only at h
  cases hdt : a.dt with
  | none => rw [hdt] at h; cases h
  | some dt =>
    rw [hdt] at h
    dsimp only [methodParams] at h
    unfold imagParams at h
    dsimp only at h
    split at h
    · cases h
    · rename_i c1 hc1
      split at hc1
      · cases hc1
      · split at hc1
        · cases hc1
        · split at hc1
          · cases hc1
          · split at hc1
            · cases hc1
            · injection hc1 with hc1
              subst hc1
              unfold stepParams at h
              simp only [ne_eq, reduceCtorEq, not_false_eq_true, if_true] at h
              split at h
              · cases h
              · rename_i c2 hc2
                by_cases hst : a.steps.isSome = true ∧ a.steps.getD (initial preset).steps < 1
                · rw [if_pos hst] at hc2
                  cases hc2
                · rw [if_neg hst] at hc2
                  injection hc2 with hc2
                  subst hc2
                  unfold nameParams at h
                  dsimp only at h
                  split at h
                  · cases h
                  · rename_i c3 hc3
                    split at hc3
                    · cases hc3
                    · split at hc3
                      · cases hc3
                      · injection hc3 with hc3
                        subst hc3
                        rw [hdv] at h
                        dsimp only at h
                        injection h with h
                        subst h
                        exact ⟨rfl, rfl, rfl, rfl, rfl, rfl, rfl, rfl, hdd⟩

/-! ### C239: the table of energies -/

theorem rows_get (unit : ℝ) (diag : Bool) (raw diagonal : Nat → ℝ) :
    ∀ (n i k : Nat), (rows unit diag raw diagonal n i)[k]? =
      if k < n then some (if diag then row unit diagonal (i + k) else row unit raw (i + k)) else none := by
  intro n
  induction n with
  | zero => intro i k; simp [rows]
  | succ n ih =>
    intro i k
    unfold rows
    cases k with
    | zero => simp
    | succ k =>
      rw [List.getElem?_cons_succ, ih (i + 1) k, show i + 1 + k = i + (k + 1) by omega]
      simp only [Nat.add_lt_add_iff_right]

/-- C239: if the file can be opened and written, it has one line for each function.  Line `k` has the number `k`, the energy of function `k`,
the same in wave numbers, the difference to the first energy and, except for the first line, the difference to the energy of the line above;
the energies are those of the diagonalization if there was one.  Missing: a file that cannot be opened, see the violation. -/
theorem C239_table_partial (canOpen fails : Str → Bool) (unit : ℝ) (c : Conf) (raw diagonal : Nat → ℝ) (ho : canOpen (c.dir ++ c.ename) = true)
    (hf : fails (c.dir ++ c.ename) = false) :
    ∃ l, writeEnergyFile canOpen fails unit c raw diagonal = .table (c.dir ++ c.ename) l ∧ (l.length : Int) = max c.nef 0 ∧
      ∀ E, E = (if c.diag then diagonal else raw) → ∀ (k : Nat) (r : Row), l[k]? = some r →
        r.number = k ∧ r.energy = E k ∧ r.wave = unit * E k ∧ r.first = unit * E k - unit * E 0 ∧
          (k = 0 → r.above = none) ∧ (∀ j, k = j + 1 → r.above = some (unit * E (j + 1) - unit * E j)) := by
  unfold writeEnergyFile
  rw [ho, hf]
  refine ⟨_, rfl, ?_, ?_⟩
  · have hl : ∀ n i, (rows unit c.diag raw diagonal n i).length = n := by
      intro n
      induction n with
      | zero => intro i; rfl
      | succ n ih => intro i; unfold rows; rw [List.length_cons, ih]
    rw [hl]
    omega
  · intro E hE k r hr
    rw [rows_get] at hr
    split at hr
    · injection hr with hr
      have hr' : r = row unit E k := by
        rw [← hr, hE, Nat.zero_add]
        cases c.diag <;> rfl
      rw [hr']
      unfold row
      refine ⟨rfl, rfl, by ring, by ring, fun h => ?_, fun j h => ?_⟩
      · dsimp only
        rw [if_neg (by omega)]
      · dsimp only
        rw [h, if_pos (by omega), show j + 1 - 1 = j by omega]
        congr 1
        ring
    · cases hr

/-- C239, failure while writing: it is reported. -/
theorem C239_failure_reported (canOpen fails : Str → Bool) (unit : ℝ) (c : Conf) (raw diagonal : Nat → ℝ)
    (ho : canOpen (c.dir ++ c.ename) = true) (hf : fails (c.dir ++ c.ename) = true) :
    writeEnergyFile canOpen fails unit c raw diagonal = .reported := by
  unfold writeEnergyFile
  rw [ho, hf]
  rfl

/-- C239 is violated: if the file cannot be opened the message is never printed; the whole program is ended, whatever has been calculated. -/
theorem C239_violated_terminates (canOpen fails : Str → Bool) (unit : ℝ) (c : Conf) (raw diagonal : Nat → ℝ)
    (ho : canOpen (c.dir ++ c.ename) = false) : writeEnergyFile canOpen fails unit c raw diagonal = .terminated := by
  unfold writeEnergyFile
  rw [ho]
  rfl

/-! ### Examples -/

/-- An input. -/
noncomputable def sample : Attr :=
  { method := some "imag".toList, dt := some 10, nef := some 5, start := some 2, diag := none, conv := some (1 / 1000), tol := none, width := none,
    read := none, win := none, steps := some 100, fname := none, ename := none, dir := some "out".toList }

theorem sample_good : Good sample := by
  refine ⟨by simp [sample], by simp [sample], ?_, ?_, ?_, ?_, ?_, ?_, by simp [sample], by simp [sample]⟩
  · intro _ n h; simp [sample] at h; omega
  · intro _ n h; simp [sample] at h ⊢; omega
  · intro _ x h; simp [sample] at h; rw [← h]; norm_num
  · intro h; simp [sample] at h
  · intro h; simp [sample] at h
  · intro _ n h; simp [sample] at h; omega

/-- It is accepted, and with an empty directory it is not even refused. -/
example : (∃ c, initParams [] sample = .val c) ∧ initParams [] { sample with dir := some [] } = .ub :=
  ⟨(C238_checked_partial [] sample (Or.inr (by simp [sample]))).1.mpr sample_good,
    C238_violated_empty_directory _ ⟨sample_good.method, sample_good.dt, sample_good.nef, sample_good.start, sample_good.conv, sample_good.tol,
      sample_good.width, sample_good.steps, sample_good.fname, sample_good.ename⟩ rfl⟩

/-- A start above the number of functions is refused. -/
example : initParams [] { sample with start := some 6 } = .threw := by
  refine (C238_checked_partial [] _ (Or.inr (by simp [sample]))).2.mpr fun g => ?_
  have := (g.start (Or.inr rfl) 6 rfl).2
  simp [sample] at this

/-- The hypotheses of the table hold for a file that can be written. -/
example : ∃ l, writeEnergyFile (fun _ => true) (fun _ => false) 2 { initial [] with nef := 3 } (fun i => i) (fun i => i) = .table "energy.dat".toList l ∧
    (l.length : Int) = 3 := by
  obtain ⟨l, h1, h2, _⟩ := C239_table_partial (fun _ => true) (fun _ => false) 2 { initial [] with nef := 3 } (fun i => i) (fun i => i) rfl rfl
  exact ⟨l, h1, h2⟩

end QDng.EigRun
