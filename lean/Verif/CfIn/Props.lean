import Mathlib.Data.Int.Basic
import Mathlib.Algebra.Order.Ring.Int
import Verif.PNum.Props
import Verif.CfIn.Model

/-
Properties C287 to C289: parameters, meta data and file name of the correlation function program.
-/

namespace QDng.CfIn

open QDng QDng.Common QDng.Params QDng.PNum QDng.PNum.Spec

variable {R V K : Type}

/-! ## Words of the statements -/

/-- The attribute is an integer in decimal notation. -/
def Spec.given (attr : Container) (name : Str) (v : Int) : Prop := ∃ s, attr.getString name = (true, s) ∧ notation' s v

/-- The attribute is not given. -/
def Spec.absent (attr : Container) (name : Str) : Prop := attr.isPresent name = false

/-- The directory that results from the one of the command line (which has priority) and the attribute `dir`: a slash is
added if there is none at the end. -/
def Spec.directory (attr : Container) (dir0 dir : Str) : Prop :=
  ((dir0 ≠ [] ∨ Spec.absent attr ['d', 'i', 'r']) ∧ dir = dir0) ∨
  (dir0 = [] ∧ ∃ s c, attr.getString ['d', 'i', 'r'] = (true, s ++ [c]) ∧ dir = if c = '/' then s ++ [c] else s ++ [c] ++ ['/'])

/-- The attribute `dt` is a number. -/
def Spec.timeStep (lib : Lib R) (attr : Container) (d : R) : Prop :=
  ∃ s, attr.getString ['d', 't'] = (true, s) ∧ lib.scan s = some d

open Spec

/-! ## Lemmas -/

theorem present_iff (attr : Container) (name : Str) (s : Str) (h : attr.getString name = (true, s)) :
    attr.isPresent name = true := by
  rw [getString_eq] at h
  unfold Container.isPresent
  cases hf : OMap.find name attr.params with
  | none => rw [hf] at h; simp at h
  | some t => rfl

theorem absent_getString (attr : Container) (name : Str) (h : absent attr name) : attr.getString name = (false, []) := by
  unfold absent Container.isPresent at h
  rw [getString_eq]
  cases hf : OMap.find name attr.params with
  | none => rfl
  | some t => rw [hf] at h; simp at h

theorem getNum_given (attr : Container) (name : Str) (v : Int) (h : given attr name v) (hv : holds .int v) (old : Option Int) :
    getNum .int attr name old = .val (true, some v) := by
  obtain ⟨s, hs, hn⟩ := h
  exact (C284_number_partial attr name .int old).1 [] s [] v (by simpa using hs) blank_nil hn noDigitNext_nil hv

theorem intOr_given (attr : Container) (name : Str) (v old : Int) (h : given attr name v) (hv : holds .int v) :
    intOr attr name old = .val v := by
  unfold intOr
  obtain ⟨s, hs, hn⟩ := h
  rw [if_pos (present_iff attr name s hs), getNum_given attr name v ⟨s, hs, hn⟩ hv]

theorem intOr_absent (attr : Container) (name : Str) (old : Int) (h : absent attr name) :
    intOr attr name old = .val old := by
  unfold intOr
  rw [if_neg (by rw [h]; simp)]

theorem initDir_ok (attr : Container) (dir0 dir : Str) (h : directory attr dir0 dir) : initDir attr dir0 = .val dir := by
  unfold initDir
  rcases h with ⟨h, rfl⟩ | ⟨h0, s, c, hs, rfl⟩
  · rw [if_neg]
    rintro ⟨h1, h2⟩
    rcases h with h | h
    · exact h h2
    · rw [h] at h1; cases h1
  · rw [if_pos ⟨present_iff _ _ _ hs, h0⟩, hs]
    simp only [List.getLast?_append, List.getLast?_singleton, Option.some_or]
    by_cases hc : c = '/' <;> simp [hc]

theorem getDouble_ok [Zero R] (lib : Lib R) (attr : Container) (d : R) (h : timeStep lib attr d) :
    getDouble lib attr ['d', 't'] = some d := by
  obtain ⟨s, hs, h⟩ := h
  unfold getDouble
  rw [hs]; exact h

/-! ## C287 -/

/-- **C287** (part): with a time step that is not zero, a number of steps that is not zero, the optional limit above zero
and an optional write cycle, the run uses just these values; without limit and write cycle there is no limit and every step is
used.  The directory ends with a slash.  Missing for the full claim: the rejection of other meaningless values, see the
`violated` theorems. -/
theorem C287_accepts_partial [Zero R] [DecidableEq R] (lib : Lib R) (attr : Container) (dir0 dir : Str) (d : R) (n si w : Int)
    (hdir : directory attr dir0 dir) (hd : timeStep lib attr d) (hd0 : d ≠ 0)
    (hn : given attr ['s', 't', 'e', 'p', 's'] n) (hn0 : n ≠ 0) (hni : holds .int n)
    (hsi : (absent attr ['s', 't', 'e', 'p', 's', 'i', 'n', 't'] ∧ si = 0) ∨
      (given attr ['s', 't', 'e', 'p', 's', 'i', 'n', 't'] si ∧ 0 < si ∧ holds .int si))
    (hw : (absent attr ['w', 'c', 'y', 'c', 'l', 'e'] ∧ w = 1) ∨ (given attr ['w', 'c', 'y', 'c', 'l', 'e'] w ∧ holds .int w)) :
    ∃ st, initParams lib attr dir0 = .val st ∧ st.dt = d ∧ st.steps = n ∧ st.stepsint = si ∧ st.wcycle = w ∧ st.dir = dir := by
  unfold initParams
  rw [initDir_ok attr dir0 dir hdir]
  simp only [getDouble_ok lib attr d hd, getNum_given _ _ _ hn hni, if_neg hd0, if_neg hn0]
  have h1 : intOr attr ['s', 't', 'e', 'p', 's', 'i', 'n', 't'] 0 = .val si := by
    rcases hsi with ⟨h, rfl⟩ | ⟨h, -, h2⟩
    · exact intOr_absent _ _ _ h
    · exact intOr_given _ _ _ _ h h2
  have h2 : intOr attr ['w', 'c', 'y', 'c', 'l', 'e'] 1 = .val w := by
    rcases hw with ⟨h, rfl⟩ | ⟨h, h2⟩
    · exact intOr_absent _ _ _ h
    · exact intOr_given _ _ _ _ h h2
  have h3 : ¬ (attr.isPresent ['s', 't', 'e', 'p', 's', 'i', 'n', 't'] ∧ si ≤ 0) := by
    rintro ⟨h3, h4⟩
    rcases hsi with ⟨h, -⟩ | ⟨-, h5, -⟩
    · rw [h] at h3; cases h3
    · omega
  unfold initRest
  rw [h1]
  simp only [if_neg h3, h2]
  exact ⟨_, rfl, rfl, rfl, rfl, rfl, rfl⟩

/-- **C287** (part): a missing or zero time step, a missing or zero number of steps and a limit that is not above zero are
rejected. -/
theorem C287_rejects_partial [Zero R] [DecidableEq R] (lib : Lib R) (attr : Container) (dir0 dir : Str)
    (hdir : directory attr dir0 dir) (n : Int)
    (hn : (absent attr ['s', 't', 'e', 'p', 's'] ∧ n = 0) ∨ (given attr ['s', 't', 'e', 'p', 's'] n ∧ holds .int n)) :
    (absent attr ['d', 't'] ∨ timeStep lib attr 0 → initParams lib attr dir0 = .threw) ∧
    (∀ d, timeStep lib attr d → n = 0 → initParams lib attr dir0 = .threw) ∧
    (∀ d si, timeStep lib attr d → given attr ['s', 't', 'e', 'p', 's', 'i', 'n', 't'] si → holds .int si → si ≤ 0 →
      initParams lib attr dir0 = .threw) := by
  have hst : ∃ b, getNum .int attr ['s', 't', 'e', 'p', 's'] none = .val (b, some n) := by
    rcases hn with ⟨h, rfl⟩ | ⟨h, h2⟩
    · exact ⟨false, (C284_number_partial attr _ .int none).2 h⟩
    · exact ⟨true, getNum_given _ _ _ h h2 none⟩
  obtain ⟨b, hst⟩ := hst
  refine ⟨?_, ?_, ?_⟩
  · intro h
    have hd : getDouble lib attr ['d', 't'] = some 0 := by
      rcases h with h | h
      · unfold getDouble
        rw [absent_getString _ _ h]
      · exact getDouble_ok lib attr 0 h
    unfold initParams
    rw [initDir_ok attr dir0 dir hdir]
    simp only [hd, hst, if_true]
  · intro d hd h0
    unfold initParams
    rw [initDir_ok attr dir0 dir hdir]
    simp only [getDouble_ok lib attr d hd, hst]
    by_cases hd0 : d = 0
    · rw [if_pos hd0]
    · rw [if_neg hd0, if_pos h0]
  · intro d si hd hsi hs2 h0
    unfold initParams
    rw [initDir_ok attr dir0 dir hdir]
    simp only [getDouble_ok lib attr d hd, hst]
    by_cases hd0 : d = 0
    · rw [if_pos hd0]
    · rw [if_neg hd0]
      by_cases hn0 : n = 0
      · rw [if_pos hn0]
      · rw [if_neg hn0]
        unfold initRest
        rw [intOr_given _ _ _ _ hsi hs2]
        obtain ⟨s, hs, -⟩ := hsi
        simp only
        rw [if_pos ⟨present_iff _ _ _ hs, h0⟩]

/-- C287 is violated: no write cycle and no number of steps but zero is rejected.  All negative numbers of steps and all
write cycles below one are taken. -/
theorem C287_violated_sign [Zero R] [DecidableEq R] (lib : Lib R) (attr : Container) (d : R) (n w : Int)
    (hdir : absent attr ['d', 'i', 'r']) (hd : timeStep lib attr d) (hd0 : d ≠ 0)
    (hn : given attr ['s', 't', 'e', 'p', 's'] n) (hn0 : n < 0) (hni : holds .int n)
    (hsi : absent attr ['s', 't', 'e', 'p', 's', 'i', 'n', 't'])
    (hw : given attr ['w', 'c', 'y', 'c', 'l', 'e'] w) (_hw0 : w ≤ 0) (hwi : holds .int w) :
    ∃ st, initParams lib attr [] = .val st ∧ st.steps = n ∧ st.wcycle = w := by
  obtain ⟨st, h, -, h1, -, h2, -⟩ := C287_accepts_partial lib attr [] [] d n 0 w (Or.inl ⟨Or.inr hdir, rfl⟩) hd hd0 hn
    (by omega) hni (Or.inl ⟨hsi, rfl⟩) (Or.inr ⟨hw, hwi⟩)
  exact ⟨st, h, h1, h2⟩

/-- C287 is violated: an empty attribute `dir` is undefined. -/
theorem C287_violated_dir [Zero R] [DecidableEq R] (lib : Lib R) (attr : Container)
    (h : attr.getString ['d', 'i', 'r'] = (true, [])) : initParams lib attr [] = .ub := by
  unfold initParams initDir
  rw [if_pos ⟨present_iff _ _ _ h, rfl⟩, h]
  rfl

/-- C287 is violated: a number of steps that is not a number (`steps=many`) is used without a value. -/
theorem C287_violated_text [Zero R] [DecidableEq R] (lib : Lib R) (attr : Container) (dir0 dir : Str) (d : R) (s : Str)
    (hdir : directory attr dir0 dir) (hd : timeStep lib attr d) (hd0 : d ≠ 0)
    (hs : attr.getString ['s', 't', 'e', 'p', 's'] = (true, s)) (hn : noNumber s) : initParams lib attr dir0 = .ub := by
  unfold initParams
  rw [initDir_ok attr dir0 dir hdir]
  simp only [getDouble_ok lib attr d hd, C284_violated_text attr _ s .int none hs hn, if_neg hd0]

/-! ## C288 -/

/-- Number of values of a one-point function. -/
theorem c1Loop_length (s : Cfun.Setup V K) (buf : List V) (n t : Nat) (bra : Option V) (out l : List K)
    (h : Cfun.c1Loop s buf n t bra out = .val l) : l.length = out.length + n := by
  induction n generalizing t bra out with
  | zero => simp only [Cfun.c1Loop, Ans.val.injEq] at h; rw [← h]; rfl
  | succ n ih =>
    unfold Cfun.c1Loop at h
    split at h
    · cases h
    · simp only at h
      split at h
      · have := ih _ _ _ h
        rw [this, List.length_append, List.length_singleton]; omega
      · have := ih _ _ _ h
        rw [this, List.length_append, List.length_singleton]; omega

theorem runC1_length (s : Cfun.Setup V K) (buf : List V) (c : Nat) (l : List K) (h : Cfun.runC1 s buf c = .val l) :
    (l.length : Int) = s.steps.tdiv s.wcycle := by
  unfold Cfun.runC1 at h
  split at h
  · cases h
  · split at h
    · cases h
    · split at h
      · cases h
      · split at h
        · have := c1Loop_length _ _ _ _ _ _ _ h
          rw [this]; simp only [List.length_nil]; omega
        · cases h
        · cases h

theorem runC2_nt (s : Cfun.Setup V K) (buf : List V) (c : Nat) (nt : Nat) (f : Nat → K)
    (h : Cfun.runC2 s buf c = .val (nt, f)) : (nt : Int) = s.steps.tdiv s.wcycle := by
  unfold Cfun.runC2 at h
  split at h
  · cases h
  · split at h
    · cases h
    · split at h
      · cases h
      · split at h
        · cases h
        · cases h
        · simp only at h
          have key : ∀ (x : Ans (Nat → K)) (m : Nat),
              (match x with
                | .val f => (.val (m, f) : Ans (Nat × (Nat → K)))
                | .threw => .threw
                | .ub => .ub) = .val (nt, f) → nt = m := by
            intro x m hx
            cases x with
            | val g => simp only [Ans.val.injEq, Prod.mk.injEq] at hx; exact hx.1.symm
            | threw => cases hx
            | ub => cases hx
          generalize (if (_ : Option V).isSome = true then Cfun.search s.bra 0 0 0 else (0, 0)) = q at h
          by_cases h1 : (Cfun.search s.ket 0 0 0).1 = 2 ∧ q.1 ≤ 1
          · rw [if_pos h1] at h
            have := key _ _ h; omega
          · rw [if_neg h1] at h
            by_cases h2 : (Cfun.search s.ket 0 0 0).1 = 1 ∧ q.1 = 2
            · rw [if_pos h2] at h
              have := key _ _ h; omega
            · rw [if_neg h2] at h
              cases h

/-- Number of values of the calculation. -/
theorem run_length (s : Cfun.Setup V K) (r : Cfun.Result K) (h : Cfun.run s none = .val r) :
    match r with
    | .one l => (l.length : Int) = s.steps.tdiv s.wcycle
    | .two nt _ => (nt : Int) = s.steps.tdiv s.wcycle := by
  unfold Cfun.run at h
  simp only at h
  split at h
  · cases h
  · split at h
    · cases h
    · cases h
    · split at h
      · cases h
      · cases h
      · split at h
        · cases h
        · cases h
        · rename_i buf clock _
          split at h
          · split at h
            · rename_i l hl
              simp only [Ans.val.injEq] at h
              subst h
              exact runC1_length _ _ _ _ hl
            · cases h
            · cases h
          · split at h
            · split at h
              · rename_i nt f hl
                simp only [Ans.val.injEq] at h
                subst h
                exact runC2_nt _ _ _ _ _ hl
              · cases h
              · cases h
            · cases h

/-- The numbers that were accepted are numbers of the type `int`. -/
theorem store_int_range (neg : Bool) (n : Nat) (v : Int) (h : store .int neg n = some v) : holds .int v := by
  simp only [store] at h
  generalize (if neg = true then -(n : Int) else (n : Int)) = u at h
  by_cases hu : -2147483648 ≤ u ∧ u ≤ 2147483647
  · rw [if_pos hu, Option.some.injEq] at h
    subst h; unfold holds; omega
  · rw [if_neg hu] at h
    cases h

theorem getNum_range (attr : Container) (name : Str) (old : Option Int) (b : Bool) (v : Int)
    (ho : ∀ o, old = some o → holds .int o) (h : getNum .int attr name old = .val (b, some v)) : holds .int v := by
  unfold getNum at h
  split at h
  · split at h
    · simp only [Ans.val.injEq, Prod.mk.injEq] at h; exact ho v h.2
    · split at h
      · cases h
      · rename_i hs
        simp only [Ans.val.injEq, Prod.mk.injEq, Option.some.injEq] at h
        rw [← h.2]; exact store_int_range _ _ _ hs
  · simp only [Ans.val.injEq, Prod.mk.injEq, Option.some.injEq] at h
    rw [← h.2]; unfold holds; decide

theorem intOr_range (attr : Container) (name : Str) (old v : Int) (ho : holds .int old) (h : intOr attr name old = .val v) :
    holds .int v := by
  unfold intOr at h
  split at h
  · split at h
    · rename_i hg
      simp only [Ans.val.injEq] at h; subst h
      exact getNum_range attr name _ _ _ (by intro o e; cases e; exact ho) hg
    · cases h
    · cases h
    · cases h
  · simp only [Ans.val.injEq] at h; subst h; exact ho

theorem initParams_range [Zero R] [DecidableEq R] (lib : Lib R) (attr : Container) (dir0 : Str) (st : Settings R)
    (h : initParams lib attr dir0 = .val st) : holds .int st.steps ∧ holds .int st.wcycle := by
  unfold initParams at h
  split at h
  · cases h
  · cases h
  · split at h
    · cases h
    · cases h
    · cases h
    · rename_i dt b steps _ hg
      split at h
      · cases h
      · split at h
        · cases h
        · rename_i steps
          have hsr := getNum_range attr _ none b steps (by intro o e; cases e) hg
          split at h
          · cases h
          · unfold initRest at h
            split at h
            · cases h
            · cases h
            · split at h
              · cases h
              · split at h
                · cases h
                · cases h
                · rename_i w hw
                  simp only [Ans.val.injEq] at h
                  subst h
                  exact ⟨hsr, intOr_range attr _ 1 w (by unfold holds; decide) hw⟩

theorem tdiv_range (a b : Int) (ha : holds .int a) (hb : holds .int b) (hx : ¬ (a = -2147483648 ∧ b = -1)) :
    holds .int (a.tdiv b) := by
  unfold holds at *
  have h1 : (a.tdiv b).natAbs = a.natAbs / b.natAbs := Int.natAbs_tdiv a b
  have h2 : a.natAbs / b.natAbs ≤ a.natAbs := Nat.div_le_self _ _
  by_cases hm : a = -2147483648
  · have hb1 : b ≠ -1 := fun h => hx ⟨hm, h⟩
    by_cases hb2 : b = 0
    · subst hb2; simp
    · by_cases hb3 : b = 1
      · subst hb3; rw [Int.tdiv_one]; omega
      · have h3 : a.natAbs / b.natAbs ≤ a.natAbs / 2 := Nat.div_le_div_left (by omega) (by omega)
        omega
  · omega

/-- **C288**: the meta data of the file that a run writes describe its values: `dim` is the number of times, `Nt` the
number of values for each of them (the number of steps divided by the write cycle), so that there are `Nt` or `Nt` times `Nt`
values, and `dt` is the time step times the write cycle. -/
theorem C288_meta [Zero R] [DecidableEq R] (lib : Lib R) (attr : Container) (dir0 : Str) (sec : Sections V K) (f : OutFile K)
    (h : program lib attr dir0 sec = .val f) :
    ∃ (st : Settings R) (nt dim : Nat), initParams lib attr dir0 = .val st ∧ (dim = 1 ∨ dim = 2) ∧
      (nt : Int) = st.steps.tdiv st.wcycle ∧ f.values.length = nt ^ dim ∧
      (∀ old, getNum .int f.info ['N', 't'] old = .val (true, some nt)) ∧
      (∀ old, getNum .int f.info ['d', 'i', 'm'] old = .val (true, some dim)) ∧
      f.info.getString ['d', 't'] = (true, lib.text (lib.times st.dt st.wcycle)) ∧
      f.info.getString ['C', 'L', 'A', 'S', 'S'] = (true, ['C', 'f', 'u', 'n']) := by
  unfold program at h
  split at h
  · cases h
  · cases h
  · rename_i st hst
    obtain ⟨r1, r2⟩ := initParams_range lib attr dir0 st hst
    split at h
    · cases h
    · rename_i hov
      have rng := tdiv_range _ _ r1 r2 hov
      have hinfo : ∀ dims : Int, holds .int dims →
          (∀ old, getNum .int (createMeta lib st dims) ['N', 't'] old = .val (true, some (st.steps.tdiv st.wcycle))) ∧
          (∀ old, getNum .int (createMeta lib st dims) ['d', 'i', 'm'] old = .val (true, some dims)) ∧
          (createMeta lib st dims).getString ['d', 't'] = (true, lib.text (lib.times st.dt st.wcycle)) ∧
          (createMeta lib st dims).getString ['C', 'L', 'A', 'S', 'S'] = (true, ['C', 'f', 'u', 'n']) := by
        intro dims hdm
        refine ⟨?_, ?_, ?_, ?_⟩
        · intro old
          unfold createMeta
          simp only
          rw [((C283_others _ _ _ _).2 _ (by decide)).2]
          have : getNum .int ((setNum .int (Container.empty.setValue ['C', 'L', 'A', 'S', 'S'] ['C', 'f', 'u', 'n'] .undef)
              ['N', 't'] (st.steps.tdiv st.wcycle)).setValue ['d', 't'] (lib.text (lib.times st.dt st.wcycle)) .double)
              ['N', 't'] old = getNum .int (setNum .int (Container.empty.setValue ['C', 'L', 'A', 'S', 'S']
                ['C', 'f', 'u', 'n'] .undef) ['N', 't'] (st.steps.tdiv st.wcycle)) ['N', 't'] old := by
            unfold getNum
            rw [find_setValue, if_neg (by decide)]
          rw [this]
          exact C283_roundtrip _ _ _ _ _ rng old
        · intro old
          unfold createMeta
          exact C283_roundtrip _ _ _ _ _ hdm old
        · unfold createMeta
          simp only
          rw [((C283_others _ _ _ _).2 _ (by decide)).1, getString_eq, find_setValue, if_pos rfl]
        · unfold createMeta
          simp only
          rw [((C283_others _ _ _ _).2 _ (by decide)).1, getString_eq, find_setValue, if_neg (by decide)]
          unfold setNum
          rw [find_setValue, if_neg (by decide), find_setValue, if_pos rfl]
      split at h
      · cases h
      · cases h
      · rename_i r hr
        have hl := run_length _ r hr
        simp only [Ans.val.injEq] at h
        subst h
        cases r with
        | one l =>
          simp only at hl
          obtain ⟨i1, i2, i3, i4⟩ := hinfo 1 (by unfold holds; decide)
          refine ⟨st, l.length, 1, hst, Or.inl rfl, hl, ?_, ?_, i2, i3, i4⟩
          · simp [output]
          · intro old; rw [hl]; exact i1 old
        | two nt g =>
          simp only at hl
          obtain ⟨i1, i2, i3, i4⟩ := hinfo 2 (by unfold holds; decide)
          refine ⟨st, nt, 2, hst, Or.inr rfl, hl, ?_, ?_, i2, i3, i4⟩
          · simp [output, pow_two]
          · intro old; rw [hl]; exact i1 old

/-! ## C289 -/

/-- **C289** (part): the file lies in the directory of the run and one- and two-point functions have different names.
Missing for the full claim: the name asked for. -/
theorem C289_partial [Zero R] [DecidableEq R] (lib : Lib R) (attr : Container) (dir0 dir : Str) (sec : Sections V K)
    (f : OutFile K) (hdir : directory attr dir0 dir) (h : program lib attr dir0 sec = .val f) :
    (f.name = dir ++ ['C', 'f', 'u', 'n', '_', '1'] ∧ ∀ old, getNum .int f.info ['d', 'i', 'm'] old = .val (true, some 1)) ∨
    (f.name = dir ++ ['C', 'f', 'u', 'n', '_', '2'] ∧ ∀ old, getNum .int f.info ['d', 'i', 'm'] old = .val (true, some 2)) := by
  have hd : ∀ st, initParams lib attr dir0 = .val st → st.dir = dir := by
    intro st hst
    unfold initParams at hst
    rw [initDir_ok attr dir0 dir hdir] at hst
    simp only at hst
    split at hst
    · cases hst
    · cases hst
    · cases hst
    · split at hst
      · cases hst
      · split at hst
        · cases hst
        · split at hst
          · cases hst
          · unfold initRest at hst
            split at hst
            · cases hst
            · cases hst
            · split at hst
              · cases hst
              · split at hst
                · cases hst
                · cases hst
                · simp only [Ans.val.injEq] at hst
                  rw [← hst]
  unfold program at h
  split at h
  · cases h
  · cases h
  · rename_i st hst
    have hdd := hd st hst
    split at h
    · cases h
    · split at h
      · cases h
      · cases h
      · rename_i r hr
        simp only [Ans.val.injEq] at h
        subst h
        cases r with
        | one l =>
          left
          refine ⟨by simp [output, hdd], ?_⟩
          intro old
          unfold output createMeta
          exact C283_roundtrip _ _ _ _ _ (by unfold holds; decide) old
        | two nt g =>
          right
          refine ⟨by simp [output, hdd], ?_⟩
          intro old
          unfold output createMeta
          exact C283_roundtrip _ _ _ _ _ (by unfold holds; decide) old

/-- C289 is violated: the attribute `fname` has no effect whatever on the file. -/
theorem C289_violated [Zero R] [DecidableEq R] (lib : Lib R) (attr : Container) (dir0 name : Str) (sec : Sections V K) :
    program lib (attr.setValue ['f', 'n', 'a', 'm', 'e'] name .undef) dir0 sec = program lib attr dir0 sec := by
  have hf : ∀ k, k ≠ ['f', 'n', 'a', 'm', 'e'] → OMap.find k (attr.setValue ['f', 'n', 'a', 'm', 'e'] name .undef).params =
      OMap.find k attr.params := fun k hk => by rw [find_setValue, if_neg hk]
  have hp : ∀ k, k ≠ ['f', 'n', 'a', 'm', 'e'] →
      (attr.setValue ['f', 'n', 'a', 'm', 'e'] name .undef).isPresent k = attr.isPresent k := fun k hk => by
    unfold Container.isPresent; rw [hf k hk]
  have hg : ∀ k, k ≠ ['f', 'n', 'a', 'm', 'e'] →
      (attr.setValue ['f', 'n', 'a', 'm', 'e'] name .undef).getString k = attr.getString k := fun k hk => by
    rw [getString_eq, getString_eq, hf k hk]
  have hnum : ∀ k old, k ≠ ['f', 'n', 'a', 'm', 'e'] →
      getNum .int (attr.setValue ['f', 'n', 'a', 'm', 'e'] name .undef) k old = getNum .int attr k old := fun k old hk => by
    unfold getNum; rw [hf k hk]
  have hint : ∀ k old, k ≠ ['f', 'n', 'a', 'm', 'e'] →
      intOr (attr.setValue ['f', 'n', 'a', 'm', 'e'] name .undef) k old = intOr attr k old := fun k old hk => by
    unfold intOr; rw [hp k hk, hnum k _ hk]
  have hdir : initDir (attr.setValue ['f', 'n', 'a', 'm', 'e'] name .undef) dir0 = initDir attr dir0 := by
    unfold initDir
    rw [hp _ (by decide), hg _ (by decide)]
  have hdt : getDouble lib (attr.setValue ['f', 'n', 'a', 'm', 'e'] name .undef) ['d', 't'] =
      getDouble lib attr ['d', 't'] := by
    unfold getDouble; rw [hg _ (by decide)]
  have key : ∀ (a : Container), (match initParams lib a dir0 with
      | .threw => (.threw : Ans (OutFile K))
      | .ub => .ub
      | .val s =>
        if s.steps = -2147483648 ∧ s.wcycle = -1 then .ub
        else
          match Cfun.run { psi0 := sec.psi0, U := sec.U, ip := sec.ip, zero := sec.zero, ket := sec.ket, bra := sec.bra,
                           steps := s.steps, wcycle := s.wcycle, stepsint := s.stepsint } none with
          | .threw => .threw
          | .ub => .ub
          | .val r => .val (output lib s r)) = program lib a dir0 sec := fun a => rfl
  rw [← key, ← key]
  have hrest : ∀ (dir : Str) (dt : R) (n : Int),
      (∃ s t, initRest (attr.setValue ['f', 'n', 'a', 'm', 'e'] name .undef) dir dt n = .val s ∧
        initRest attr dir dt n = .val t ∧ s = { t with fname := name }) ∨
      initRest (attr.setValue ['f', 'n', 'a', 'm', 'e'] name .undef) dir dt n = initRest attr dir dt n := by
    intro dir dt n
    unfold initRest
    rw [hint _ _ (by decide), hp _ (by decide), hint _ _ (by decide)]
    cases intOr attr ['s', 't', 'e', 'p', 's', 'i', 'n', 't'] 0 with
    | threw => exact Or.inr rfl
    | ub => exact Or.inr rfl
    | val si =>
      simp only
      by_cases hsi : attr.isPresent ['s', 't', 'e', 'p', 's', 'i', 'n', 't'] = true ∧ si ≤ 0
      · right; rw [if_pos hsi, if_pos hsi]
      · rw [if_neg hsi, if_neg hsi]
        cases intOr attr ['w', 'c', 'y', 'c', 'l', 'e'] 1 with
        | threw => exact Or.inr rfl
        | ub => exact Or.inr rfl
        | val w =>
          left
          refine ⟨_, _, rfl, rfl, ?_⟩
          have e1 : textOr (attr.setValue ['f', 'n', 'a', 'm', 'e'] name .undef) ['f', 'n', 'a', 'm', 'e']
              ['C', 'f', 'u', 'n'] = name := by
            unfold textOr
            have : (attr.setValue ['f', 'n', 'a', 'm', 'e'] name .undef).getString ['f', 'n', 'a', 'm', 'e'] = (true, name) := by
              rw [getString_eq, find_setValue, if_pos rfl]
            rw [if_pos (present_iff _ _ _ this), this]
          have e2 : ∀ k old, k ≠ ['f', 'n', 'a', 'm', 'e'] →
              textOr (attr.setValue ['f', 'n', 'a', 'm', 'e'] name .undef) k old = textOr attr k old := fun k old hk => by
            unfold textOr; rw [hp k hk, hg k hk]
          rw [e1, e2 _ _ (by decide), e2 _ _ (by decide)]
  have hinit : (∃ s t, initParams lib (attr.setValue ['f', 'n', 'a', 'm', 'e'] name .undef) dir0 = .val s ∧
        initParams lib attr dir0 = .val t ∧ s = { t with fname := name }) ∨
      initParams lib (attr.setValue ['f', 'n', 'a', 'm', 'e'] name .undef) dir0 = initParams lib attr dir0 := by
    unfold initParams
    rw [hdir, hdt, hnum _ _ (by decide)]
    cases initDir attr dir0 with
    | threw => exact Or.inr rfl
    | ub => exact Or.inr rfl
    | val dir =>
      simp only
      cases getDouble lib attr ['d', 't'] with
      | none => exact Or.inr rfl
      | some dt =>
        cases getNum .int attr ['s', 't', 'e', 'p', 's'] none with
        | threw => exact Or.inr rfl
        | ub => exact Or.inr rfl
        | val p =>
          obtain ⟨b, o⟩ := p
          simp only
          by_cases hz : dt = 0
          · right; rw [if_pos hz, if_pos hz]
          · rw [if_neg hz, if_neg hz]
            cases o with
            | none => exact Or.inr rfl
            | some n =>
              simp only
              by_cases hn : n = 0
              · right; rw [if_pos hn, if_pos hn]
              · rw [if_neg hn, if_neg hn]
                exact hrest dir dt n
  rcases hinit with ⟨s, t, e1, e2, e3⟩ | e
  · rw [e1, e2]
    subst e3
    rfl
  · rw [e]

/-! ## Examples -/

/-- Conversions for integer time steps. -/
def sampleLib : Lib Int where
  scan s := (convert s).map (fun p => if p.1 then -(p.2 : Int) else p.2)
  text := FileSeq.showInt
  times a b := a * b

/-- Attributes `dt=2 steps=7 wcycle=3 dir=out`. -/
def sampleAttr : Container :=
  (((Container.empty.setValue ['d', 't'] ['2'] .undef).setValue ['s', 't', 'e', 'p', 's'] ['7'] .undef).setValue
    ['w', 'c', 'y', 'c', 'l', 'e'] ['3'] .undef).setValue ['d', 'i', 'r'] ['o', 'u', 't'] .undef

/-- A propagator that adds one and a probe that doubles. -/
def sampleSec : Sections Int Int where
  psi0 := 1
  U := fun _ x => x + 1
  ip a b := a * b
  zero := 0
  ket := [none, some (fun _ x => 2 * x)]
  bra := []

/-- The run with these attributes writes two values to `out/Cfun_1`; the hypotheses of C287 to C289 are met. -/
example : (∃ st, initParams sampleLib sampleAttr [] = .val st ∧ st.steps = 7 ∧ st.wcycle = 3 ∧ st.dir = ['o', 'u', 't', '/']) ∧
    directory sampleAttr [] ['o', 'u', 't', '/'] ∧ timeStep sampleLib sampleAttr 2 ∧
    given sampleAttr ['s', 't', 'e', 'p', 's'] 7 ∧
    ∃ f, program sampleLib sampleAttr [] sampleSec = .val f ∧ f.values = [2, 32] ∧
      f.name = ['o', 'u', 't', '/', 'C', 'f', 'u', 'n', '_', '1'] := by
  refine ⟨⟨_, rfl, rfl, rfl, rfl⟩, Or.inr ⟨rfl, ['o', 'u'], 't', rfl, rfl⟩, ⟨['2'], rfl, rfl⟩,
    ⟨['7'], rfl, ['7'], 7, ⟨by decide, ?_, by decide⟩, Or.inl ⟨rfl, rfl⟩⟩, ⟨_, rfl, by decide, rfl⟩⟩
  intro c hc
  rw [List.mem_singleton] at hc
  subst hc
  unfold digitChar; decide

end QDng.CfIn
