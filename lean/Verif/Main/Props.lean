import Verif.Main.Lemmas
import Verif.RunXml.Props

/-
C235: the exit status tells whether the command line was understood and the run succeeded.
C236: the settings of a run come from the command line, then from the environment.
C237: the format of the input file is recognised.

`decls` are the declarations of the options of the program, `scan (takes decls) args` is what `getopt(3)` finds on the command line (see C52),
`given` what it says about a letter.
-/

namespace QDng.Main
open QDng.Cmdline QDng.Common

/-! ### Specification -/

/-- A request for the help or the version. -/
def AsksForText (args : List Str) : Prop :=
  given (scan (takes decls) args).found 'h' ≠ none ∨ given (scan (takes decls) args).found 'v' ≠ none

/-- The words that are not options: the input file and the definitions of variables. -/
def Words (args : List Str) : List Str := (scan (takes decls) args).rest

/-- A word defines a variable. -/
def Defines (w : Str) : Prop := '=' ∈ w

theorem varDefs_none_iff (ds : List Str) (m : OMap Str Str) : RunXml.varDefs ds m = none ↔ ∃ d ∈ ds, ¬ Defines d := by
  induction ds generalizing m with
  | nil => simp [RunXml.varDefs]
  | cons d ds ih =>
    unfold RunXml.varDefs RunXml.varDef
    cases hf : d.findIdx? (· = '=') with
    | none =>
      simp only [true_iff]
      refine ⟨d, List.mem_cons_self, fun h => ?_⟩
      have := List.findIdx?_eq_none_iff.mp hf '=' h
      simp at this
    | some k =>
      dsimp only
      rw [ih]
      constructor
      · rintro ⟨x, hx, hx'⟩
        exact ⟨x, List.mem_cons_of_mem _ hx, hx'⟩
      · rintro ⟨x, hx, hx'⟩
        rcases List.mem_cons.mp hx with e | e
        · exfalso
          apply hx'
          rw [e]
          rw [List.findIdx?_eq_some_iff_getElem] at hf
          obtain ⟨hk, hp, _⟩ := hf
          have : d[k] = '=' := by simpa using hp
          show '=' ∈ d
          rw [← this]
          exact List.getElem_mem hk
        · exact ⟨x, e, hx'⟩

theorem isSome_or_iff (args : List Str) :
    (((given (scan (takes decls) args).found 'h').isSome || (given (scan (takes decls) args).found 'v').isSome) = true) ↔ AsksForText args := by
  unfold AsksForText
  rw [Bool.or_eq_true]
  cases given (scan (takes decls) args).found 'h' <;> cases given (scan (takes decls) args).found 'v' <;> simp

/-! ### C235: the exit status -/

/-- C235, what is run: a run begins exactly if neither the help nor the version is asked for, an input is named and every further word
defines a variable. -/
theorem C235_run_begins (E : Env) (name : Str) (args : List Str) (hn : 1 + 2 * args.length < 2 ^ 32) :
    (∃ s, start E name args = .run s) ↔
      ¬ AsksForText args ∧ ∃ input defs, Words args = input :: defs ∧ ∀ d ∈ defs, Defines d := by
  rw [start_eq E name args hn]
  by_cases hA : AsksForText args
  · rw [if_pos ((isSome_or_iff args).mpr hA)]
    constructor
    · rintro ⟨s, hs⟩; cases hs
    · rintro ⟨h, _⟩; exact absurd hA h
  · rw [if_neg (fun h => hA ((isSome_or_iff args).mp h))]
    unfold Words
    cases hr : (scan (takes decls) args).rest with
    | nil =>
      constructor
      · rintro ⟨s, hs⟩; cases hs
      · rintro ⟨_, i, d, h, _⟩; cases h
    | cons input defs =>
      dsimp only
      cases hv : RunXml.varDefs defs [] with
      | none =>
        obtain ⟨d, hd, hd'⟩ := (varDefs_none_iff defs []).mp hv
        constructor
        · rintro ⟨s, hs⟩; cases hs
        · rintro ⟨_, i, ds, h, hall⟩
          injection h with _ h2
          rw [← h2] at hall
          exact absurd (hall d hd) hd'
      | some vars =>
        refine ⟨fun _ => ⟨hA, input, defs, rfl, fun d hd => ?_⟩, fun _ => ⟨_, rfl⟩⟩
        by_cases hd' : Defines d
        · exact hd'
        · have := (varDefs_none_iff defs []).mpr ⟨d, hd, hd'⟩
          rw [hv] at this
          cases this

/-- C235, the status of a run: if a run begins, the program ends with status 0 exactly if the run ended regularly, and with status 1 exactly if
it ended with an exception of the program.  Missing: the status if no run begins, see the violations. -/
theorem C235_status_partial (E : Env) (run : Setup → RunEnd) (name : Str) (args : List Str) (s : Setup) (h : start E name args = .run s) :
    (program E run name args = .status 0 ↔ run s = .ok) ∧ (program E run name args = .status 1 ↔ run s = .threw) := by
  unfold program
  rw [h]
  dsimp only
  cases run s <;> simp

/-- C235, help and version: if one of them is asked for, the program ends with status 0 and nothing is run, whatever else is on the command
line. -/
theorem C235_text (E : Env) (run : Setup → RunEnd) (name : Str) (args : List Str) (hn : 1 + 2 * args.length < 2 ^ 32)
    (h : AsksForText args) : program E run name args = .status 0 ∧ ∀ s, start E name args ≠ .run s := by
  have hs : start E name args = .ended 0 := by
    rw [start_eq E name args hn, if_pos ((isSome_or_iff args).mpr h)]
  refine ⟨?_, fun s e => ?_⟩
  · unfold program
    rw [hs]
  · rw [hs] at e
    cases e

/-- C235 is violated: without an input file the program reports the problem and ends with the status of success. -/
theorem C235_violated_no_input (E : Env) (run : Setup → RunEnd) (name : Str) (args : List Str) (hn : 1 + 2 * args.length < 2 ^ 32)
    (h : Words args = []) : program E run name args = .status 0 := by
  unfold program
  have : start E name args = .ended 0 := by
    rw [start_eq E name args hn]
    unfold Words at h
    rw [h]
    split <;> rfl
  rw [this]

/-- C235 is violated: with a word that does not define a variable the program reports the problem, runs nothing and ends with the status of
success. -/
theorem C235_violated_bad_definition (E : Env) (run : Setup → RunEnd) (name : Str) (args : List Str) (hn : 1 + 2 * args.length < 2 ^ 32)
    (input : Str) (defs : List Str) (h : Words args = input :: defs) (hd : ∃ d ∈ defs, ¬ Defines d) :
    program E run name args = .status 0 ∧ ∀ s, start E name args ≠ .run s := by
  have hs : start E name args = .ended 0 := by
    rw [start_eq E name args hn]
    unfold Words at h
    rw [h]
    dsimp only
    rw [(varDefs_none_iff defs []).mpr hd]
    split <;> rfl
  refine ⟨?_, fun s e => ?_⟩
  · unfold program
    rw [hs]
  · rw [hs] at e
    cases e

theorem given_mark (found : List (Char × Option Str)) (c : Char) (hc : c ≠ '?') : given (('?', none) :: found) c = given found c := by
  rw [given]
  cases h : given found c with
  | some s => rfl
  | none =>
    dsimp only
    rw [if_neg (fun e => hc e.symm)]

theorem scan_unknown (kind : Char → Option Bool) (c : Char) (hc : kind c = none) (hd : c ≠ '-') (args : List Str) :
    (scan kind (['-', c] :: args)).rest = (scan kind args).rest ∧
      (scan kind (['-', c] :: args)).found = ('?', none) :: (scan kind args).found := by
  have hne : ¬ (['-', c] : Str) = ['-', '-'] := by
    intro e
    injection e with _ e
    injection e with e _
    exact hd e
  have hcl : ∀ n, cluster kind n [c] = ([('?', none)], false) := by
    intro n
    simp only [cluster, hc]
  cases args with
  | nil =>
    unfold scan
    rw [if_neg hne]
    simp only [hcl]
    exact ⟨trivial, trivial⟩
  | cons a l =>
    rw [show scan kind (['-', c] :: a :: l) = ⟨('?', none) :: (scan kind (a :: l)).found, ['-', c] :: (scan kind (a :: l)).used,
      (scan kind (a :: l)).rest⟩ by
        conv => lhs; unfold scan
        rw [if_neg hne]
        simp only [hcl, Bool.false_eq_true, if_false]
        rfl]
    exact ⟨rfl, rfl⟩

theorem start_congr (E : Env) (name : Str) (a b : List Str) (ha : 1 + 2 * a.length < 2 ^ 32) (hb : 1 + 2 * b.length < 2 ^ 32)
    (hr : (scan (takes decls) a).rest = (scan (takes decls) b).rest)
    (hf : ∀ c, c ≠ '?' → given (scan (takes decls) a).found c = given (scan (takes decls) b).found c) :
    start E name a = start E name b := by
  rw [start_eq E name a ha, start_eq E name b hb]
  unfold dirOf threadsOf modOf
  rw [hr, hf 'h' (by decide), hf 'v' (by decide), hf 'd' (by decide), hf 'm' (by decide), hf 'p' (by decide), hf 'c' (by decide),
    hf 'g' (by decide)]

/-- C235 is violated: an option that the program does not know is ignored without a word: every command line starts the same run with it as
without it. -/
theorem C235_violated_unknown_option (E : Env) (name : Str) (args : List Str) (c : Char) (hc : takes decls c = none) (hd : c ≠ '-')
    (hn : 1 + 2 * (args.length + 1) < 2 ^ 32) : start E name (['-', c] :: args) = start E name args := by
  obtain ⟨hr, hf⟩ := scan_unknown (takes decls) c hc hd args
  refine start_congr E name _ _ (by simpa using hn) (by omega) hr (fun k hk => ?_)
  rw [hf]
  exact given_mark _ k hk

/-! ### C236: the settings -/

/-- C236, all settings but the number of threads: the input is the first word, the variables have the values of their last definition, the
directory is that of `-d`, else that of the environment, else empty, the module path is that of `-m`, else the global one, the program is
interactive exactly with `-c`, and prints debug output with `-g` or if it is switched on globally.  Missing: the number of threads, see
below. -/
theorem C236_settings_partial (E : Env) (name : Str) (args : List Str) (hn : 1 + 2 * args.length < 2 ^ 32) (s : Setup)
    (h : start E name args = .run s) :
    (Words args).head? = some s.input ∧ RunXml.varDefs (Words args).tail [] = some s.vars ∧
    s.dir = (match given (scan (takes decls) args).found 'd' with
      | some d => d
      | none => E.qdDir.getD []) ∧
    s.modpath = (match given (scan (takes decls) args).found 'm' with
      | some m => some m
      | none => E.modpath) ∧
    (s.interactive = true ↔ given (scan (takes decls) args).found 'c' ≠ none) ∧
    (s.debug = true ↔ given (scan (takes decls) args).found 'g' ≠ none ∨ E.debug = some true) := by
  rw [start_eq E name args hn] at h
  split at h
  · cases h
  · unfold Words
    cases hr : (scan (takes decls) args).rest with
    | nil => rw [hr] at h; cases h
    | cons input defs =>
      rw [hr] at h
      dsimp only at h
      cases hv : RunXml.varDefs defs [] with
      | none => rw [hv] at h; cases h
      | some vars =>
        rw [hv] at h
        dsimp only at h
        injection h with h
        rw [← h]
        refine ⟨rfl, hv, ?_, rfl, ?_, ?_⟩
        · unfold dirOf
          cases given (scan (takes decls) args).found 'd' <;> rfl
        · cases given (scan (takes decls) args).found 'c' <;> simp
        · dsimp only
          cases given (scan (takes decls) args).found 'g' with
          | none => cases E.debug <;> simp
          | some t => simp

/-- The number of threads that is passed on. -/
theorem threads_eq (E : Env) (name : Str) (args : List Str) (hn : 1 + 2 * args.length < 2 ^ 32) (s : Setup)
    (h : start E name args = .run s) : s.threads = threadsOf E (scan (takes decls) args).found := by
  rw [start_eq E name args hn] at h
  split at h
  · cases h
  · split at h
    · cases h
    · split at h
      · cases h
      · injection h with h
        rw [← h]

/-- C236, the number of threads: with `-p n` it is `n`; without `-p` it is that of the environment variable if this is a positive number of the
range of `int`, and 1 if the variable is not set or not positive.  Missing: arguments of `-p` that are no positive number. -/
theorem C236_threads_partial (E : Env) (name : Str) (args : List Str) (hn : 1 + 2 * args.length < 2 ^ 32) (s : Setup)
    (h : start E name args = .run s) :
    (∀ t n, given (scan (takes decls) args).found 'p' = some t → t ≠ [] → E.scanInt t = some n → s.threads = n) ∧
    (given (scan (takes decls) args).found 'p' = none →
      (E.ompThreads = none → s.threads = 1) ∧
      ∀ e, E.ompThreads = some e → - 2 ^ 31 ≤ E.strtol e → E.strtol e < 2 ^ 31 →
        s.threads = if 0 < E.strtol e then E.strtol e else 1) := by
  rw [threads_eq E name args hn s h]
  unfold threadsOf
  refine ⟨fun t n ht hne hs => ?_, fun hp => ⟨fun he => ?_, fun e he h1 h2 => ?_⟩⟩
  · rw [ht]
    dsimp only
    rw [if_neg hne, hs]
    rfl
  · rw [hp, he]
  · rw [hp, he]
    dsimp only
    have : narrow (E.strtol e) = E.strtol e := by
      unfold narrow
      omega
    rw [this]

/-- C236 is violated: with an argument of `-p` that is no number the program runs with one thread, whatever the environment says. -/
theorem C236_violated_no_number (E : Env) (name : Str) (args : List Str) (hn : 1 + 2 * args.length < 2 ^ 32) (s : Setup)
    (h : start E name args = .run s) (t : Str) (ht : given (scan (takes decls) args).found 'p' = some t) (hne : t ≠ [])
    (hs : E.scanInt t = none) : s.threads = 1 := by
  rw [threads_eq E name args hn s h]
  unfold threadsOf
  rw [ht]
  dsimp only
  rw [if_neg hne, hs]
  rfl

/-- C236 is violated: a number of threads that is not positive is passed on to OpenMP, which accepts only positive ones. -/
theorem C236_violated_not_positive (E : Env) (name : Str) (args : List Str) (hn : 1 + 2 * args.length < 2 ^ 32) (s : Setup)
    (h : start E name args = .run s) (t : Str) (ht : given (scan (takes decls) args).found 'p' = some t) (hne : t ≠ [])
    (n : Int) (hs : E.scanInt t = some n) (hle : n ≤ 0) : s.threads ≤ 0 := by
  rw [(C236_threads_partial E name args hn s h).1 t n ht hne hs]
  exact hle

/-! ### C237: the format of the input file -/

theorem checkType_of (content : List Char) (hne : content ≠ []) :
    checkType (some content) =
      match strstr ['/', '>'] (buffer content), strstr ['<', '/'] (buffer content), strstr ['{'] (buffer content),
        strstr ['}'] (buffer content) with
      | some a, some b, some c, some _ => if a || b then .val .xml else if c then .val .simple else .val .unknown
      | some a, some b, _, _ => if a || b then .val .xml else .ub
      | _, _, _, _ => .ub := by
  unfold checkType
  dsimp only
  have : ¬ content.take chunk = [] := by
    rw [List.take_eq_nil_iff]
    rintro (e | e)
    · exact absurd e (by decide)
    · exact hne e
  rw [if_neg this]
  cases strstr ['/', '>'] (buffer content) with
  | none => rfl
  | some a =>
    cases strstr ['<', '/'] (buffer content) with
    | none => rfl
    | some b =>
      cases strstr ['{'] (buffer content) with
      | none => cases a <;> cases b <;> rfl
      | some c =>
        cases strstr ['}'] (buffer content) with
        | none => cases a <;> cases b <;> rfl
        | some d => cases a <;> cases b <;> rfl

/-- C237: a text file with fewer than 1024 characters is recognised by its contents: as XML exactly if an end of a tag is in it, as the simple
format exactly if there is none but an opening brace; all others are refused.  Missing: longer files, see the violation. -/
theorem C237_format_partial (content : List Char) (hne : content ≠ []) (hlen : content.length < 1024) (h0 : '\x00' ∉ content) :
    checkType (some content) =
      .val (if ['/', '>'] <:+: content ∨ ['<', '/'] <:+: content then .xml else if '{' ∈ content then .simple else .unknown) := by
  have hb : ∃ z, buffer content = content ++ '\x00' :: z := by
    unfold buffer chunk
    rw [List.take_of_length_le (by omega)]
    obtain ⟨k, hk⟩ : ∃ k, 1024 - content.length = k + 1 := ⟨1023 - content.length, by omega⟩
    rw [hk, List.replicate_succ]
    exact ⟨_, rfl⟩
  obtain ⟨z, hz⟩ := hb
  rw [checkType_of content hne, hz, strstr_zero _ (by simp) (by decide) z content h0, strstr_zero _ (by simp) (by decide) z content h0,
    strstr_zero _ (by simp) (by decide) z content h0, strstr_zero _ (by simp) (by decide) z content h0]
  have hs : (['{'] <:+: content) ↔ '{' ∈ content := by
    constructor
    · intro h
      exact h.subset List.mem_cons_self
    · intro h
      obtain ⟨a, b, rfl⟩ := List.append_of_mem h
      exact ⟨a, b, by simp⟩
  dsimp only
  by_cases h1 : ['/', '>'] <:+: content
  · simp [h1]
  · by_cases h2 : ['<', '/'] <:+: content
    · simp [h1, h2]
    · by_cases h3 : '{' ∈ content
      · simp [h1, h2, h3, hs]
      · simp [h1, h2, h3, hs]

/-- C237 is violated: a text file with 1024 or more characters is searched beyond the end of the buffer, unless both ends of tags are among its first 1024 characters.  No file
of this length in the simple format is recognised by the rules of the language. -/
theorem C237_violated_long (content : List Char) (hlen : 1024 ≤ content.length) (h0 : '\x00' ∉ content.take 1024) :
    checkType (some content) =
      if ['/', '>'] <:+: content.take 1024 ∧ ['<', '/'] <:+: content.take 1024 then .val .xml else .ub := by
  have hb : buffer content = content.take 1024 := by
    unfold buffer chunk
    rw [List.length_take, Nat.min_eq_left hlen]
    simp
  have hne : content ≠ [] := by
    intro e
    rw [e] at hlen
    simp at hlen
  rw [checkType_of content hne, hb, strstr_full _ (by simp) _ h0, strstr_full _ (by simp) _ h0, strstr_full _ (by simp) _ h0,
    strstr_full _ (by simp) _ h0]
  by_cases h1 : ['/', '>'] <:+: content.take 1024
  · by_cases h2 : ['<', '/'] <:+: content.take 1024
    · simp only [h1, h2, if_true, and_self]
      split <;> simp_all
    · simp [h1, h2]
  · simp [h1]

/-- C237, refusal: a file that cannot be opened or is empty is reported. -/
theorem C237_unreadable : checkType none = .threw ∧ checkType (some []) = .threw := ⟨rfl, rfl⟩

/-- C237, the input: the text of a short file in the simple format is handed to the converter, and a short file in neither format is
reported. -/
theorem C237_input (parse : List Char → Ans Str) (junk content : List Char) (hne : content ≠ []) (hlen : content.length < 1024)
    (h0 : '\x00' ∉ content) (hx : ¬ (['/', '>'] <:+: content ∨ ['<', '/'] <:+: content)) :
    checkInput parse junk (some content) = if '{' ∈ content then parse content else .threw := by
  unfold checkInput
  rw [C237_format_partial content hne hlen h0, if_neg hx]
  by_cases h3 : '{' ∈ content <;> simp [h3]

/-! ### Examples -/

/-- An environment. -/
def sampleEnv : Env :=
  { qdDir := some "out".toList, ompThreads := some "4".toList, modpath := none, debug := none, strtol := fun s => if s = "4".toList then 4 else 0,
    scanInt := fun s => if s = "2".toList then some 2 else if s = "0".toList then some 0 else none }

/-- A command line with an input, a variable and a directory starts a run with these. -/
example : ∃ s, start sampleEnv "qdng".toList ["-d".toList, "here".toList, "in.qds".toList, "x=1".toList] = .run s ∧
    s.dir = "here".toList ∧ s.threads = 4 ∧ s.input = "in.qds".toList ∧ s.vars = [(['x'], ['1'])] :=
  ⟨_, rfl, rfl, rfl, rfl, rfl⟩

/-- A run that is not successful ends with status 1. -/
example : program sampleEnv (fun _ => .threw) "qdng".toList ["in.qds".toList] = .status 1 := rfl

/-- The command lines of the violations exist. -/
example : Words ["-g".toList] = [] ∧ Words ["in".toList, "x".toList] = ["in".toList, "x".toList] ∧ ¬ Defines "x".toList ∧
    takes decls 'x' = none := by
  refine ⟨rfl, rfl, ?_, rfl⟩
  unfold Defines
  decide

/-- The help may be asked for together with other words. -/
example : AsksForText ["in".toList, "-h".toList] := Or.inl (by decide)

/-- Arguments of `-p` that are no positive number. -/
example : ∃ s, start sampleEnv [] ["-pabc".toList, "in".toList] = .run s ∧ given (scan (takes decls) ["-pabc".toList, "in".toList]).found 'p' = some "abc".toList ∧
    sampleEnv.scanInt "abc".toList = none ∧ s.threads = 1 := ⟨_, rfl, rfl, rfl, rfl⟩

/-- Another one. -/
example : ∃ s, start sampleEnv [] ["-p0".toList, "in".toList] = .run s ∧ s.threads = 0 := ⟨_, rfl, rfl⟩

theorem no_tags (content : List Char) (h : '/' ∉ content) : ¬ (['/', '>'] <:+: content ∨ ['<', '/'] <:+: content) := by
  rintro (e | e)
  · exact h (e.subset (by simp))
  · exact h (e.subset (by simp))

/-- A short text in each format. -/
example : checkType (some ['<', 'a', '>', '<', '/', 'a', '>']) = .val .xml ∧ checkType (some ['a', '{', '}']) = .val .simple ∧
    checkType (some ['h', 'i']) = .val .unknown := by
  refine ⟨?_, ?_, ?_⟩
  · have h := C237_format_partial ['<', 'a', '>', '<', '/', 'a', '>'] (by decide) (by decide) (by decide)
    rw [h, if_pos (Or.inr ⟨['<', 'a', '>'], ['a', '>'], rfl⟩)]
  · have h := C237_format_partial ['a', '{', '}'] (by decide) (by decide) (by decide)
    rw [h, if_neg (no_tags _ (by decide)), if_pos (by decide)]
  · have h := C237_format_partial ['h', 'i'] (by decide) (by decide) (by decide)
    rw [h, if_neg (no_tags _ (by decide)), if_neg (by decide)]

theorem not_mem_spaces (n : Nat) (c : Char) (h1 : c ≠ '{') (h2 : c ≠ ' ') : c ∉ '{' :: List.replicate n ' ' := by
  intro h
  rcases List.mem_cons.mp h with e | e
  · exact h1 e
  · exact h2 (List.eq_of_mem_replicate e)

/-- A long text in the simple format. -/
example (n : Nat) (hn : 1023 ≤ n) : checkType (some ('{' :: List.replicate n ' ')) = .ub := by
  have h := C237_violated_long ('{' :: List.replicate n ' ') (by rw [List.length_cons, List.length_replicate]; omega)
    (fun h => not_mem_spaces n '\x00' (by decide) (by decide) (List.mem_of_mem_take h))
  rw [h, if_neg]
  rintro ⟨h, _⟩
  exact not_mem_spaces n '/' (by decide) (by decide) (List.mem_of_mem_take (h.subset List.mem_cons_self))

end QDng.Main
