import Verif.Qdz.Model
import Mathlib.Algebra.Order.Group.Unbundled.Abs
import Mathlib.Algebra.Order.Ring.Rat
import Mathlib.Tactic.NormNum

/-
Properties C214 to C217: the compression program, wisdom files, the XML parser object.
-/

namespace QDng.Qdz

open QDng.Cmdline

theorem sane : Sane decls := by
  refine ⟨by decide +kernel, ?_, ?_⟩ <;>
    · intro d hd
      simp only [decls, List.mem_cons, List.not_mem_nil, or_false] at hd
      rcases hd with rfl | rfl | rfl | rfl | rfl <;> decide

theorem noFlagDefaults : NoFlagDefaults decls := by
  intro d hd
  simp only [decls, List.mem_cons, List.not_mem_nil, or_false] at hd
  rcases hd with rfl | rfl | rfl | rfl | rfl <;> decide

theorem notRequired : ∀ d ∈ decls, d.required = false := by
  intro d hd
  simp only [decls, List.mem_cons, List.not_mem_nil, or_false] at hd
  rcases hd with rfl | rfl | rfl | rfl | rfl <;> rfl

/-- The options on the command line. -/
abbrev found (args : List Str) : List (Char × Option Str) := (scan (takes decls) args).found

/-- The words that are not options. -/
abbrev words (args : List Str) : List Str := (scan (takes decls) args).rest

theorem checkLoop_argv (l : OMap Char Str) : ∀ o : Opts,
    (o.checkLoop l).2.argv = o.argv ∧ (o.checkLoop l).2.optind = o.optind := by
  induction l with
  | nil => intro o; exact ⟨rfl, rfl⟩
  | cons a l ih =>
    intro o
    obtain ⟨c, t⟩ := a
    rw [Opts.checkLoop]
    split
    · split
      · exact ⟨rfl, rfl⟩
      · exact ih _
    · split
      · exact ih _
      · exact ih _

theorem check_argv (o : Opts) : o.check.2.argv = o.argv ∧ o.check.2.optind = o.optind := by
  unfold Opts.check
  split
  · exact ⟨rfl, rfl⟩
  · exact checkLoop_argv _ o

theorem nonOption_check (name : Str) (args : List Str) (hn : 1 + args.length < 2 ^ 32) :
    (((declare decls).readArgs name args).check.2).nonOption 0 = ((words args)[0]?).map some := by
  have h := C52_non_option_partial decls sane name args 0 (by simpa using hn)
  rw [← h]
  unfold Opts.nonOption Opts.arg
  rw [(check_argv _).1, (check_argv _).2]
  rfl

theorem has_check (name : Str) (args : List Str) (c : Char) (hc : c ≠ '?') :
    (((declare decls).readArgs name args).check.2).has c = (given (found args) c).isSome := by
  refine C52_has_partial decls sane noFlagDefaults name args [.check] c hc ?_ ?_
  · intro q hq
    rw [List.mem_singleton] at hq
    subst hq
    exact id
  · intro d hd _ hm
    have := notRequired d hd
    rw [hm.1] at this
    cases this

theorem value_check (name : Str) (args : List Str) (qs : List Query) (c : Char) (hc : c ≠ '?') :
    ((qs.foldl Query.run (((declare decls).readArgs name args).check.2)).getStr c).1 = text decls (found args) c :=
  (C52_value_partial decls sane noFlagDefaults name args (.check :: qs) c hc).1

/-- The main function in terms of the command line. -/
theorem main_eq (real : Str → Option Rat) (int : Str → Option Int) (name : Str) (args : List Str)
    (hn : 1 + args.length < 2 ^ 32) :
    main real int name args =
      if (given (found args) 'h').isSome then .help
      else match (words args)[0]? with
        | none => .usage
        | some file =>
          if (given (found args) 'd').isSome then .decompress file (given (found args) 's').isSome
          else match real (text decls (found args) 't') with
            | none => .ub
            | some tol => if tol > 1 then .refuse
              else match int (text decls (found args) 'l') with
                | none => .ub
                | some level => if level < 1 ∨ level > 9 then .refuse
                  else if text decls (found args) 'm' ≠ "z".toList ∧ text decls (found args) 'm' ≠ "j".toList
                  then .refuse
                  else .compress file (given (found args) 's').isSome |tol| level (text decls (found args) 'm') := by
  unfold main
  simp only
  rw [has_check name args 'h' (by decide), nonOption_check name args hn]
  split
  · rfl
  · cases h : (words args)[0]? with
    | none => rfl
    | some file =>
      simp only [Option.map_some]
      unfold work
      simp only
      rw [has_check name args 's' (by decide), has_check name args 'd' (by decide)]
      have h1 := value_check name args [] 't' (by decide)
      have h2 := value_check name args [.str 't'] 'l' (by decide)
      have h3 := value_check name args [.str 't', .str 'l'] 'm' (by decide)
      simp only [List.foldl_cons, List.foldl_nil, Query.run] at h1 h2 h3
      have habs : ∀ q : Rat, (if q < 0 then -q else q) = |q| := by
        intro q
        split
        · rename_i h; rw [abs_of_neg h]
        · rename_i h; rw [abs_of_nonneg (not_lt.1 h)]
      rw [h1, h2, h3]
      simp only [habs]
      all_goals rfl

/-- **C214.**  The letters of the command line: `h`, `d` and `s` stand alone, `t`, `l` and `m` have an
argument, there are no others. -/
theorem C214_letters_partial (c : Char) :
    (takes decls c = some false ↔ c = 'h' ∨ c = 'd' ∨ c = 's') ∧
    (takes decls c = some true ↔ c = 't' ∨ c = 'l' ∨ c = 'm') := by
  unfold takes table decls
  simp only [List.find?_cons, Decl.letter]
  by_cases h1 : 'h' = c
  · subst h1; decide
  by_cases h2 : 'd' = c
  · subst h2; decide
  by_cases h3 : 's' = c
  · subst h3; decide
  by_cases h4 : 't' = c
  · subst h4; decide
  by_cases h5 : 'l' = c
  · subst h5; decide
  by_cases h6 : 'm' = c
  · subst h6; decide
  simp [h1, h2, h3, h4, h5, h6, Ne.symm h1, Ne.symm h2, Ne.symm h3, Ne.symm h4, Ne.symm h5, Ne.symm h6]

/-- **C214.**  Compression runs with what the command line says: file, series, tolerance (without its
sign), level and method, if the method is given, the level is between 1 and 9 and the tolerance is at
most one.  Missing are the tolerance and level given, the documented defaults are taken. -/
theorem C214_compress_partial (real : Str → Option Rat) (int : Str → Option Int) (name : Str) (args : List Str)
    (hn : 1 + args.length < 2 ^ 32) (hh : given (found args) 'h' = none) (hd : given (found args) 'd' = none)
    (file : Str) (hf : (words args)[0]? = some file) (method : Str)
    (hm : given (found args) 'm' = some method) (hzj : method = "z".toList ∨ method = "j".toList)
    (tol : Rat) (ht : real (match given (found args) 't' with | some (x :: s) => x :: s | _ => "1e-5".toList) = some tol)
    (htol : tol ≤ 1) (level : Int)
    (hl : int (match given (found args) 'l' with | some (x :: s) => x :: s | _ => "4".toList) = some level)
    (hlevel : 1 ≤ level ∧ level ≤ 9) :
    main real int name args = .compress file (given (found args) 's').isSome |tol| level method := by
  have e1 : text decls (found args) 't' =
      (match given (found args) 't' with | some (x :: s) => x :: s | _ => "1e-5".toList) := rfl
  have e2 : text decls (found args) 'l' =
      (match given (found args) 'l' with | some (x :: s) => x :: s | _ => "4".toList) := rfl
  have e3 : text decls (found args) 'm' = method := by
    unfold text
    rw [hm]
    rcases hzj with rfl | rfl <;> rfl
  rw [main_eq real int name args hn, hh, hd, hf, e1, ht, e2, hl, e3]
  simp only [Option.isSome_none, Bool.false_eq_true, if_false]
  rw [if_neg (not_lt.2 htol), if_neg (by omega), if_neg (by rcases hzj with rfl | rfl <;> decide)]

/-- Conversion of a few texts. -/
def real3 (s : Str) : Option Rat :=
  if s = "1e-5".toList then some (1 / 100000) else if s = "-0.5".toList then some (-1 / 2) else none

/-- Conversion of a few texts. -/
def int3 (s : Str) : Option Int :=
  if s = "4".toList then some 4 else if s = "7".toList then some 7 else if s = "0".toList then some 0 else none

example : main real3 int3 "qdz".toList (["-m", "j", "-s", "wf", "-l", "7"].map String.toList) =
    .compress "wf".toList true |(1 / 100000)| 7 "j".toList :=
  C214_compress_partial real3 int3 "qdz".toList (["-m", "j", "-s", "wf", "-l", "7"].map String.toList)
    (by decide) (by decide +kernel) (by decide +kernel) "wf".toList (by decide +kernel) "j".toList (by decide +kernel)
    (Or.inr rfl) (1 / 100000) (by decide +kernel) (by norm_num) 7 (by decide +kernel) (by decide)

/-- **C214.**  With `-d` the file or the series is decompressed, whatever the other options are. -/
theorem C214_decompress_partial (real : Str → Option Rat) (int : Str → Option Int) (name : Str) (args : List Str)
    (hn : 1 + args.length < 2 ^ 32) (hh : given (found args) 'h' = none) (x : Str)
    (hd : given (found args) 'd' = some x) (file : Str) (hf : (words args)[0]? = some file) :
    main real int name args = .decompress file (given (found args) 's').isSome := by
  rw [main_eq real int name args hn, hh, hd, hf]
  rfl

example : main real3 int3 "qdz".toList (["-d", "wf"].map String.toList) = .decompress "wf".toList false :=
  C214_decompress_partial real3 int3 "qdz".toList (["-d", "wf"].map String.toList) (by decide) (by decide +kernel)
    [] (by decide +kernel) "wf".toList (by decide +kernel)

/-- **C214.**  A tolerance above one, a level outside 1 to 9 or another method is refused, with an exit
status that tells so. -/
theorem C214_refuse_partial (real : Str → Option Rat) (int : Str → Option Int) (name : Str) (args : List Str)
    (hn : 1 + args.length < 2 ^ 32) (hh : given (found args) 'h' = none) (hd : given (found args) 'd' = none)
    (file : Str) (hf : (words args)[0]? = some file) (tol : Rat)
    (ht : real (text decls (found args) 't') = some tol) (level : Int)
    (hl : int (text decls (found args) 'l') = some level)
    (hbad : 1 < tol ∨ level < 1 ∨ 9 < level ∨
      (text decls (found args) 'm' ≠ "z".toList ∧ text decls (found args) 'm' ≠ "j".toList)) :
    main real int name args = .refuse ∧ exitStatus (main real int name args) ≠ 0 := by
  have h : main real int name args = .refuse := by
    rw [main_eq real int name args hn, hh, hd, hf, ht, hl]
    simp only [Option.isSome_none, Bool.false_eq_true, if_false]
    by_cases h1 : tol > 1
    · rw [if_pos h1]
    · rw [if_neg h1]
      by_cases h2 : level < 1 ∨ level > 9
      · rw [if_pos h2]
      · rw [if_neg h2, if_pos]
        rcases hbad with h | h | h | h
        · exact absurd h h1
        · exact absurd (Or.inl h) h2
        · exact absurd (Or.inr h) h2
        · exact h
  exact ⟨h, by rw [h]; decide⟩

/-- **C214 is violated**: the documented default method does not exist: without `-m` every
compression is refused. -/
theorem C214_violated_default (real : Str → Option Rat) (int : Str → Option Int) (name : Str) (args : List Str)
    (hn : 1 + args.length < 2 ^ 32) (hh : given (found args) 'h' = none) (hd : given (found args) 'd' = none)
    (file : Str) (hf : (words args)[0]? = some file) (hm : given (found args) 'm' = none)
    (tol : Rat) (ht : real (text decls (found args) 't') = some tol) (level : Int)
    (hl : int (text decls (found args) 'l') = some level) :
    main real int name args = .refuse := by
  refine (C214_refuse_partial real int name args hn hh hd file hf tol ht level hl (Or.inr (Or.inr (Or.inr ?_)))).1
  have : text decls (found args) 'm' = "m".toList := by
    unfold text
    rw [hm]
    rfl
  rw [this]
  decide

example : main real3 int3 "qdz".toList (["wf"].map String.toList) = .refuse :=
  C214_violated_default real3 int3 "qdz".toList (["wf"].map String.toList) (by decide) (by decide +kernel)
    (by decide +kernel) "wf".toList (by decide +kernel) (by decide +kernel) (1 / 100000) (by decide +kernel) 4
    (by decide +kernel)

/-- **C214 is violated**: the documented level 0 is refused. -/
theorem C214_violated_level0 :
    main real3 int3 "qdz".toList (["-m", "z", "-l", "0", "wf"].map String.toList) = .refuse := by decide +kernel

/-- **C214 is violated**: a number that cannot be read leaves a variable unset that is used. -/
theorem C214_violated_number :
    main real3 int3 "qdz".toList (["-m", "z", "-l", "best", "wf"].map String.toList) = .ub ∧
    main real3 int3 "qdz".toList (["-m", "z", "-t", "small", "wf"].map String.toList) = .ub := by decide +kernel

/-- **C214 is violated**: a command line without a file is an error, but the exit status is that of
success. -/
theorem C214_violated_status (real : Str → Option Rat) (int : Str → Option Int) (name : Str) (args : List Str)
    (hn : 1 + args.length < 2 ^ 32) (hh : given (found args) 'h' = none) (hf : words args = []) :
    main real int name args = .usage ∧ exitStatus (main real int name args) = 0 := by
  have h : main real int name args = .usage := by
    rw [main_eq real int name args hn, hh, hf]
    rfl
  exact ⟨h, by rw [h]; rfl⟩

example : main real3 int3 "qdz".toList (["-s"].map String.toList) = .usage :=
  (C214_violated_status real3 int3 "qdz".toList (["-s"].map String.toList) (by decide) (by decide +kernel)
    (by decide +kernel)).1

/-! ### Series -/

variable {F W : Type}

theorem rest_params (fuel : Nat) : ∀ (d : Disk F W) (k : Nat),
    (rest fuel d k).decode = d.decode ∧ (rest fuel d k).encode = d.encode ∧
      ∀ i, i < k → (rest fuel d k).files i = d.files i := by
  induction fuel with
  | zero => intro d k; exact ⟨rfl, rfl, fun _ _ => rfl⟩
  | succ fuel ih =>
    intro d k
    rw [rest]
    cases hr : d.read k with
    | none => exact ⟨rfl, rfl, fun _ _ => rfl⟩
    | some w =>
      simp only
      unfold Disk.write
      by_cases hw : d.writable k = true
      · rw [if_pos hw]
        simp only [if_true]
        obtain ⟨h1, h2, h3⟩ := ih { d with files := fun i => if i = k then some (d.encode w) else d.files i } (k + 1)
        refine ⟨h1, h2, fun i hi => ?_⟩
        rw [h3 i (by omega)]
        exact if_neg (by omega)
      · rw [if_neg hw]
        simp only [Bool.false_eq_true, if_false]
        exact ⟨trivial, trivial, fun i hi => if_neg (by omega)⟩

theorem rest_spec (n : Nat) (w : Nat → W) (fuel : Nat) : ∀ (d : Disk F W) (k : Nat),
    k ≤ n → n ≤ k + fuel → (∀ i, k ≤ i → i < n → d.read i = some (w i)) → d.read n = none →
    (∀ i, k ≤ i → i < n → d.writable i = true) →
    (∀ i, k ≤ i → i < n → (rest (fuel + 1) d k).files i = some (d.encode (w i))) ∧
      (∀ i, n ≤ i → (rest (fuel + 1) d k).files i = d.files i) := by
  induction fuel with
  | zero =>
    intro d k hk hf hr hn hw
    have : k = n := by omega
    subst this
    have h0 : d.read k = none := hn
    refine ⟨fun i h1 h2 => by omega, fun i hi => ?_⟩
    rw [rest, h0]
  | succ fuel ih =>
    intro d k hk hf hr hn hw
    by_cases hkn : k = n
    · subst hkn
      have h0 : d.read k = none := hn
      refine ⟨fun i h1 h2 => by omega, fun i hi => ?_⟩
      rw [rest, h0]
    · have hlt : k < n := by omega
      have e : rest (fuel + 1 + 1) d k =
          rest (fuel + 1) { d with files := fun i => if i = k then some (d.encode (w k)) else d.files i } (k + 1) := by
        rw [rest, hr k (Nat.le_refl k) hlt]
        simp only
        unfold Disk.write
        rw [if_pos (hw k (Nat.le_refl k) hlt)]
        rfl
      have hother : ∀ i, i ≠ k → (if i = k then some (d.encode (w k)) else d.files i) = d.files i :=
        fun i hi => if_neg hi
      obtain ⟨h1, h2⟩ := ih { d with files := fun i => if i = k then some (d.encode (w k)) else d.files i } (k + 1)
        (by omega) (by omega)
        (by
          intro i hi hin
          unfold Disk.read
          simp only
          rw [hother i (by omega)]
          exact hr i (by omega) hin)
        (by
          unfold Disk.read
          simp only
          rw [hother n (by omega)]
          exact hn)
        (fun i hi hin => hw i (by omega) hin)
      rw [e]
      refine ⟨fun i hi hin => ?_, fun i hi => ?_⟩
      · by_cases hik : i = k
        · subst hik
          rw [(rest_params (fuel + 1) _ (i + 1)).2.2 i (by omega)]
          simp only [if_true]
        · exact h1 i (by omega) hin
      · rw [h2 i hi]
        exact hother i (by omega)

/-- A series up to the first number that cannot be read. -/
theorem series_spec (d : Disk F W) (n : Nat) (hn : 0 < n) (w : Nat → W)
    (hr : ∀ i, i < n → (d.files i).bind d.decode = some (w i)) (hend : (d.files n).bind d.decode = none)
    (hw : ∀ i, i < n → d.writable i = true) (fuel : Nat) (hfuel : n ≤ fuel) :
    (convertSeries fuel d).2 = true ∧
      (∀ i, i < n → (convertSeries fuel d).1.files i = some (d.encode (w i))) ∧
      (∀ i, n ≤ i → (convertSeries fuel d).1.files i = d.files i) := by
  obtain ⟨fuel, rfl⟩ : ∃ f, fuel = f + 1 := ⟨fuel - 1, by omega⟩
  have e : convertSeries (fuel + 1) d =
      (rest (fuel + 1) { d with files := fun i => if i = 0 then some (d.encode (w 0)) else d.files i } 1, true) := by
    unfold convertSeries
    have : d.read 0 = some (w 0) := hr 0 hn
    rw [this]
    simp only
    unfold Disk.write
    rw [if_pos (hw 0 hn)]
    rfl
  rw [e]
  have hother : ∀ i, i ≠ 0 → (if i = 0 then some (d.encode (w 0)) else d.files i) = d.files i :=
    fun i hi => if_neg hi
  obtain ⟨h1, h2⟩ := rest_spec n w fuel
    { d with files := fun i => if i = 0 then some (d.encode (w 0)) else d.files i } 1 hn (by omega)
    (by
      intro i hi hin
      unfold Disk.read
      simp only
      rw [hother i (by omega)]
      exact hr i hin)
    (by
      unfold Disk.read
      simp only
      rw [hother n (by omega)]
      exact hend)
    (fun i _ hin => hw i hin)
  refine ⟨rfl, fun i hi => ?_, fun i hi => ?_⟩
  · by_cases hi0 : i = 0
    · subst hi0
      rw [(rest_params (fuel + 1) _ 1).2.2 0 (by omega)]
      simp only [if_true]
    · exact h1 i (by omega) hi
  · rw [h2 i hi]
    exact hother i (by omega)

/-- **C215.**  A series is converted in place: every file from number 0 up to the first number that does
not exist is replaced by the same data in the new form, all others stay, and the program ends. -/
theorem C215_series_partial (d : Disk F W) (n : Nat) (hn : 0 < n) (w : Nat → W)
    (hr : ∀ i, i < n → (d.files i).bind d.decode = some (w i)) (hend : d.files n = none)
    (hw : ∀ i, i < n → d.writable i = true) (fuel : Nat) (hfuel : n ≤ fuel) :
    (convertSeries fuel d).2 = true ∧
      (∀ i, i < n → (convertSeries fuel d).1.files i = some (d.encode (w i))) ∧
      (∀ i, n ≤ i → (convertSeries fuel d).1.files i = d.files i) := by
  exact series_spec d n hn w hr (by rw [hend]; rfl) hw fuel hfuel

/-- A disk with four files; the form of a file is a flag beside the number it holds. -/
def disk : Disk (Bool × Nat) Nat :=
  ⟨fun i => if i < 4 then some (false, i) else none, fun f => some f.2, fun w => (true, w), fun _ => true, none⟩

example : (convertSeries 10 disk).1.files 3 = some (true, 3) :=
  (C215_series_partial disk 4 (by decide) id (fun i hi => by simp [disk, hi]) (by simp [disk]) (fun _ _ => rfl) 10
    (by decide)).2.1 3 (by decide)

/-- **C215.**  If the first file is missing or cannot be read, nothing is changed and the program reports
an error. -/
theorem C215_first_partial (d : Disk F W) (fuel : Nat) (h : (d.files 0).bind d.decode = none) :
    convertSeries fuel d = (d, false) := by
  unfold convertSeries
  have : d.read 0 = none := h
  rw [this]

example : (convertSeries 10 { disk with files := fun _ => none }).2 = false :=
  congrArg Prod.snd (C215_first_partial { disk with files := fun _ => none } 10 rfl)

/-- **C215 is violated**: a file in the middle that cannot be read ends the work with success, and the
files behind it stay as they are. -/
theorem C215_violated_read (d : Disk F W) (n : Nat) (hn : 0 < n) (w : Nat → W)
    (hr : ∀ i, i < n → (d.files i).bind d.decode = some (w i)) (hw : ∀ i, i < n → d.writable i = true)
    (hbad : (d.files n).bind d.decode = none) (fuel : Nat) (hfuel : n ≤ fuel) :
    (convertSeries fuel d).2 = true ∧ ∀ i, n ≤ i → (convertSeries fuel d).1.files i = d.files i :=
  have h := series_spec d n hn w hr hbad hw fuel hfuel
  ⟨h.1, h.2.2⟩

/-- **C215 is violated**: an unreadable file number 2 of four, and a full disk from number 2 on: success is
reported although two files are not converted; with the full disk one of them is lost. -/
theorem C215_violated_silent :
    (let r := convertSeries 10 { disk with decode := fun f => if f.2 = 2 then none else some f.2 }
     r.2 = true ∧ r.1.files 1 = some (true, 1) ∧ r.1.files 2 = some (false, 2) ∧ r.1.files 3 = some (false, 3)) ∧
    (let r := convertSeries 10 { disk with writable := fun i => i < 2 }
     r.2 = true ∧ r.1.files 1 = some (true, 1) ∧ r.1.files 2 = none ∧ r.1.files 3 = some (false, 3)) := by
  decide +kernel

/-! ### Wisdom -/

/-- **C216.**  The planner: with a wisdom file it measures, without it is thorough unless
`fftwOptimize` is off; wisdom is taken from the file named by `wisdom`, or from the file "wisdom". -/
theorem C216_planner_partial (canOpen : Str → Bool) (p : WisdomParams) :
    (canOpen (p.wisdom.getD "wisdom".toList) = true →
      (fftInit canOpen p).1 = .measure ∧ (fftInit canOpen p).2.1 = some (p.wisdom.getD "wisdom".toList)) ∧
    (canOpen (p.wisdom.getD "wisdom".toList) = false →
      (fftInit canOpen p).2.1 = none ∧
      (p.optimize ≠ some false → (fftInit canOpen p).1 = .patient) ∧
      (p.optimize = some false → (fftInit canOpen p).1 = .estimate)) := by
  obtain ⟨o, w, s⟩ := p
  have key : ∀ f : Str, fftInit canOpen ⟨o, some f, s⟩ = (match s with
      | some a => (if canOpen f then (.measure, some f, a)
          else if o.getD true then (.patient, none, a) else (.estimate, none, a))
      | none => (if canOpen f then (.measure, some f, f)
          else if o.getD true then (.patient, none, f) else (.estimate, none, f))) := by
    intro f
    unfold fftInit
    simp only
    cases s <;> (split; · rfl) <;> split <;> rfl
  have same : (fftInit canOpen ⟨o, w, s⟩) = fftInit canOpen ⟨o, some (w.getD "wisdom".toList), s⟩ := by
    cases w <;> rfl
  rw [same, key]
  generalize w.getD "wisdom".toList = f
  simp only
  refine ⟨fun h => ?_, fun h => ?_⟩
  · cases s <;> (simp only; rw [if_pos h]; exact ⟨rfl, rfl⟩)
  · have hne : ¬ canOpen f = true := by rw [h]; decide
    cases s <;> (
      simp only
      rw [if_neg hne]
      cases o with
      | none => exact ⟨rfl, fun _ => rfl, nofun⟩
      | some b =>
        cases b with
        | true => exact ⟨rfl, fun _ => rfl, nofun⟩
        | false => exact ⟨rfl, fun h => absurd rfl h, fun _ => rfl⟩)

example : (fftInit (fun s => s = "w1".toList) ⟨none, some "w1".toList, none⟩).2.1 = some "w1".toList :=
  ((C216_planner_partial (fun s => s = "w1".toList) ⟨none, some "w1".toList, none⟩).1 (by decide)).2

/-- **C216.**  Wisdom is saved where the program says, if `wisdomsave` is given or `wisdom` is not. -/
theorem C216_save_partial (canOpen : Str → Bool) (p : WisdomParams) (h : p.save ≠ none ∨ p.wisdom = none) :
    flushWisdom p = (fftInit canOpen p).2.2 ∧
      (∀ f, p.save = some f → flushWisdom p = f) := by
  obtain ⟨o, w, s⟩ := p
  refine ⟨?_, fun f hf => ?_⟩
  · cases s with
    | some s => rfl
    | none =>
      cases w with
      | none => rfl
      | some w => simp at h
  · simp only at hf
    subst hf
    rfl

example : flushWisdom ⟨none, some "a".toList, some "b".toList⟩ = "b".toList :=
  (C216_save_partial (fun _ => true) ⟨none, some "a".toList, some "b".toList⟩ (Or.inl nofun)).2 _ rfl

/-- **C216 is violated**: with the parameter `wisdom` alone the program announces that wisdom is written to
that file, but writes to the file "wisdom" of the current directory; the next run does not find it. -/
theorem C216_violated_file (canOpen : Str → Bool) (o : Option Bool) (f : Str) (hf : f ≠ "wisdom".toList) :
    (fftInit canOpen ⟨o, some f, none⟩).2.2 = f ∧ flushWisdom ⟨o, some f, none⟩ ≠ f :=
  ⟨rfl, fun h => hf h.symm⟩

example : flushWisdom ⟨none, some "/scratch/w".toList, none⟩ ≠ "/scratch/w".toList :=
  (C216_violated_file (fun _ => true) none "/scratch/w".toList (by decide)).2

/-! ### Parser -/

/-- **C217.**  After the first document was read the root is that of the document, however often it is
asked for. -/
theorem C217_first_partial {D : Type} (d : D) (k : Nat) :
    let p := ((⟨none, none⟩ : Parser D).parse (some (some d))).1
    ((Nat.repeat (fun q : Parser D => q.getRoot.1) k p).getRoot).2 = some d := by
  intro p
  have : ∀ k, (Nat.repeat (fun q : Parser D => q.getRoot.1) k p) = p ∨
      (Nat.repeat (fun q : Parser D => q.getRoot.1) k p) = ⟨some d, some (some d)⟩ := by
    intro k
    induction k with
    | zero => exact Or.inl rfl
    | succ k ih =>
      right
      show (Nat.repeat (fun q : Parser D => q.getRoot.1) k p).getRoot.1 = _
      rcases ih with h | h <;> rw [h] <;> rfl
  rcases this k with h | h <;> rw [h] <;> rfl

/-- **C217.**  A document that cannot be read is reported. -/
theorem C217_fails_partial {D : Type} (p : Parser D) (doc : Option (Option D)) :
    (p.parse doc).2 = true ↔ ∃ d, doc = some (some d) := by
  match doc with
  | none => exact ⟨nofun, nofun⟩
  | some none => exact ⟨nofun, nofun⟩
  | some (some d) => exact ⟨fun _ => ⟨d, rfl⟩, fun _ => rfl⟩

/-- **C217 is violated**: if the root was asked for once, reading a second document succeeds, but the root
stays that of the first document; before any document the root is a node without element. -/
theorem C217_violated_second {D : Type} (a b : D) :
    let p := (((⟨none, none⟩ : Parser D).parse (some (some a))).1.getRoot).1
    (p.parse (some (some b))).2 = true ∧ ((p.parse (some (some b))).1.getRoot).2 = some a ∧
      ((⟨none, none⟩ : Parser D).getRoot).2 = none :=
  ⟨rfl, rfl, rfl⟩

end QDng.Qdz
