import Verif.Main.Model
import Verif.Cmdline.Props

/-
Supporting facts about the main program.
-/

namespace QDng.Main
open QDng.Cmdline QDng.Common

/-- The options that the program declares, in the form of C52. -/
def decls : List Decl :=
  [.option 'm' "module path".toList false "User defined path to the wave function and operator modules".toList [],
   .option 'd' "output directory path".toList false "All output files are saved in this directory".toList [],
   .flag 'g' "Turn debug output on. Some extra informations will be printed".toList,
   .flag 'c' "Start QDng in interactive command mode.".toList,
   .flag 'v' "Show version information and exit.".toList,
   .option 'p' "num threads".toList false "Specify the number of threads to use".toList "1".toList]

theorem options_eq : options = declare decls := rfl

theorem decls_sane : Sane decls := ⟨by decide, by decide, by decide⟩

theorem decls_noFlagDefaults : NoFlagDefaults decls := by
  unfold NoFlagDefaults
  decide

theorem decls_not_required : ∀ d ∈ decls, d.required = false := by decide

/-! ### The options behind the check -/

theorem checkLoop_args (l : OMap Char Str) : ∀ o : Opts, (o.checkLoop l).2.argv = o.argv ∧ (o.checkLoop l).2.optind = o.optind := by
  induction l with
  | nil => intro o; exact ⟨rfl, rfl⟩
  | cons a l ih =>
    intro o
    obtain ⟨c, t⟩ := a
    unfold Opts.checkLoop
    split
    · split
      · exact ⟨rfl, rfl⟩
      · exact ih _
    · split
      · exact ih _
      · exact ih _

theorem check_args (o : Opts) : o.check.2.argv = o.argv ∧ o.check.2.optind = o.optind := by
  unfold Opts.check
  split
  · exact ⟨rfl, rfl⟩
  · exact checkLoop_args _ _

theorem checked_inv (name : Str) (args : List Str) :
    Inv decls (scan (takes decls) args).found (fun _ => False) (options.readArgs name args).check.2 := by
  rw [options_eq]
  refine inv_weaken _ _ _ _ _ (check_inv decls _ decls_sane decls_noFlagDefaults _ _ (read_inv decls decls_sane name args)).1 ?_
  rintro c (h | ⟨d, hd, _, hm, _⟩)
  · exact h
  · rw [decls_not_required d hd] at hm; cases hm

theorem Inv.has_eq {found : List (Char × Option Str)} {o : Opts} (h : Inv decls found (fun _ => False) o) (c : Char) (hc : c ≠ '?') :
    o.has c = (given found c).isSome := by
  unfold Opts.has
  rw [h.has c hc (fun e => e)]

theorem Inv.touched {found : List (Char × Option Str)} {o : Opts} (h : Inv decls found (fun _ => False) o) (c : Char)
    (hg : (given found c).isSome = true) : Inv decls found (fun _ => False) { o with value := touch o.value c } := by
  refine inv_weaken _ _ _ _ _ (inv_touch decls found _ o h c) ?_
  rintro k (e | ⟨e, e2⟩)
  · exact e
  · rw [← e, e2] at hg; cases hg

theorem Inv.text {found : List (Char × Option Str)} {o : Opts} (h : Inv decls found (fun _ => False) o) (c : Char) (hc : c ≠ '?') :
    (if !(at' o.value c).isEmpty then at' o.value c else at' o.deflt c) = text decls found c := by
  rw [h.value c hc, h.decl.deflt c]
  unfold Cmdline.text
  cases given found c with
  | none => rfl
  | some s => cases s <;> rfl

/-! ### The words -/

theorem words_eq (o : Opts) (l : List Str) (h : ∀ n : Nat, n ≤ l.length → o.nonOption n = (l[n]?).map some) :
    ∀ (fuel i : Nat), i ≤ l.length → l.length ≤ fuel + i → words o fuel i = some (l.drop i) := by
  intro fuel
  induction fuel with
  | zero =>
    intro i _ hi
    rw [List.drop_eq_nil_of_le (by omega)]
    rfl
  | succ fuel ih =>
    intro i hl hi
    unfold words
    by_cases hlt : i < l.length
    · rw [h i (by omega), List.getElem?_eq_getElem hlt]
      show (words o fuel (i + 1)).map _ = _
      rw [ih (i + 1) (by omega) (by omega), List.drop_eq_getElem_cons hlt]
      rfl
    · rw [h i (by omega), List.getElem?_eq_none (by omega), List.drop_eq_nil_of_le (by omega)]
      rfl

theorem nonOption_congr {o o' : Opts} (h1 : o'.argv = o.argv) (h2 : o'.optind = o.optind) (n : Int) : o'.nonOption n = o.nonOption n := by
  unfold Opts.nonOption Opts.arg
  rw [h1, h2]

theorem rest_le (kind : Char → Option Bool) : ∀ (k : Nat) (l : List Str), l.length ≤ k → (scan kind l).rest.length ≤ l.length := by
  intro k
  induction k with
  | zero =>
    intro l hl
    have : l = [] := List.length_eq_zero_iff.mp (by omega)
    subst this
    exact Nat.le_refl _
  | succ k ih =>
    intro l hl
    cases l with
    | nil => exact Nat.le_refl _
    | cons w l =>
      have hl' : l.length ≤ k := by simpa using hl
      unfold scan
      split
      · simp
      · split
        · split
          · simp
          · rename_i a l'
            have h1 := ih l' (by simp at hl'; omega)
            have h2 := ih (a :: l') hl'
            split
            · simp only [List.length_cons]
              omega
            · simp only [List.length_cons] at h2 ⊢
              omega
        · have h1 := ih l hl'
          simp only [List.length_cons]
          omega

theorem argv_ge (name : Str) (args : List Str) :
    (scan (takes decls) args).rest.length ≤ ((declare decls).readArgs name args).argv.length := by
  unfold Opts.readArgs Opts.parseArgs
  dsimp only
  rw [lookup_takes decls decls_sane]
  simp only [List.length_cons, List.length_append]
  omega

/-! ### The parts of the start -/

/-- The directory in terms of the command line. -/
def dirOf (E : Env) (found : List (Char × Option Str)) : Str := (given found 'd').getD (E.qdDir.getD [])

/-- The module path in terms of the command line. -/
def modOf (E : Env) (found : List (Char × Option Str)) : Option Str :=
  match given found 'm' with
  | some t => some t
  | none => E.modpath

/-- The number of threads in terms of the command line. -/
def threadsOf (E : Env) (found : List (Char × Option Str)) : Int :=
  match given found 'p' with
  | some t => (E.scanInt (if t = [] then ['1'] else t)).getD 1
  | none =>
    match E.ompThreads with
    | none => 1
    | some s => if narrow (E.strtol s) > 0 then narrow (E.strtol s) else 1

theorem modPath_eq (E : Env) {found : List (Char × Option Str)} {o : Opts} (h : Inv decls found (fun _ => False) o) :
    (modPath E o).1 = modOf E found ∧ Inv decls found (fun _ => False) (modPath E o).2 ∧ (modPath E o).2.argv = o.argv ∧
      (modPath E o).2.optind = o.optind := by
  unfold modPath modOf
  rw [Inv.has_eq h 'm' (by decide)]
  cases hg : given found 'm' with
  | none => exact ⟨rfl, h, rfl, rfl⟩
  | some t =>
    refine ⟨?_, Inv.touched h 'm' (by rw [hg]; rfl), rfl, rfl⟩
    show some (if _ then _ else _) = _
    rw [Inv.text h 'm' (by decide)]
    unfold Cmdline.text
    rw [hg]
    cases t <;> rfl

theorem outDir_eq (E : Env) {found : List (Char × Option Str)} {o : Opts} (h : Inv decls found (fun _ => False) o) :
    (outDir E o).1 = dirOf E found ∧ Inv decls found (fun _ => False) (outDir E o).2 ∧ (outDir E o).2.argv = o.argv ∧
      (outDir E o).2.optind = o.optind := by
  unfold outDir dirOf
  rw [Inv.has_eq h 'd' (by decide)]
  cases hg : given found 'd' with
  | none => exact ⟨rfl, h, rfl, rfl⟩
  | some t =>
    refine ⟨?_, Inv.touched h 'd' (by rw [hg]; rfl), rfl, rfl⟩
    show (if _ then _ else _) = _
    rw [Inv.text h 'd' (by decide)]
    unfold Cmdline.text
    rw [hg]
    cases t <;> rfl

theorem numThreads_eq (E : Env) {found : List (Char × Option Str)} {o : Opts} (h : Inv decls found (fun _ => False) o) :
    (numThreads E o).1 = threadsOf E found ∧ Inv decls found (fun _ => False) (numThreads E o).2 ∧ (numThreads E o).2.argv = o.argv ∧
      (numThreads E o).2.optind = o.optind := by
  unfold numThreads threadsOf
  rw [Inv.has_eq h 'p' (by decide)]
  cases hg : given found 'p' with
  | none => exact ⟨rfl, h, rfl, rfl⟩
  | some t =>
    refine ⟨?_, Inv.touched h 'p' (by rw [hg]; rfl), rfl, rfl⟩
    show (E.scanInt (if _ then _ else _)).getD 1 = _
    rw [Inv.text h 'p' (by decide)]
    unfold Cmdline.text
    rw [hg]
    cases t <;> rfl

/-- The start in terms of what is on the command line. -/
theorem start_eq (E : Env) (name : Str) (args : List Str) (hn : 1 + 2 * args.length < 2 ^ 32) :
    start E name args =
      if (given (scan (takes decls) args).found 'h').isSome || (given (scan (takes decls) args).found 'v').isSome then .ended 0
      else
        match (scan (takes decls) args).rest with
        | [] => .ended 0
        | input :: defs =>
          match RunXml.varDefs defs [] with
          | none => .ended 0
          | some vars =>
            .run { input := input, vars := vars, dir := dirOf E (scan (takes decls) args).found,
                   threads := threadsOf E (scan (takes decls) args).found, modpath := modOf E (scan (takes decls) args).found,
                   interactive := (given (scan (takes decls) args).found 'c').isSome,
                   debug := if (given (scan (takes decls) args).found 'g').isSome then true else E.debug.getD false } := by
  have h0 := checked_inv name args
  obtain ⟨m1, m2, m3, m4⟩ := modPath_eq E h0
  obtain ⟨d1, d2, d3, d4⟩ := outDir_eq E m2
  obtain ⟨p1, p2, p3, p4⟩ := numThreads_eq E d2
  have hargv := p3.trans (d3.trans (m3.trans (check_args _).1))
  have hopt := p4.trans (d4.trans (m4.trans (check_args _).2))
  have hrl := rest_le (takes decls) args.length args (Nat.le_refl _)
  have hw := words_eq (numThreads E (outDir E (modPath E (options.readArgs name args).check.2).2).2).2 (scan (takes decls) args).rest
    (fun n hle => by
      rw [nonOption_congr hargv hopt, options_eq]
      exact C52_non_option_partial decls decls_sane name args n (by omega))
    (numThreads E (outDir E (modPath E (options.readArgs name args).check.2).2).2).2.argv.length 0 (Nat.zero_le _)
    (by rw [hargv, options_eq]; exact argv_ge name args)
  unfold start
  dsimp only
  rw [Inv.has_eq h0 'h' (by decide), Inv.has_eq h0 'v' (by decide), hw, List.drop_zero, d1, p1, m1,
    Inv.has_eq p2 'c' (by decide), Inv.has_eq p2 'g' (by decide)]
  cases (given (scan (takes decls) args).found 'h').isSome <;> cases (given (scan (takes decls) args).found 'v').isSome <;>
    simp only [Bool.false_eq_true, if_false, if_true, Bool.or_false, Bool.or_true]
  cases (scan (takes decls) args).rest with
  | nil => rfl
  | cons input defs =>
    cases h : RunXml.varDefs defs [] <;> simp only [h]

/-! ### The search in the buffer -/

theorem strstr_zero (pat : List Char) (hp : pat ≠ []) (h0 : '\x00' ∉ pat) (z : List Char) :
    ∀ t : List Char, '\x00' ∉ t → strstr pat (t ++ '\x00' :: z) = some (decide (pat <:+: t)) := by
  intro t
  induction t with
  | nil =>
    intro _
    unfold strstr
    have : pat.isPrefixOf ('\x00' :: z) = false := by
      cases pat with
      | nil => exact absurd rfl hp
      | cons a l =>
        have ha : a ≠ '\x00' := fun e => h0 (by rw [e]; exact List.mem_cons_self)
        simp [List.isPrefixOf, ha]
    simp only [List.nil_append, this]
    have : ¬ pat <:+: [] := by
      rw [List.infix_nil]
      exact hp
    simp [this]
  | cons c t ih =>
    intro ht
    have hc : c ≠ '\x00' := fun e => ht (by rw [e]; exact List.mem_cons_self)
    have ht' : '\x00' ∉ t := fun e => ht (List.mem_cons_of_mem _ e)
    rw [List.cons_append]
    unfold strstr
    by_cases hpre : pat <+: (c :: t)
    · have h1 : pat.isPrefixOf (c :: (t ++ '\x00' :: z)) = true := by
        rw [List.isPrefixOf_iff_prefix, ← List.cons_append]
        exact hpre.trans (List.prefix_append _ _)
      rw [if_pos h1]
      have : pat <:+: c :: t := hpre.isInfix
      simp [this]
    · have h1 : ¬ pat.isPrefixOf (c :: (t ++ '\x00' :: z)) = true := by
        rw [List.isPrefixOf_iff_prefix, ← List.cons_append]
        intro hh
        apply hpre
        rcases Nat.lt_or_ge (c :: t).length pat.length with hlt | hge
        · exfalso
          have hsub : (c :: t) ++ ['\x00'] <+: pat := by
            refine List.prefix_of_prefix_length_le (l₃ := c :: t ++ '\x00' :: z) ?_ hh
              (by simp only [List.length_append, List.length_cons, List.length_nil] at hlt ⊢; omega)
            exact ⟨z, by simp⟩
          exact h0 (hsub.subset (by simp))
        · exact List.prefix_of_prefix_length_le hh (List.prefix_append _ _) hge
      rw [if_neg h1, if_neg hc, ih ht']
      congr 1
      apply decide_eq_decide.mpr
      rw [List.infix_cons_iff]
      simp [hpre]

theorem strstr_full (pat : List Char) (hp : pat ≠ []) :
    ∀ t : List Char, '\x00' ∉ t → strstr pat t = if pat <:+: t then some true else none := by
  intro t
  induction t with
  | nil =>
    intro _
    rw [if_neg (by rw [List.infix_nil]; exact hp)]
    rfl
  | cons c t ih =>
    intro ht
    have hc : c ≠ '\x00' := fun e => ht (by rw [e]; exact List.mem_cons_self)
    have ht' : '\x00' ∉ t := fun e => ht (List.mem_cons_of_mem _ e)
    unfold strstr
    by_cases hpre : pat <+: (c :: t)
    · rw [if_pos (by rw [List.isPrefixOf_iff_prefix]; exact hpre), if_pos hpre.isInfix]
    · rw [if_neg (by rw [List.isPrefixOf_iff_prefix]; exact hpre), if_neg hc, ih ht']
      have : (pat <:+: c :: t) ↔ pat <:+: t := by
        rw [List.infix_cons_iff]
        simp [hpre]
      simp only [this]

end QDng.Main
