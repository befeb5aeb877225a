import Verif.Cmdline.Model

/-
C52: command line options.

Specification: the declarations of the program, the options found on the command line by `getopt(3)`, and the
answers that follow from these alone.
-/

namespace QDng.Cmdline

/-! ### Specification -/

/-- A declaration of an option by the program, `SetHelp` in its two forms. -/
inductive Decl where
  | flag (letter : Char) (help : Str)
  | option (letter : Char) (parameter : Str) (required : Bool) (help value : Str)

/-- The letter of an option. -/
def Decl.letter : Decl → Char
  | .flag c _ => c
  | .option c _ _ _ _ => c

/-- The description of the argument, empty for options without argument. -/
def Decl.parameter : Decl → Str
  | .flag _ _ => []
  | .option _ p _ _ _ => p

/-- Whether the option is required. -/
def Decl.required : Decl → Bool
  | .flag _ _ => false
  | .option _ _ r _ _ => r

/-- The default, empty if there is none. -/
def Decl.default : Decl → Str
  | .flag _ _ => []
  | .option _ _ r _ v => if r then [] else v

/-- A declaration given to the program. -/
def Decl.apply (o : Opts) : Decl → Opts
  | .flag c h => o.setFlag c h
  | .option c p r h v => o.setOption c p r h v

/-- The program declares its options. -/
def declare (ds : List Decl) : Opts := ds.foldl Decl.apply (Opts.new [])

/-- The declarations including the help option that every program has. -/
def table (ds : List Decl) : List Decl := .flag 'h' [] :: ds

/-- A reasonable set of declarations: no letter twice, no special letters. -/
structure Sane (ds : List Decl) : Prop where
  nodup : ((table ds).map Decl.letter).Nodup
  colon : ∀ d ∈ ds, d.letter ≠ ':'
  mark : ∀ d ∈ ds, d.letter ≠ '?'

/-- Whether a letter is declared and takes an argument. -/
def takes (ds : List Decl) (c : Char) : Option Bool :=
  ((table ds).find? fun d => d.letter = c).map fun d => d.parameter ≠ []

/-- What the command line says about a letter: nothing, or the argument of the last occurrence (empty for options
without argument). -/
def given (found : List (Char × Option Str)) (c : Char) : Option Str :=
  match found with
  | [] => none
  | (a, arg) :: l =>
    match given l c with
    | some s => some s
    | none => if a = c then some (arg.getD []) else none

/-- The default of a letter. -/
def default (ds : List Decl) (c : Char) : Str :=
  match (table ds).find? fun d => d.letter = c with
  | some d => d.default
  | none => []

/-- The text of an option: the argument if there is one, else the default. -/
def text (ds : List Decl) (found : List (Char × Option Str)) (c : Char) : Str :=
  match given found c with
  | some (x :: s) => x :: s
  | _ => default ds c

/-- The questions a program asks. -/
inductive Query where
  | has (c : Char)
  | str (c : Char)
  | chr (c : Char)
  | num (c : Char)
  | check

/-- The state after a question. -/
def Query.run (o : Opts) : Query → Opts
  | .has _ => o
  | .str c => (o.getStr c).2
  | .chr c => (o.getChar c).2
  | .num c => (o.getNum (fun _ => none) c ()).2
  | .check => o.check.2

/-! ### The declarations -/

theorem find_setFlag (o : Opts) (c : Char) (h : Str) (k : Char) :
    at' (o.setFlag c h).param k = (if k = c then [] else at' o.param k) := by
  unfold at' Opts.setFlag
  dsimp only
  rw [OMap.find_insert]
  split <;> rfl

/-- The tables agree with the declarations. -/
structure Declared (ds : List Decl) (o : Opts) : Prop where
  help : ∀ c, (OMap.find c o.help).isSome = (((table ds).find? fun d => d.letter = c)).isSome
  sorted : OMap.Sorted o.help
  param : ∀ c, at' o.param c = (((table ds).find? fun d => d.letter = c).map Decl.parameter).getD []
  req : ∀ c, (OMap.find c o.req).getD false = (((table ds).find? fun d => d.letter = c).map Decl.required).getD false
  deflt : ∀ c, at' o.deflt c = default ds c

theorem find_append (ds : List Decl) (d : Decl) (hn : d.letter ∉ (table ds).map Decl.letter) (c : Char) :
    ((table (ds ++ [d])).find? fun d => d.letter = c) =
      if c = d.letter then some d else (table ds).find? fun d => d.letter = c := by
  have e : table (ds ++ [d]) = table ds ++ [d] := rfl
  rw [e, List.find?_append]
  by_cases hc : c = d.letter
  · subst hc
    rw [if_pos rfl]
    have : ((table ds).find? fun d' => d'.letter = d.letter) = none := by
      rw [List.find?_eq_none]
      intro x hx hxd
      exact hn (List.mem_map.mpr ⟨x, hx, by simpa using hxd⟩)
    rw [this]
    simp
  · rw [if_neg hc]
    cases (table ds).find? fun d => d.letter = c with
    | none => simpa [List.find?_singleton] using fun h : d.letter = c => hc h.symm
    | some x => rfl

theorem declared_apply (ds : List Decl) (o : Opts) (d : Decl) (h : Declared ds o)
    (hn : d.letter ∉ (table ds).map Decl.letter) : Declared (ds ++ [d]) (d.apply o) := by
  have old : (table ds).find? (fun d' => d'.letter = d.letter) = none := by
    rw [List.find?_eq_none]
    intro x hx hxd
    exact hn (List.mem_map.mpr ⟨x, hx, by simpa using hxd⟩)
  have hf := find_append ds d hn
  have hreq : (OMap.find d.letter o.req).getD false = false := by rw [h.req, old]; rfl
  have hdef : at' o.deflt d.letter = [] := by rw [h.deflt]; unfold default; rw [old]
  have hd : ∀ c, default (ds ++ [d]) c = if c = d.letter then d.default else default ds c := by
    intro c
    unfold default
    rw [hf]
    by_cases hc : c = d.letter
    · rw [if_pos hc, if_pos hc]
    · rw [if_neg hc, if_neg hc]
  cases d with
  | flag a hlp =>
    refine ⟨?_, OMap.sorted_insert h.sorted, ?_, ?_, ?_⟩
    · intro c
      rw [hf]
      show (OMap.find c (OMap.insert a hlp o.help)).isSome = _
      rw [OMap.find_insert]
      show (if c = a then _ else _ : Option Str).isSome = (if c = a then _ else _ : Option Decl).isSome
      by_cases hc : c = a
      · rw [if_pos hc, if_pos hc]; rfl
      · rw [if_neg hc, if_neg hc]; exact h.help c
    · intro c
      rw [hf]
      show at' (o.setFlag a hlp).param c = Option.getD (Option.map _ (if c = a then _ else _ : Option Decl)) []
      rw [find_setFlag]
      by_cases hc : c = a
      · rw [if_pos hc, if_pos hc]; rfl
      · rw [if_neg hc, if_neg hc]; exact h.param c
    · intro c
      rw [hf]
      show (OMap.find c o.req).getD false = Option.getD (Option.map _ (if c = a then _ else _ : Option Decl)) false
      by_cases hc : c = a
      · rw [if_pos hc, hc]; exact hreq
      · rw [if_neg hc]; exact h.req c
    · intro c
      rw [hd]
      show at' o.deflt c = if c = a then _ else _
      by_cases hc : c = a
      · rw [if_pos hc, hc]; exact hdef
      · rw [if_neg hc]; exact h.deflt c
  | option a p r hlp v =>
    refine ⟨?_, OMap.sorted_insert h.sorted, ?_, ?_, ?_⟩
    · intro c
      rw [hf]
      show (OMap.find c (OMap.insert a hlp o.help)).isSome = _
      rw [OMap.find_insert]
      show (if c = a then _ else _ : Option Str).isSome = (if c = a then _ else _ : Option Decl).isSome
      by_cases hc : c = a
      · rw [if_pos hc, if_pos hc]; rfl
      · rw [if_neg hc, if_neg hc]; exact h.help c
    · intro c
      rw [hf]
      show (OMap.find c (OMap.insert a p o.param)).getD [] =
        Option.getD (Option.map _ (if c = a then _ else _ : Option Decl)) []
      rw [OMap.find_insert]
      by_cases hc : c = a
      · rw [if_pos hc, if_pos hc]; rfl
      · rw [if_neg hc, if_neg hc]; exact h.param c
    · intro c
      rw [hf]
      show (OMap.find c (OMap.insert a r o.req)).getD false =
        Option.getD (Option.map _ (if c = a then _ else _ : Option Decl)) false
      rw [OMap.find_insert]
      by_cases hc : c = a
      · rw [if_pos hc, if_pos hc]; rfl
      · rw [if_neg hc, if_neg hc]; exact h.req c
    · intro c
      rw [hd]
      show at' (if !r then OMap.insert a v o.deflt else o.deflt) c = if c = a then (if r then [] else v) else _
      cases r with
      | true =>
        by_cases hc : c = a
        · rw [if_pos hc, hc]; exact hdef
        · rw [if_neg hc]; exact h.deflt c
      | false =>
        show (OMap.find c (OMap.insert a v o.deflt)).getD [] = _
        rw [OMap.find_insert]
        by_cases hc : c = a
        · rw [if_pos hc, if_pos hc]; rfl
        · rw [if_neg hc, if_neg hc]; exact h.deflt c

theorem find_table_nil (c : Char) :
    ((table []).find? fun d => d.letter = c) = if c = 'h' then some (.flag 'h' []) else none := by
  unfold table
  rw [List.find?_singleton]
  by_cases hc : c = 'h'
  · rw [hc]; rfl
  · rw [if_neg hc, if_neg]
    intro h
    exact hc (of_decide_eq_true h).symm

theorem declared_nil : Declared [] (Opts.new []) := by
  refine ⟨?_, OMap.sorted_insert OMap.sorted_nil, ?_, ?_, ?_⟩
  · intro c
    rw [find_table_nil]
    show (OMap.find c (OMap.insert 'h' [] [])).isSome = _
    rw [OMap.find_insert]
    by_cases hc : c = 'h'
    · rw [if_pos hc, if_pos hc]; rfl
    · rw [if_neg hc, if_neg hc]; rfl
  · intro c
    rw [find_table_nil]
    show (OMap.find c (OMap.insert 'h' [] [])).getD [] = _
    rw [OMap.find_insert]
    by_cases hc : c = 'h'
    · rw [if_pos hc, if_pos hc]; rfl
    · rw [if_neg hc, if_neg hc]; rfl
  · intro c
    rw [find_table_nil]
    by_cases hc : c = 'h'
    · rw [if_pos hc]; rfl
    · rw [if_neg hc]; rfl
  · intro c
    unfold default
    rw [find_table_nil]
    by_cases hc : c = 'h'
    · rw [if_pos hc]; rfl
    · rw [if_neg hc]; rfl

theorem declared_all (ds : List Decl) (h : ((table ds).map Decl.letter).Nodup) : Declared ds (declare ds) := by
  have key : ∀ (l pre : List Decl) (o : Opts), Declared pre o →
      ((table (pre ++ l)).map Decl.letter).Nodup → Declared (pre ++ l) (l.foldl Decl.apply o) := by
    intro l
    induction l with
    | nil => intro pre o hp _; rw [List.append_nil]; exact hp
    | cons d l ih =>
      intro pre o hp hn
      have e : pre ++ d :: l = (pre ++ [d]) ++ l := by simp
      rw [e] at hn ⊢
      rw [List.foldl_cons]
      refine ih (pre ++ [d]) _ (declared_apply pre o d hp ?_) hn
      intro hm
      have e2 : (table (pre ++ [d] ++ l)).map Decl.letter = (table pre).map Decl.letter ++ (d.letter :: l.map Decl.letter) := by
        simp [table]
      rw [e2] at hn
      exact (List.nodup_append.mp hn).2.2 _ hm _ List.mem_cons_self rfl
  exact key ds [] _ declared_nil (by simpa using h)

theorem find_letter (l : List Decl) (c : Char) (d : Decl) (h : l.find? (fun d => d.letter = c) = some d) :
    d.letter = c ∧ d ∈ l := by
  constructor
  · have := List.find?_some h
    simpa using this
  · exact List.mem_of_find?_eq_some h

theorem declare_value (ds : List Decl) : (declare ds).value = [] := by
  have key : ∀ (l : List Decl) (o : Opts), o.value = [] → (l.foldl Decl.apply o).value = [] := by
    intro l
    induction l with
    | nil => intro o h; exact h
    | cons d l ih =>
      intro o h
      apply ih
      cases d <;> exact h
  exact key ds _ rfl

/-! ### The definition string -/

theorem lookup_append (param : OMap Char Str) (c : Char) (hc : c ≠ ':') : ∀ help : OMap Char Str,
    OMap.Sorted help → (∀ p ∈ help, p.1 ≠ ':') →
    lookup (optdef param help) c =
      if (OMap.find c help).isSome then some (!(at' param c).isEmpty) else none := by
  intro help
  induction help with
  | nil => intro _ _; unfold optdef lookup; rw [if_neg hc]; rfl
  | cons q l ih =>
    intro hs hcol
    obtain ⟨a, v⟩ := q
    have ih' := ih (List.pairwise_cons.mp hs).2 (fun p hp => hcol p (List.mem_cons_of_mem _ hp))
    have ha : a ≠ ':' := hcol (a, v) List.mem_cons_self
    have hcons : ∀ (d : Char) (s : Str), lookup (d :: s) c = if d = c then some (s.head? == some ':') else lookup s c := by
      intro d s
      conv => lhs; unfold lookup
      rw [if_neg hc]
    have hhead : (optdef param l).head? ≠ some ':' := by
      cases l with
      | nil => simp [optdef]
      | cons q2 l2 =>
        obtain ⟨a2, v2⟩ := q2
        have := hcol (a2, v2) (List.mem_cons_of_mem _ List.mem_cons_self)
        unfold optdef
        split <;> simpa using this
    unfold optdef
    by_cases hac : a = c
    · subst hac
      have hf : OMap.find a ((a, v) :: l) = some v := by unfold OMap.find; rw [if_pos rfl]
      rw [hf]
      by_cases he : (at' param a).isEmpty = true
      · rw [if_pos he]
        show lookup (a :: optdef param l) a = _
        rw [hcons, if_pos rfl, he]
        simpa using hhead
      · rw [if_neg he]
        show lookup (a :: ':' :: optdef param l) a = _
        rw [hcons, if_pos rfl]
        have he' : (at' param a).isEmpty = false := by simpa using he
        rw [he']
        rfl
    · have hf : OMap.find c ((a, v) :: l) = OMap.find c l := by
        conv => lhs; unfold OMap.find
        rw [if_neg (fun h => hac h.symm)]
      rw [hf, ← ih']
      by_cases he : (at' param a).isEmpty = true
      · rw [if_pos he]
        show lookup (a :: optdef param l) c = _
        rw [hcons, if_neg hac]
      · rw [if_neg he]
        show lookup (a :: ':' :: optdef param l) c = _
        rw [hcons, if_neg hac, hcons, if_neg (fun h => hc h.symm)]

theorem lookup_takes (ds : List Decl) (h : Sane ds) :
    lookup (optdef (declare ds).param (declare ds).help) = takes ds := by
  have hd := declared_all ds h.nodup
  have hcolon : ∀ p ∈ (declare ds).help, p.1 ≠ ':' := by
    intro p hp he
    have h1 : OMap.find p.1 (declare ds).help = some p.2 := (OMap.find_eq_some_iff hd.sorted _ _).mpr hp
    have h2 := hd.help p.1
    rw [h1] at h2
    cases hf : (table ds).find? (fun d => d.letter = p.1) with
    | none => rw [hf] at h2; cases h2
    | some d =>
      obtain ⟨g1, g2⟩ := find_letter _ _ _ hf
      rcases List.mem_cons.mp g2 with e | e
      · rw [e] at g1
        rw [he] at g1
        exact absurd g1 (by decide)
      · exact h.colon d e (by rw [g1, he])
  funext c
  by_cases hc : c = ':'
  · have e1 : lookup (optdef (declare ds).param (declare ds).help) c = none := by unfold lookup; rw [if_pos hc]
    rw [e1]
    unfold takes
    cases hf : (table ds).find? (fun d => d.letter = c) with
    | none => rfl
    | some d =>
      obtain ⟨g1, g2⟩ := find_letter _ _ _ hf
      rcases List.mem_cons.mp g2 with e | e
      · rw [e, hc] at g1
        exact absurd g1 (by decide)
      · exact absurd (g1.trans hc) (h.colon d e)
  · rw [lookup_append _ _ hc _ hd.sorted hcolon, hd.help, hd.param]
    unfold takes
    cases hf : (table ds).find? (fun d => d.letter = c) with
    | none => rfl
    | some d =>
      simp only [Option.isSome_some, if_true, Option.map_some, Option.getD_some]
      cases d.parameter <;> simp

/-! ### The values -/

theorem find_enter (c : Char) (hc : c ≠ '?') : ∀ (found : List (Char × Option Str)) (m : OMap Char Str),
    OMap.find c (enter m found) = match given found c with | some s => some s | none => OMap.find c m := by
  intro found
  induction found with
  | nil => intro m; rfl
  | cons p l ih =>
    intro m
    obtain ⟨a, arg⟩ := p
    unfold enter given
    rw [ih]
    cases given l c with
    | some s => rfl
    | none =>
      dsimp only
      by_cases ha : a = c
      · subst ha
        rw [if_pos rfl]
        cases arg with
        | none => dsimp only; rw [if_pos hc, OMap.find_insert, if_pos rfl]; rfl
        | some s => dsimp only; rw [if_pos hc, OMap.find_insert, if_pos rfl]; rfl
      · rw [if_neg ha]
        cases arg with
        | none =>
          dsimp only
          split
          · rw [OMap.find_insert, if_neg (fun h => ha h.symm)]
          · rfl
        | some s =>
          dsimp only
          split
          · rw [OMap.find_insert, if_neg (fun h => ha h.symm)]
          · rfl

/-- What is known about the state after some questions: the values are those given, possibly with empty entries
added for the letters in `extra`. -/
structure Inv (ds : List Decl) (found : List (Char × Option Str)) (extra : Char → Prop) (o : Opts) : Prop where
  decl : Declared ds o
  value : ∀ c, c ≠ '?' → at' o.value c = (given found c).getD []
  has : ∀ c, c ≠ '?' → ¬ extra c → OMap.find c o.value = given found c

theorem find_touch (m : OMap Char Str) (k c : Char) :
    OMap.find c (touch m k) = if c = k then some (at' m k) else OMap.find c m := by
  unfold touch at'
  cases h : OMap.find k m with
  | none =>
    dsimp only
    rw [OMap.find_insert]
    rfl
  | some v =>
    dsimp only
    by_cases hc : c = k
    · rw [if_pos hc, hc, h]; rfl
    · rw [if_neg hc]

theorem inv_touch (ds : List Decl) (found : List (Char × Option Str)) (extra : Char → Prop) (o : Opts)
    (h : Inv ds found extra o) (k : Char) :
    Inv ds found (fun c => extra c ∨ (c = k ∧ given found c = none)) { o with value := touch o.value k } := by
  refine ⟨⟨h.decl.help, h.decl.sorted, h.decl.param, h.decl.req, h.decl.deflt⟩, ?_, ?_⟩
  · intro c hc
    show (OMap.find c (touch o.value k)).getD [] = _
    rw [find_touch]
    by_cases hk : c = k
    · rw [if_pos hk, ← hk]; exact h.value c hc
    · rw [if_neg hk]; exact h.value c hc
  · intro c hc hx
    show OMap.find c (touch o.value k) = _
    rw [find_touch]
    by_cases hk : c = k
    · rw [if_pos hk, ← hk]
      cases hg : given found c with
      | none => exact absurd (Or.inr ⟨hk, hg⟩) hx
      | some s => rw [h.value c hc, hg]; rfl
    · rw [if_neg hk]; exact h.has c hc (fun e => hx (Or.inl e))

theorem inv_weaken (ds : List Decl) (found : List (Char × Option Str)) (e1 e2 : Char → Prop) (o : Opts)
    (h : Inv ds found e1 o) (hw : ∀ c, e1 c → e2 c) : Inv ds found e2 o :=
  ⟨h.decl, h.value, fun c hc hx => h.has c hc (fun e => hx (hw c e))⟩

/-- No option without argument has a default. -/
def NoFlagDefaults (ds : List Decl) : Prop := ∀ d ∈ ds, d.parameter = [] → d.default = []

/-- An option is required, takes an argument and is missing or has an empty argument. -/
def Missing (found : List (Char × Option Str)) (d : Decl) : Prop :=
  d.required = true ∧ d.parameter ≠ [] ∧ (given found d.letter).getD [] = []

theorem default_nil (ds : List Decl) (hf : NoFlagDefaults ds) (o : Opts) (h : Declared ds o) (c : Char)
    (hp : (at' o.param c).isEmpty = true) : at' o.deflt c = [] := by
  rw [h.deflt]
  rw [h.param] at hp
  unfold default
  cases hd : (table ds).find? (fun d => d.letter = c) with
  | none => rfl
  | some d =>
    rw [hd] at hp
    have hp' : d.parameter = [] := by simpa using hp
    rcases List.mem_cons.mp (List.mem_of_find?_eq_some hd) with e | e
    · rw [e]; rfl
    · exact hf d e hp'

theorem inj_of_nodup_map : ∀ l : List Decl, (l.map Decl.letter).Nodup → ∀ a b, a ∈ l → b ∈ l →
    a.letter = b.letter → a = b := by
  intro l
  induction l with
  | nil => intro _ a b ha; cases ha
  | cons x l ih =>
    intro hn a b ha hb he
    have hn' := List.nodup_cons.mp hn
    rcases List.mem_cons.mp ha with e1 | e1 <;> rcases List.mem_cons.mp hb with e2 | e2
    · rw [e1, e2]
    · exact absurd (List.mem_map.mpr ⟨b, e2, by rw [← he, e1]⟩) hn'.1
    · exact absurd (List.mem_map.mpr ⟨a, e1, by rw [he, e2]⟩) hn'.1
    · exact ih hn'.2 a b e1 e2 he

theorem checkLoop_inv (ds : List Decl) (found : List (Char × Option Str)) (hs : Sane ds) (hf : NoFlagDefaults ds) :
    ∀ (l : OMap Char Str) (extra : Char → Prop) (o : Opts), Inv ds found extra o →
      (∀ p ∈ l, ∃ d ∈ table ds, d.letter = p.1) →
      Inv ds found (fun c => extra c ∨ ∃ d ∈ ds, d.letter = c ∧ Missing found d) (o.checkLoop l).2 ∧
      ((o.checkLoop l).1 = true ↔ ∀ p ∈ l, ∀ d ∈ table ds, d.letter = p.1 → ¬ Missing found d) := by
  intro l
  induction l with
  | nil =>
    intro extra o h _
    exact ⟨inv_weaken _ _ _ _ _ h (fun c e => Or.inl e), by simp [Opts.checkLoop]⟩
  | cons q l ih =>
    intro extra o h hl
    obtain ⟨a, v⟩ := q
    obtain ⟨d, hd1, hd2⟩ := hl (a, v) List.mem_cons_self
    have hd2' : d.letter = a := hd2
    have hl' : ∀ p ∈ l, ∃ d ∈ table ds, d.letter = p.1 := fun p hp => hl p (List.mem_cons_of_mem _ hp)
    have uniq : ∀ d' ∈ table ds, d'.letter = a → d' = d := by
      intro d' h1 h2
      exact inj_of_nodup_map _ hs.nodup d' d h1 hd1 (h2.trans hd2'.symm)
    have hfind : (table ds).find? (fun d => d.letter = a) = some d := by
      cases hx : (table ds).find? (fun d => d.letter = a) with
      | none => exact absurd hd2' (by simpa using (List.find?_eq_none.mp hx) d hd1)
      | some d' =>
        obtain ⟨g1, g2⟩ := find_letter _ _ _ hx
        rw [uniq d' g2 g1]
    have ha : a ≠ '?' := by
      rcases List.mem_cons.mp hd1 with e | e
      · rw [← hd2', e]; decide
      · rw [← hd2']; exact hs.mark d e
    have hparam : at' o.param a = d.parameter := by rw [h.decl.param, hfind]; rfl
    have hreq : (OMap.find a o.req).getD false = d.required := by rw [h.decl.req, hfind]; rfl
    have hval := h.value a ha
    have iff_cons : ∀ P : Prop, (P ↔ ¬ Missing found d) → ∀ b : Bool,
        (b = true ↔ ∀ p ∈ l, ∀ d ∈ table ds, d.letter = p.1 → ¬ Missing found d) →
        ((P ∧ b = true) ↔ ∀ p ∈ ((a, v) :: l : OMap Char Str), ∀ d ∈ table ds, d.letter = p.1 → ¬ Missing found d) := by
      intro P hP b hb
      constructor
      · rintro ⟨h1, h2⟩ p hp d' hd' hx
        rcases List.mem_cons.mp hp with e | e
        · rw [e] at hx
          rw [uniq d' hd' hx]
          exact hP.mp h1
        · exact hb.mp h2 p e d' hd' hx
      · intro hall
        exact ⟨hP.mpr (hall (a, v) List.mem_cons_self d hd1 hd2'), hb.mpr fun p hp => hall p (List.mem_cons_of_mem _ hp)⟩
    unfold Opts.checkLoop
    by_cases hc : (!(at' o.param a).isEmpty && (OMap.find a o.req).getD false) = true
    · rw [if_pos hc]
      rw [hparam, hreq] at hc
      have hc' : d.parameter ≠ [] ∧ d.required = true := by
        simpa using hc
      by_cases he : (at' o.value a).isEmpty = true
      · rw [if_pos he]
        have hm : Missing found d := by
          refine ⟨hc'.2, hc'.1, ?_⟩
          rw [hd2', ← hval]
          simpa using he
        have hmem : d ∈ ds := by
          rcases List.mem_cons.mp hd1 with e | e
          · rw [e] at hc'; exact absurd hc'.2 (by decide)
          · exact e
        constructor
        · refine inv_weaken _ _ _ _ _ (inv_touch ds found extra o h a) ?_
          rintro c (e | ⟨e, _⟩)
          · exact Or.inl e
          · exact Or.inr ⟨d, hmem, hd2'.trans e.symm, hm⟩
        · constructor
          · intro hx; cases hx
          · intro hall; exact absurd hm (hall (a, v) List.mem_cons_self d hd1 hd2')
      · rw [if_neg he]
        have hv : (given found a).getD [] ≠ [] := by
          rw [← hval]; simpa using he
        have hg : given found a ≠ none := by intro e; rw [e] at hv; exact hv rfl
        have hi := inv_weaken _ _ _ extra _ (inv_touch ds found extra o h a) (by
          rintro c (e | ⟨e, e2⟩)
          · exact e
          · rw [e] at e2; exact absurd e2 hg)
        have := ih extra _ hi hl'
        refine ⟨this.1, ?_⟩
        have hnm : ¬ Missing found d := by
          rintro ⟨_, _, e⟩
          rw [hd2'] at e
          exact hv e
        have := iff_cons True (by simp [hnm]) _ this.2
        simpa using this
    · rw [if_neg hc]
      rw [hparam, hreq] at hc
      have hnm : ¬ Missing found d := by
        rintro ⟨e1, e2, _⟩
        apply hc
        simp [e1, e2]
      have hz : ¬ (((at' o.param a).isEmpty && !(at' o.deflt a).isEmpty) = true) := by
        intro hx
        rw [Bool.and_eq_true] at hx
        rw [default_nil ds hf o h.decl a hx.1] at hx
        exact absurd hx.2 (by simp)
      rw [if_neg hz]
      have := ih extra _ h hl'
      refine ⟨this.1, ?_⟩
      have := iff_cons True (by simp [hnm]) _ this.2
      simpa using this

theorem check_inv (ds : List Decl) (found : List (Char × Option Str)) (hs : Sane ds) (hf : NoFlagDefaults ds)
    (extra : Char → Prop) (o : Opts) (h : Inv ds found extra o) :
    Inv ds found (fun c => extra c ∨ ∃ d ∈ ds, d.letter = c ∧ Missing found d) o.check.2 ∧
    (¬ extra 'h' → (o.check.1 = true ↔ given found 'h' = none ∧ ∀ d ∈ ds, ¬ Missing found d)) := by
  have hmem : ∀ p ∈ o.help, ∃ d ∈ table ds, d.letter = p.1 := by
    intro p hp
    have h1 : OMap.find p.1 o.help = some p.2 := (OMap.find_eq_some_iff h.decl.sorted _ _).mpr hp
    have h2 := h.decl.help p.1
    rw [h1] at h2
    cases hx : (table ds).find? (fun d => d.letter = p.1) with
    | none => rw [hx] at h2; cases h2
    | some d =>
      obtain ⟨g1, g2⟩ := find_letter _ _ _ hx
      exact ⟨d, g2, g1⟩
  have hl := checkLoop_inv ds found hs hf o.help extra o h hmem
  unfold Opts.check
  by_cases hh : o.has 'h' = true
  · rw [if_pos hh]
    refine ⟨inv_weaken _ _ _ _ _ h (fun c e => Or.inl e), fun hx => ?_⟩
    have := h.has 'h' (by decide) hx
    unfold Opts.has at hh
    rw [this] at hh
    constructor
    · intro e; cases e
    · rintro ⟨e, _⟩; rw [e] at hh; cases hh
  · rw [if_neg hh]
    refine ⟨hl.1, fun hx => ?_⟩
    have := h.has 'h' (by decide) hx
    unfold Opts.has at hh
    rw [this] at hh
    rw [hl.2]
    constructor
    · intro hall
      refine ⟨by simpa using hh, fun d hd => ?_⟩
      have hfnd : (OMap.find d.letter o.help).isSome = true := by
        rw [h.decl.help]
        cases hx2 : (table ds).find? (fun d' => d'.letter = d.letter) with
        | none => exact absurd (decide_eq_true rfl) ((List.find?_eq_none.mp hx2) d (List.mem_cons_of_mem _ hd))
        | some _ => rfl
      obtain ⟨v, hv⟩ := Option.isSome_iff_exists.mp hfnd
      exact hall (d.letter, v) ((OMap.find_eq_some_iff h.decl.sorted _ _).mp hv) d (List.mem_cons_of_mem _ hd) rfl
    · rintro ⟨_, hall⟩ p hp d hd _
      rcases List.mem_cons.mp hd with e | e
      · rw [e]; rintro ⟨e1, _⟩; cases e1
      · exact hall d e

/-- Questions that ask for the value of a letter. -/
def Query.asks (c : Char) : Query → Prop
  | .has _ => False
  | .str k => k = c
  | .chr k => k = c
  | .num k => k = c
  | .check => False

theorem run_inv (ds : List Decl) (found : List (Char × Option Str)) (hs : Sane ds) (hf : NoFlagDefaults ds)
    (extra : Char → Prop) (o : Opts) (h : Inv ds found extra o) (q : Query) :
    Inv ds found (fun c => extra c ∨ q.asks c ∨ ∃ d ∈ ds, d.letter = c ∧ Missing found d) (q.run o) := by
  have ht : ∀ k, Inv ds found (fun c => extra c ∨ k = c ∨ ∃ d ∈ ds, d.letter = c ∧ Missing found d)
      { o with value := touch o.value k } := by
    intro k
    refine inv_weaken _ _ _ _ _ (inv_touch ds found extra o h k) ?_
    rintro c (e | ⟨e, _⟩)
    · exact Or.inl e
    · exact Or.inr (Or.inl e.symm)
  cases q with
  | has c => exact inv_weaken _ _ _ _ _ h (fun c e => Or.inl e)
  | str k => exact ht k
  | chr k => exact ht k
  | num k => exact ht k
  | check =>
    refine inv_weaken _ _ _ _ _ (check_inv ds found hs hf extra o h).1 ?_
    rintro c (e | e)
    · exact Or.inl e
    · exact Or.inr (Or.inr e)

theorem runs_inv (ds : List Decl) (found : List (Char × Option Str)) (hs : Sane ds) (hf : NoFlagDefaults ds) :
    ∀ (qs : List Query) (extra : Char → Prop) (o : Opts), Inv ds found extra o →
      Inv ds found (fun c => extra c ∨ (∃ q ∈ qs, q.asks c) ∨ ∃ d ∈ ds, d.letter = c ∧ Missing found d)
        (qs.foldl Query.run o) := by
  intro qs
  induction qs with
  | nil => intro extra o h; exact inv_weaken _ _ _ _ _ h (fun c e => Or.inl e)
  | cons q qs ih =>
    intro extra o h
    rw [List.foldl_cons]
    refine inv_weaken _ _ _ _ _ (ih _ _ (run_inv ds found hs hf extra o h q)) ?_
    rintro c ((e | e | e) | ⟨q', e1, e2⟩ | e)
    · exact Or.inl e
    · exact Or.inr (Or.inl ⟨q, List.mem_cons_self, e⟩)
    · exact Or.inr (Or.inr e)
    · exact Or.inr (Or.inl ⟨q', List.mem_cons_of_mem _ e1, e2⟩)
    · exact Or.inr (Or.inr e)

/-- The state after reading the command line. -/
theorem read_inv (ds : List Decl) (hs : Sane ds) (name : Str) (args : List Str) :
    Inv ds (scan (takes ds) args).found (fun _ => False) ((declare ds).readArgs name args) := by
  have hd := declared_all ds hs.nodup
  have hfind : ∀ c, c ≠ '?' → OMap.find c ((declare ds).readArgs name args).value = given (scan (takes ds) args).found c := by
    intro c hc
    unfold Opts.readArgs Opts.parseArgs
    dsimp only
    rw [lookup_takes ds hs, find_enter c hc, declare_value]
    cases given (scan (takes ds) args).found c <;> rfl
  refine ⟨⟨hd.help, hd.sorted, hd.param, hd.req, hd.deflt⟩, ?_, fun c hc _ => hfind c hc⟩
  intro c hc
  unfold at'
  rw [hfind c hc]

/-! ### The property -/

/-- C52, values: for every set of declarations, every command line and every sequence of questions asked before,
the value of an option is the argument given last on the command line, or the default if there is none; the same
text is converted for the other types.  Missing: declarations of options without argument that have a default,
see `C52_violated_flag_default`. -/
theorem C52_value_partial (ds : List Decl) (hs : Sane ds) (hf : NoFlagDefaults ds) (name : Str) (args : List Str)
    (qs : List Query) (c : Char) (hc : c ≠ '?') :
    let o := qs.foldl Query.run ((declare ds).readArgs name args)
    let answer := text ds (scan (takes ds) args).found c
    (o.getStr c).1 = answer ∧ (o.getChar c).1 = answer.headD '\x00' ∧
      ∀ (A : Type) (conv : Str → Option A) (old : A), (o.getNum conv c old).1 = (conv answer).getD old := by
  intro o answer
  have h := runs_inv ds _ hs hf qs _ _ (read_inv ds hs name args)
  have hv : at' o.value c = (given (scan (takes ds) args).found c).getD [] := h.value c hc
  have hd : at' o.deflt c = default ds c := h.decl.deflt c
  have key : (if !(at' o.value c).isEmpty then at' o.value c else at' o.deflt c) = answer := by
    rw [hv, hd]
    show _ = text ds _ c
    unfold text
    cases given (scan (takes ds) args).found c with
    | none => rfl
    | some s => cases s <;> rfl
  refine ⟨key, ?_, ?_⟩
  · rw [← key]
    show (if _ then _ else _) = _
    split <;> rfl
  · intro A conv old
    rw [← key]
    rfl

/-- C52, presence: an option is reported as given exactly if it is on the command line, after every sequence of
questions that do not ask for its value; if questions include `CheckOptions`, options that are required and
missing are left out.  Missing: questions for the value, see `C52_violated_query`. -/
theorem C52_has_partial (ds : List Decl) (hs : Sane ds) (hf : NoFlagDefaults ds) (name : Str) (args : List Str)
    (qs : List Query) (c : Char) (hc : c ≠ '?') (hq : ∀ q ∈ qs, ¬ q.asks c)
    (hm : ∀ d ∈ ds, d.letter = c → ¬ Missing (scan (takes ds) args).found d) :
    (qs.foldl Query.run ((declare ds).readArgs name args)).has c =
      (given (scan (takes ds) args).found c).isSome := by
  have h := runs_inv ds _ hs hf qs _ _ (read_inv ds hs name args)
  unfold Opts.has
  rw [h.has c hc]
  rintro (e | ⟨q, e1, e2⟩ | ⟨d, e1, e2, e3⟩)
  · exact e
  · exact hq q e1 e2
  · exact hm d e1 e2 e3

/-- C52, required options: `CheckOptions` fails exactly if the help is asked for or a required option has no
argument, for every command line and after every sequence of questions that do not ask for the value of the help
option. -/
theorem C52_required_partial (ds : List Decl) (hs : Sane ds) (hf : NoFlagDefaults ds) (name : Str)
    (args : List Str) (qs : List Query) (hq : ∀ q ∈ qs, ¬ q.asks 'h') :
    (qs.foldl Query.run ((declare ds).readArgs name args)).check.1 = true ↔
      given (scan (takes ds) args).found 'h' = none ∧
        ∀ d ∈ ds, d.required = true → d.parameter ≠ [] → (given (scan (takes ds) args).found d.letter).getD [] ≠ [] := by
  have h := runs_inv ds _ hs hf qs _ _ (read_inv ds hs name args)
  rw [(check_inv ds _ hs hf _ _ h).2]
  · constructor
    · rintro ⟨h1, h2⟩
      exact ⟨h1, fun d hd e1 e2 e3 => h2 d hd ⟨e1, e2, e3⟩⟩
    · rintro ⟨h1, h2⟩
      exact ⟨h1, fun d hd ⟨e1, e2, e3⟩ => h2 d hd e1 e2 e3⟩
  · rintro (e | ⟨q, e1, e2⟩ | ⟨d, e1, e2, _⟩)
    · exact e
    · exact hq q e1 e2
    · have := List.nodup_cons.mp hs.nodup
      exact this.1 (List.mem_map.mpr ⟨d, e1, e2⟩)

/-- C52, other arguments: `GetNonOption` with a number that is not negative gives the words of the command line
that are neither options nor arguments of options, in their order. -/
theorem C52_non_option_partial (ds : List Decl) (hs : Sane ds) (name : Str) (args : List Str) (n : Nat)
    (hn : 1 + args.length + n < 2 ^ 32) :
    ((declare ds).readArgs name args).nonOption n = ((scan (takes ds) args).rest[n]?).map some := by
  have hlen : ∀ (kind : Char → Option Bool) (k : Nat) (l : List Str), l.length ≤ k →
      (scan kind l).used.length + (scan kind l).rest.length = l.length := by
    intro kind k
    induction k with
    | zero =>
      intro l hl
      have : l = [] := List.length_eq_zero_iff.mp (by omega)
      subst this
      rfl
    | succ k ih =>
      intro l hl
      cases l with
      | nil => rfl
      | cons w l =>
        have hl' : l.length ≤ k := by simpa using hl
        unfold scan
        split
        · simp; omega
        · split
          · split
            · simp
            · rename_i a l'
              have h1 := ih l' (by simp at hl'; omega)
              have h2 := ih (a :: l') hl'
              split
              · simp only [List.length_cons]
                omega
              · simp only [List.length_cons] at h2 ⊢
                omega
          · have h1 := ih l hl'
            simp only [List.length_cons]
            omega
  unfold Opts.readArgs Opts.parseArgs Opts.nonOption Opts.arg
  dsimp only
  rw [lookup_takes ds hs]
  have hl := hlen (takes ds) args.length args (Nat.le_refl _)
  generalize scan (takes ds) args = r at *
  have hmod : (((1 + r.used.length : Nat) : Int) + (n : Int)) % 2 ^ 32 = ((1 + r.used.length + n : Nat) : Int) := by
    rw [Int.emod_eq_of_lt] <;> omega
  rw [hmod]
  simp only [Int.toNat_natCast, List.length_cons, List.length_append]
  by_cases hlt : n < r.rest.length
  · rw [if_pos (by omega)]
    have e : 1 + r.used.length + n = (r.used.length + n) + 1 := by omega
    rw [e, List.getElem?_cons_succ, List.getElem?_append_right (by omega)]
    rw [show r.used.length + n - r.used.length = n by omega, List.getElem?_eq_getElem hlt]
    rfl
  · rw [if_neg (by omega), List.getElem?_eq_none (by omega)]
    rfl

/-! ### Defects -/

/-- C52 is violated: asking for the value of an option that is not on the command line makes the program report
it as given. -/
theorem C52_violated_query : ∃ (ds : List Decl) (args : List Str), Sane ds ∧ NoFlagDefaults ds ∧
    ((declare ds).readArgs [] args).has 'p' = false ∧
    (Query.run ((declare ds).readArgs [] args) (.num 'p')).has 'p' = true := by
  refine ⟨[.option 'p' "num threads".toList false [] "1".toList], [], ⟨by decide, by decide, by decide⟩, ?_, rfl, rfl⟩
  intro d hd
  rw [List.mem_singleton.mp hd]
  decide

/-- C52 is violated: `CheckOptions` itself makes the program report a required option as given, although the call
reported it as missing. -/
theorem C52_violated_check : ∃ (ds : List Decl) (args : List Str), Sane ds ∧ NoFlagDefaults ds ∧
    ((declare ds).readArgs [] args).check.1 = false ∧
    (Query.run ((declare ds).readArgs [] args) .check).has 't' = true := by
  refine ⟨[.option 't' "steps".toList true [] []], [], ⟨by decide, by decide, by decide⟩, ?_, rfl, rfl⟩
  intro d hd
  rw [List.mem_singleton.mp hd]
  decide

/-- C52 is violated: `CheckOptions` reports an option without argument as given if it has a default. -/
theorem C52_violated_flag_default : ∃ (ds : List Decl) (args : List Str), Sane ds ∧
    ((declare ds).readArgs [] args).has 'f' = false ∧
    (Query.run ((declare ds).readArgs [] args) .check).has 'f' = true := by
  exact ⟨[.option 'f' [] false [] "no".toList], [], ⟨by decide, by decide, by decide⟩, rfl, rfl⟩

/-- C52 is violated by the second form of `GetNonOption`: with an option that has its argument in the next word,
the argument is returned instead of the first word that is not an option. -/
theorem C52_violated_non_option_chars : ∃ (ds : List Decl) (args : List Str), Sane ds ∧
    (scan (takes ds) args).rest[0]? = some "input".toList ∧
    ((declare ds).readArgs [] args).nonOptionChars 0 = some (some "4".toList) := by
  refine ⟨[.option 'p' "num".toList false [] "1".toList], ["-p".toList, "4".toList, "input".toList],
    ⟨by decide, by decide, by decide⟩, rfl, rfl⟩

/-- C52 is violated for negative numbers: `GetNonOption(-1)` gives a word that is an option. -/
theorem C52_violated_non_option_negative : ∃ (ds : List Decl) (args : List Str), Sane ds ∧
    (scan (takes ds) args).rest = [] ∧
    ((declare ds).readArgs [] args).nonOption (-1) = some (some "-c".toList) := by
  exact ⟨[.flag 'c' []], ["-c".toList], ⟨by decide, by decide, by decide⟩, rfl, rfl⟩

/-! ### Non trivial cases -/

/-- Declarations and a command line that meet the hypotheses, with a required option, a default that is used and
one that is not, and a word that is not an option. -/
example : ∃ (ds : List Decl) (args : List Str), Sane ds ∧ NoFlagDefaults ds ∧
    given (scan (takes ds) args).found 'p' = some "4".toList ∧
    text ds (scan (takes ds) args).found 'p' = "4".toList ∧
    text ds (scan (takes ds) args).found 'm' = "path".toList ∧
    given (scan (takes ds) args).found 'g' = some [] ∧
    (scan (takes ds) args).rest = ["input".toList] ∧
    ((declare ds).readArgs [] args).check.1 = true := by
  refine ⟨[.option 'p' "num".toList true [] "1".toList, .option 'm' "path".toList false [] "path".toList, .flag 'g' []],
    ["input".toList, "-gp".toList, "4".toList], ⟨by decide, by decide, by decide⟩, ?_, rfl, rfl, rfl, rfl, rfl, rfl⟩
  intro d hd
  simp only [List.mem_cons, List.not_mem_nil, or_false] at hd
  rcases hd with e | e | e <;> rw [e] <;> decide

end QDng.Cmdline
