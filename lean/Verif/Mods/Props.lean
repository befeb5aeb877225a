import Verif.Mods.Model

/-
Properties C211 to C213: loading of classes by name.
-/

namespace QDng.Mods

variable {C : Type} (dyn : Bool) (inst : String → C) (k : Kind)

/-- The class a user name stands for among the compiled-in ones, as documented: the name of the class
without its prefix, for wave functions also with it. -/
def IsBuiltin (dyn : Bool) (k : Kind) (name : Str) (cls : String) : Prop :=
  match k with
  | .waveFunction =>
    cls ∈ (["WFGridCartesian", "WFLevel"] : List String) ∧
      (name = cls.toList ∨ (name = cls.toList.drop 2))
  | .operator => cls ∈ internals dyn .operator ∧ 'O' :: name = cls.toList

theorem register_same (l : Loader C) (name : Str) (c : C) :
    ∃ n, (l.register name c).mods name = some ⟨c, n⟩ := by
  cases h : l.mods name with
  | none => exact ⟨1, by simp [Loader.register, h]⟩
  | some e => exact ⟨e.links + 1, by simp [Loader.register, h]⟩

theorem register_other (l : Loader C) (name n : Str) (c : C) (h : n ≠ name) :
    (l.register name c).mods n = l.mods n := by
  unfold Loader.register
  simp only
  rw [if_neg h]

theorem tryPaths_ok (env : Env C) (l : Loader C) (name : Str) (ps : List Str) (r : Loader C × C)
    (h : tryPaths env l name ps = .ok r) : r.1 = l.register name r.2 := by
  induction ps with
  | nil => cases h
  | cons p ps ih =>
    unfold tryPaths at h
    cases ht : tryPath env l p name with
    | ub => rw [ht] at h; cases h
    | threw => rw [ht] at h; cases h
    | ok o =>
      rw [ht] at h
      cases o with
      | none => exact ih h
      | some q =>
        cases h
        unfold tryPath at ht
        cases he : env.expand p with
        | none => rw [he] at ht; cases ht
        | some ws =>
          rw [he] at ht
          simp only at ht
          cases hd : env.dlopen ws.head? with
          | none => rw [hd] at ht; cases ht
          | some m =>
            rw [hd] at ht
            cases m with
            | none => cases ht
            | some c => cases ht; rfl

/-- A successful load registers what it returns. -/
theorem load_ok (env : Env C) (l : Loader C) (name : Str) (l' : Loader C) (c : C)
    (h : l.load dyn inst k env name = .ok (l', c)) : l' = l.register name c := by
  unfold Loader.load at h
  cases h1 : (if dyn then l.mods name else none) with
  | some e => rw [h1] at h; cases h; rfl
  | none =>
    rw [h1] at h
    simp only at h
    cases h2 : lookup dyn inst k (intName k name) with
    | some c' => rw [h2] at h; cases h; rfl
    | none =>
      rw [h2] at h
      simp only at h
      cases dyn with
      | false => cases h
      | true => exact tryPaths_ok env l name _ (l', c) h

/-- All entries that name a compiled-in class hold it. -/
def Sane (l : Loader C) : Prop :=
  ∀ name e, l.mods name = some e → ∀ c, lookup dyn inst k (intName k name) = some c → e.inst = c

theorem load_sane (env : Env C) (l : Loader C) (hl : Sane dyn inst k l) (name : Str) (c : C)
    (hc : lookup dyn inst k (intName k name) = some c) :
    l.load dyn inst k env name = .ok (l.register name c, c) := by
  unfold Loader.load
  cases h1 : (if dyn then l.mods name else none) with
  | some e =>
    have : l.mods name = some e := by
      cases dyn with
      | true => exact h1
      | false => cases h1
    rw [← hl name e this c hc]
  | none => simp only; rw [hc]

theorem sane_step (env : Env C) (l : Loader C) (hl : Sane dyn inst k l) (name : Str) (l' : Loader C) (c : C)
    (h : l.load dyn inst k env name = .ok (l', c)) : Sane dyn inst k l' := by
  intro n e he c' hc'
  have hr := load_ok dyn inst k env l name l' c h
  by_cases hn : n = name
  · subst hn
    rw [load_sane dyn inst k env l hl n c' hc'] at h
    injection h with h
    injection h with hl' _
    obtain ⟨m, hm⟩ := register_same l n c'
    rw [← hl', hm] at he
    cases he
    rfl
  · rw [hr, register_other l name n c hn] at he
    exact hl n e he c' hc'

theorem sane_run (calls : List (Call C)) : ∀ (l l' : Loader C) (tr : List (Str × C)), Sane dyn inst k l →
    run dyn inst k l calls = some (l', tr) → Sane dyn inst k l' := by
  induction calls with
  | nil => intro l l' tr hl h; cases h; exact hl
  | cons a cs ih =>
    intro l l' tr hl h
    cases a with
    | load env name =>
      unfold run at h
      cases hd : l.load dyn inst k env name with
      | ub => rw [hd] at h; cases h
      | threw => rw [hd] at h; exact ih l l' tr hl h
      | ok r =>
        rw [hd] at h
        simp only [Option.map_eq_some_iff] at h
        obtain ⟨q, hq, he⟩ := h
        cases he
        exact ih r.1 q.1 q.2 (sane_step dyn inst k env l hl name r.1 r.2 hd) hq
    | userPath p =>
      unfold run at h
      cases hd : l.setUserPath p with
      | ub => rw [hd] at h; cases h
      | threw => rw [hd] at h; exact ih l l' tr hl h
      | ok r =>
        rw [hd] at h
        refine ih r l' tr ?_ h
        unfold Loader.setUserPath at hd
        cases hp : p.getLast? with
        | none => rw [hp] at hd; cases hd
        | some ch =>
          rw [hp] at hd
          cases hd
          exact hl

theorem sane_init : Sane dyn inst k (Loader.init : Loader C) := by
  intro n e h
  cases h

/-- The names of the compiled-in classes are found. -/
theorem lookup_builtin (name : Str) (cls : String) (h : IsBuiltin dyn k name cls) :
    lookup dyn inst k (intName k name) = some (inst cls) := by
  cases k with
  | waveFunction =>
    obtain ⟨h1, h2⟩ := h
    simp only [List.mem_cons, List.not_mem_nil, or_false] at h1
    rcases h1 with rfl | rfl <;> rcases h2 with rfl | rfl <;> rfl
  | operator =>
    obtain ⟨h1, h2⟩ := h
    unfold lookup intName
    have hs : ∀ c : String, (baseInt .operator ++ name = "INT_".toList ++ c.toList) ↔ c = cls := by
      intro c
      have e : baseInt .operator ++ name = "INT_".toList ++ ('O' :: name) := rfl
      rw [e, h2, List.append_cancel_left_eq, String.toList_inj]
      exact eq_comm
    have hf : (internals dyn .operator).find? (fun c => decide (baseInt .operator ++ name = "INT_".toList ++ c.toList))
        = some cls := by
      rw [List.find?_eq_some_iff_append]
      obtain ⟨as, bs, hab⟩ := List.append_of_mem h1
      refine ⟨by simp only [hs, decide_true], as, bs, hab, ?_⟩
      intro a ha
      have hnd : (internals dyn .operator).Nodup := by cases dyn <;> decide
      rw [hab] at hnd
      have : a ≠ cls := by
        intro hac
        subst hac
        rw [List.nodup_append] at hnd
        exact hnd.2.2 a ha a (List.mem_cons_self ..) rfl
      simp only [hs, this, decide_false, Bool.not_false]
    show Option.map inst _ = _
    rw [hf]
    rfl

/-- **C211.**  Compiled-in classes have precedence: whatever was loaded before, wherever modules with
the same name lie and whatever the paths are, the name of a compiled-in class gives that class.  Wave
functions are found with and without the prefix of the class name. -/
theorem C211_builtin (calls : List (Call C)) (l : Loader C) (tr : List (Str × C))
    (hrun : run dyn inst k Loader.init calls = some (l, tr)) (env : Env C) (name : Str) (cls : String)
    (h : IsBuiltin dyn k name cls) :
    ∃ l', l.load dyn inst k env name = .ok (l', inst cls) :=
  ⟨_, load_sane dyn inst k env l (sane_run dyn inst k calls _ l tr (sane_init dyn inst k) hrun) name (inst cls)
    (lookup_builtin dyn inst k name cls h)⟩

/-- An environment with one library, which is also what an unknown path gives. -/
def evil : Env String := ⟨fun s => some [s], fun _ => some (some "evil"), some "/tmp/".toList, "/usr/lib/qdng/".toList⟩

example : ∃ l', (Loader.init : Loader String).load true id .operator evil "Sum".toList = .ok (l', "OSum") :=
  C211_builtin true id .operator [] _ [] rfl evil "Sum".toList "OSum" ⟨by decide, rfl⟩

example : ∃ l', (Loader.init : Loader String).load true id .waveFunction evil "WFLevel".toList = .ok (l', "WFLevel") :=
  C211_builtin true id .waveFunction [] _ [] rfl evil "WFLevel".toList "WFLevel" ⟨by decide, Or.inl rfl⟩

/-- Entries stay. -/
theorem entry_stays (calls : List (Call C)) (name : Str) (c : C) :
    ∀ (l l' : Loader C) (tr : List (Str × C)), (∃ n, l.mods name = some ⟨c, n⟩) →
      run true inst k l calls = some (l', tr) → ∃ n, l'.mods name = some ⟨c, n⟩ := by
  induction calls with
  | nil => intro l l' tr hl h; cases h; exact hl
  | cons a cs ih =>
    intro l l' tr hl h
    cases a with
    | load env n =>
      unfold run at h
      cases hd : l.load true inst k env n with
      | ub => rw [hd] at h; cases h
      | threw => rw [hd] at h; exact ih l l' tr hl h
      | ok r =>
        rw [hd] at h
        simp only [Option.map_eq_some_iff] at h
        obtain ⟨q, hq, he⟩ := h
        cases he
        refine ih r.1 q.1 q.2 ?_ hq
        have hr := load_ok true inst k env l n r.1 r.2 hd
        by_cases hn : name = n
        · subst hn
          obtain ⟨m, hm⟩ := hl
          have : l.load true inst k env name = .ok (l.register name c, c) := by
            unfold Loader.load
            simp only [if_true]
            rw [hm]
          rw [this] at hd
          cases hd
          exact register_same l name c
        · rw [hr, register_other l n name r.2 hn]
          exact hl
    | userPath p =>
      unfold run at h
      cases hd : l.setUserPath p with
      | ub => rw [hd] at h; cases h
      | threw => rw [hd] at h; exact ih l l' tr hl h
      | ok r =>
        rw [hd] at h
        refine ih r l' tr ?_ h
        unfold Loader.setUserPath at hd
        cases hp : p.getLast? with
        | none => rw [hp] at hd; cases hd
        | some ch =>
          rw [hp] at hd
          cases hd
          exact hl

/-- **C211.**  A name stands for the same class during the whole run: once it was loaded, every later
load of it succeeds and gives the same class, even if the files or the paths have changed. -/
theorem C211_stable (l l1 : Loader C) (env : Env C) (name : Str) (c : C)
    (h : l.load true inst k env name = .ok (l1, c)) (calls : List (Call C)) (l2 : Loader C) (tr : List (Str × C))
    (hrun : run true inst k l1 calls = some (l2, tr)) (env' : Env C) :
    ∃ l3, l2.load true inst k env' name = .ok (l3, c) := by
  have hr := load_ok true inst k env l name l1 c h
  obtain ⟨n, hn⟩ := entry_stays inst k calls name c l1 l2 tr (by rw [hr]; exact register_same l name c) hrun
  refine ⟨l2.register name c, ?_⟩
  unfold Loader.load
  simp only [if_true]
  rw [hn]

example : ∃ l3, ((Loader.init : Loader String).register "X".toList "evil").load true id .operator
    { evil with dlopen := fun _ => none } "X".toList = .ok (l3, "evil") :=
  C211_stable id .operator Loader.init _ evil "X".toList "evil" rfl [] _ [] rfl _

/-- The link count of a name. -/
def links (l : Loader C) (name : Str) : Nat :=
  match l.mods name with
  | some e => e.links
  | none => 0

theorem links_register (l : Loader C) (name n : Str) (c : C) :
    links (l.register name c) n = links l n + (if n = name then 1 else 0) := by
  unfold links Loader.register
  simp only
  by_cases h : n = name
  · subst h
    simp only [if_true]
    all_goals rfl
  · simp only [if_neg h, Nat.add_zero]

/-- **C211.**  The link count of a name is the number of its successful loads. -/
theorem C211_links (calls : List (Call C)) (name : Str) : ∀ (l l' : Loader C) (tr : List (Str × C)),
    run dyn inst k l calls = some (l', tr) →
      links l' name = links l name + (tr.filter fun r => r.1 = name).length := by
  induction calls with
  | nil => intro l l' tr h; cases h; simp
  | cons a cs ih =>
    intro l l' tr h
    cases a with
    | load env n =>
      unfold run at h
      cases hd : l.load dyn inst k env n with
      | ub => rw [hd] at h; cases h
      | threw => rw [hd] at h; exact ih l l' tr h
      | ok r =>
        rw [hd] at h
        simp only [Option.map_eq_some_iff] at h
        obtain ⟨q, hq, he⟩ := h
        cases he
        rw [ih r.1 q.1 q.2 hq, load_ok dyn inst k env l n r.1 r.2 hd, links_register]
        by_cases hn : name = n
        · subst hn
          rw [if_pos rfl, List.filter_cons_of_pos (by simp), List.length_cons]
          omega
        · simp [hn, Ne.symm hn]
    | userPath p =>
      unfold run at h
      cases hd : l.setUserPath p with
      | ub => rw [hd] at h; cases h
      | threw => rw [hd] at h; exact ih l l' tr h
      | ok r =>
        rw [hd] at h
        rw [ih r l' tr h]
        unfold Loader.setUserPath at hd
        cases hp : p.getLast? with
        | none => rw [hp] at hd; cases hd
        | some ch => rw [hp] at hd; cases hd; rfl

example : (run true id .operator (Loader.init : Loader String)
    [.load evil "X".toList, .userPath "/a".toList, .load evil "Sum".toList, .load evil "X".toList]).map
      (fun r => links r.1 "X".toList) = some 2 := by decide +kernel

/-- **C211 is violated** for operators: the full name of a compiled-in class is not found as
such; with a loader for modules some library is opened instead, without one the load fails. -/
theorem C211_violated_prefix :
    (∃ l', (Loader.init : Loader String).load true id .operator evil "OSum".toList = .ok (l', "evil")) ∧
    (Loader.init : Loader String).load false id .operator evil "OSum".toList = .threw :=
  ⟨⟨_, rfl⟩, rfl⟩

/-- A directory name with the separator. -/
def withSlash (d : Str) : Str := if d.getLast? = some '/' then d else d ++ ['/']

/-- The file name of a module. -/
def fileName (k : Kind) (name : Str) : Str :=
  (match k with | .waveFunction => "libqd-WF".toList | .operator => "libqd-O".toList) ++ name ++ ".so".toList

/-- The files in the directories the documentation names, in this order: path of the user,
QD_MOD_PATH, compiled-in path. -/
def places (k : Kind) (user : Str) (modPath : Option Str) (sysPath name : Str) : List Str :=
  [withSlash user ++ fileName k name] ++ (modPath.toList.map fun d => withSlash d ++ fileName k name) ++
    [withSlash sysPath ++ fileName k name]

theorem tryPaths_first (env : Env C) (l : Loader C) (name : Str) (pre : List Str) (w : Str) (post : List Str)
    (hexp : ∀ p ∈ pre ++ [w], env.expand p = some [p]) (hpre : ∀ p ∈ pre, env.dlopen (some p) = none) :
    tryPaths env l name (pre ++ w :: post) =
      (match env.dlopen (some w) with
      | none => tryPaths env l name post
      | some none => .threw
      | some (some c) => .ok (l.register name c, c)) := by
  induction pre with
  | nil =>
    show tryPaths env l name (w :: post) = _
    rw [tryPaths, tryPath, hexp w (by simp)]
    simp only [List.head?_cons]
    cases env.dlopen (some w) with
    | none => rfl
    | some m => cases m <;> rfl
  | cons p pre ih =>
    show tryPaths env l name (p :: (pre ++ w :: post)) = _
    rw [tryPaths, tryPath, hexp p (by simp)]
    simp only [List.head?_cons]
    rw [hpre p (by simp)]
    exact ih (fun q hq => hexp q (List.mem_cons_of_mem _ hq)) (fun q hq => hpre q (List.mem_cons_of_mem _ hq))

theorem tryPaths_none (env : Env C) (l : Loader C) (name : Str) (ps : List Str)
    (hexp : ∀ p ∈ ps, env.expand p = some [p]) (hno : ∀ p ∈ ps, env.dlopen (some p) = none) :
    tryPaths env l name ps = .threw := by
  induction ps with
  | nil => rfl
  | cons p ps ih =>
    rw [tryPaths, tryPath, hexp p (by simp)]
    simp only [List.head?_cons]
    rw [hno p (by simp)]
    exact ih (fun q hq => hexp q (List.mem_cons_of_mem _ hq)) (fun q hq => hno q (List.mem_cons_of_mem _ hq))

theorem userPath_ok (l : Loader C) (p : Str) (hp : p ≠ []) :
    l.setUserPath p = .ok { l with userPath := withSlash p } := by
  unfold Loader.setUserPath withSlash
  cases h : p.getLast? with
  | none => exact absurd (List.getLast?_eq_none_iff.1 h) hp
  | some c =>
    simp only
    by_cases hc : c = '/'
    · subst hc; simp
    · rw [if_pos hc, if_neg (by simpa using hc)]

theorem withSlash_ne (d : Str) : withSlash d ≠ [] := by
  unfold withSlash
  split
  · intro h; subst h; simp at *
  · simp

theorem paths_eq (env : Env C) (l : Loader C) (user : Str) (hu : l.userPath = withSlash user)
    (hm : ∀ d, env.modPath = some d → d.getLast? = some '/') (hs : env.sysPath.getLast? = some '/') (name : Str) :
    paths k env l name = places k user env.modPath env.sysPath name ++ [baseLib k ++ name] := by
  have hb : ∀ d : Str, d ++ baseLib k ++ name ++ ".so".toList = d ++ fileName k name := by
    intro d
    unfold fileName baseLib
    cases k <;> simp only [List.append_assoc]
  have hsys : withSlash env.sysPath = env.sysPath := if_pos hs
  have hlen : l.userPath.length > 0 := by
    rw [hu]
    exact List.length_pos_iff.2 (withSlash_ne user)
  unfold paths places
  rw [if_pos hlen, hb, hb, hu, hsys]
  cases hmp : env.modPath with
  | none => simp
  | some d =>
    have hd : withSlash d = d := if_pos (hm d hmp)
    simp only [hb, Option.toList, List.map_cons, List.map_nil, hd]
    rfl

/-- **C212.**  The search order: a class that is neither loaded nor compiled in comes from the first
file that can be opened among: directory of the user, QD_MOD_PATH, compiled-in directory.  Required is
that the names stay as they are under shell expansion and that QD_MOD_PATH and the compiled-in path end
in a slash; the path of the user may be given with or without. -/
theorem C212_order_partial (env : Env C) (l0 l : Loader C) (user : Str) (huser : user ≠ [])
    (hl : l0.setUserPath user = .ok l) (name : Str)
    (hnew : l0.mods name = none) (hint : lookup true inst k (intName k name) = none)
    (hm : ∀ d, env.modPath = some d → d.getLast? = some '/') (hs : env.sysPath.getLast? = some '/')
    (pre : List Str) (w : Str) (post : List Str)
    (hp : places k user env.modPath env.sysPath name = pre ++ w :: post)
    (hexp : ∀ p ∈ pre ++ [w], env.expand p = some [p])
    (hpre : ∀ p ∈ pre, env.dlopen (some p) = none) (c : C) (hw : env.dlopen (some w) = some (some c)) :
    ∃ l', l.load true inst k env name = .ok (l', c) ∧ ∀ n, n ≠ name → l'.mods n = l.mods n := by
  rw [userPath_ok l0 user huser] at hl
  cases hl
  refine ⟨_, ?_, fun n hn => register_other _ name n c hn⟩
  unfold Loader.load
  simp only [if_true]
  rw [hnew]
  simp only
  rw [hint]
  simp only
  rw [paths_eq k env _ user rfl hm hs, hp, List.append_assoc]
  have := tryPaths_first env { l0 with userPath := withSlash user } name pre w (post ++ [baseLib k ++ name]) hexp hpre
  rw [List.cons_append, this, hw]

/-- A system with one module in the compiled-in directory. -/
def sysOnly : Env String :=
  ⟨fun s => some [s], fun s => if s = some "/usr/lib/qdng/libqd-OX.so".toList then some (some "X of the system") else none,
    some "/opt/mods/".toList, "/usr/lib/qdng/".toList⟩

example : ∃ l', ({ (Loader.init : Loader String) with userPath := "/home/me/".toList }).load true id .operator sysOnly
      "X".toList = .ok (l', "X of the system") ∧ ∀ n, n ≠ "X".toList → l'.mods n = none :=
  C212_order_partial id .operator sysOnly Loader.init _ "/home/me".toList (by decide) rfl "X".toList rfl
    (by decide +kernel) (by intro d hd; cases hd; decide) (by decide)
    ["/home/me/libqd-OX.so".toList, "/opt/mods/libqd-OX.so".toList] "/usr/lib/qdng/libqd-OX.so".toList []
    (by decide +kernel) (by intro p _; rfl) (by decide +kernel) "X of the system" (by decide +kernel)

/-- **C212.**  If no file can be opened, the load throws and the loader is as before: the same load
succeeds when the module has been installed. -/
theorem C212_missing_partial (env env' : Env C) (l : Loader C) (user : Str) (hu : l.userPath = withSlash user)
    (name : Str) (hnew : l.mods name = none) (hint : lookup true inst k (intName k name) = none)
    (hm : ∀ d, env.modPath = some d → d.getLast? = some '/') (hs : env.sysPath.getLast? = some '/')
    (hexp : ∀ p, env.expand p = some [p])
    (hno : ∀ p ∈ places k user env.modPath env.sysPath name ++ [baseLib k ++ name], env.dlopen (some p) = none)
    (r : Loader C × C) (hload : l.load true inst k env' name = .ok r) :
    l.load true inst k env name = .threw ∧
      run true inst k l [.load env name, .load env' name] = some (r.1, [(name, r.2)]) := by
  have h1 : l.load true inst k env name = .threw := by
    unfold Loader.load
    simp only [if_true]
    rw [hnew]
    simp only
    rw [hint]
    simp only
    rw [paths_eq k env l user hu hm hs]
    exact tryPaths_none env l name _ (fun p _ => hexp p) hno
  refine ⟨h1, ?_⟩
  rw [run, h1]
  simp only
  rw [run, hload]
  rfl

example : (Loader.init : Loader String).load true id .operator { sysOnly with dlopen := fun _ => none } "X".toList = .threw :=
  (C212_missing_partial id .operator { sysOnly with dlopen := fun _ => none } sysOnly Loader.init "~/qdmods".toList
    (by decide) "X".toList rfl (by decide +kernel) (by intro d hd; cases hd; decide) (by decide)
    (fun _ => rfl) (fun _ _ => rfl) ((Loader.init : Loader String).register "X".toList "X of the system", "X of the system") rfl).1

/-- **C212.**  A library without the entry function stops the load with an exception. -/
theorem C212_invalid_partial (env : Env C) (l : Loader C) (user : Str) (hu : l.userPath = withSlash user)
    (name : Str) (hnew : l.mods name = none) (hint : lookup true inst k (intName k name) = none)
    (hm : ∀ d, env.modPath = some d → d.getLast? = some '/') (hs : env.sysPath.getLast? = some '/')
    (pre : List Str) (w : Str) (post : List Str)
    (hp : places k user env.modPath env.sysPath name = pre ++ w :: post)
    (hexp : ∀ p ∈ pre ++ [w], env.expand p = some [p])
    (hpre : ∀ p ∈ pre, env.dlopen (some p) = none) (hw : env.dlopen (some w) = some none) :
    l.load true inst k env name = .threw := by
  unfold Loader.load
  simp only [if_true]
  rw [hnew]
  simp only
  rw [hint]
  simp only
  rw [paths_eq k env l user hu hm hs, hp, List.append_assoc]
  have := tryPaths_first env l name pre w (post ++ [baseLib k ++ name]) hexp hpre
  rw [List.cons_append, this, hw]

example : (Loader.init : Loader String).load true id .operator { sysOnly with dlopen := fun _ => some none } "X".toList = .threw :=
  C212_invalid_partial id .operator { sysOnly with dlopen := fun _ => some none } Loader.init "~/qdmods".toList
    (by decide) "X".toList rfl (by decide +kernel) (by intro d hd; cases hd; decide) (by decide)
    [] "~/qdmods/libqd-OX.so".toList _ rfl (fun _ _ => rfl) (by simp) rfl

/-- **C212 is violated**: a QD_MOD_PATH without a slash at the end is not searched, although the module
is there; the path of the user in the same form is. -/
theorem C212_violated_slash :
    let file := "/opt/mods/libqd-OX.so".toList
    let env : Env String := ⟨fun s => some [s], fun s => if s = some file then some (some "X") else none,
      some "/opt/mods".toList, "/usr/lib/qdng/".toList⟩
    file ∈ places .operator "~/qdmods".toList env.modPath env.sysPath "X".toList ∧
      (Loader.init : Loader String).load true id .operator env "X".toList = .threw ∧
      ∃ l l', (Loader.init : Loader String).setUserPath "/opt/mods".toList = .ok l ∧
        l.load true id .operator env "X".toList = .ok (l', "X") := by
  refine ⟨by decide +kernel, by rfl, _, _, rfl, by rfl⟩

/-- **C212 is violated**: the directories of the system linker (LD_LIBRARY_PATH) are searched for a file
without the suffix, so that an installed module `libqd-O….so` is not found there. -/
theorem C212_violated_system (name : Str) :
    ∃ env : Env String, env.dlopen (some (fileName .operator name)) = some (some "module") ∧
      (lookup true id .operator (intName .operator name) = none →
        (Loader.init : Loader String).load true id .operator env name = .threw) := by
  refine ⟨⟨fun s => some [s], fun s => if s = some (fileName .operator name) then some (some "module") else none,
    none, ['/']⟩, if_pos rfl, fun hint => ?_⟩
  unfold Loader.load
  simp only [if_true]
  have hnone : (Loader.init : Loader String).mods name = none := rfl
  rw [hnone]
  simp only
  rw [hint]
  simp only
  refine tryPaths_none _ _ _ _ (fun _ _ => rfl) ?_
  have hlen : (fileName .operator name).length = 7 + name.length + 3 := by
    unfold fileName
    rw [List.length_append, List.length_append]
    rfl
  have hsub : ∀ p, p ∈ paths .operator (⟨fun s => some [s],
      fun s => if s = some (fileName .operator name) then some (some "module") else none, none, ['/']⟩ : Env String)
      Loader.init name → p.length = 9 + (7 + name.length + 3) ∨ p.length = 1 + (7 + name.length + 3) ∨
        p.length = 7 + name.length := by
    intro p hp
    unfold paths at hp
    simp only [List.mem_append, List.mem_cons, List.not_mem_nil, or_false, false_or] at hp
    rcases hp with hp | hp | hp
    · have h9 : (Loader.init : Loader String).userPath.length = 9 := rfl
      rw [if_pos (by rw [h9]; omega), List.mem_singleton] at hp
      subst hp
      left
      rw [List.length_append, List.length_append, List.length_append, h9]
      have h7 : (baseLib .operator).length = 7 := rfl
      have h3 : (".so".toList).length = 3 := rfl
      omega
    · subst hp
      right; left
      rw [List.length_append, List.length_append, List.length_append]
      have h7 : (baseLib .operator).length = 7 := rfl
      have h3 : (".so".toList).length = 3 := rfl
      have h1 : (['/'] : Str).length = 1 := rfl
      omega
    · subst hp
      right; right
      rw [List.length_append]
      have h7 : (baseLib .operator).length = 7 := rfl
      omega
  intro p hp
  refine if_neg ?_
  intro he
  have he := congrArg List.length (Option.some.inj he)
  rw [hlen] at he
  have := hsub p hp
  omega

/-- **C212 is violated**: the path of the user cannot be switched off, the empty path is undefined
behaviour. -/
theorem C212_violated_empty_path (l : Loader C) : l.setUserPath [] = .ub := rfl

/-- **C213 is violated**: names are given to the shell: if the expansion of a path fails, the
behaviour is undefined, and if it gives several words, the first alone is opened instead of the file. -/
theorem C213_violated_expansion (l : Loader C) (name : Str) (hnew : l.mods name = none)
    (hint : lookup true inst k (intName k name) = none) (env : Env C) (hu : l.userPath ≠ []) :
    (env.expand (l.userPath ++ baseLib k ++ name ++ ".so".toList) = none →
      l.load true inst k env name = .ub) ∧
    (∀ w ws c, env.expand (l.userPath ++ baseLib k ++ name ++ ".so".toList) = some (w :: ws) →
      env.dlopen (some w) = some (some c) → ∃ l', l.load true inst k env name = .ok (l', c)) := by
  have hlen : l.userPath.length > 0 := List.length_pos_iff.2 hu
  have hload : l.load true inst k env name = tryPaths env l name (paths k env l name) := by
    unfold Loader.load
    simp only [if_true]
    rw [hnew]
    simp only
    rw [hint]
  rw [hload]
  unfold paths
  rw [if_pos hlen]
  refine ⟨fun h => ?_, fun w ws c h hc => ⟨l.register name c, ?_⟩⟩
  · rw [List.singleton_append, tryPaths, tryPath, h]
  · rw [List.singleton_append, tryPaths, tryPath, h]
    simp only [List.head?_cons]
    rw [hc]

example : (Loader.init : Loader String).load true id .operator { sysOnly with expand := fun _ => none } "X(".toList = .ub :=
  (C213_violated_expansion id .operator Loader.init "X(".toList rfl (by decide +kernel) _ (by decide)).1 rfl

/-- **C213.**  What a load can return: the class that is loaded, a compiled-in one, or what the first
word of one of the tried names opens. -/
theorem C213_sources_partial (env : Env C) (l : Loader C) (name : Str) (l' : Loader C) (c : C)
    (h : l.load dyn inst k env name = .ok (l', c)) :
    (∃ n, l.mods name = some ⟨c, n⟩) ∨ (∃ cls ∈ internals dyn k, c = inst cls) ∨
      (dyn = true ∧ ∃ p ∈ paths k env l name, ∃ ws, env.expand p = some ws ∧ env.dlopen ws.head? = some (some c)) := by
  unfold Loader.load at h
  cases h1 : (if dyn then l.mods name else none) with
  | some e =>
    rw [h1] at h
    cases h
    cases dyn with
    | false => cases h1
    | true => exact Or.inl ⟨e.links, h1⟩
  | none =>
    rw [h1] at h
    simp only at h
    cases h2 : lookup dyn inst k (intName k name) with
    | some c' =>
      rw [h2] at h
      cases h
      unfold lookup at h2
      rw [Option.map_eq_some_iff] at h2
      obtain ⟨cls, hf, hc⟩ := h2
      exact Or.inr (Or.inl ⟨cls, List.mem_of_find?_eq_some hf, hc.symm⟩)
    | none =>
      rw [h2] at h
      simp only at h
      cases dyn with
      | false => cases h
      | true =>
        refine Or.inr (Or.inr ⟨rfl, ?_⟩)
        simp only [if_true] at h
        generalize paths k env l name = ps at h
        induction ps with
        | nil => cases h
        | cons p ps ih =>
          unfold tryPaths tryPath at h
          cases he : env.expand p with
          | none => rw [he] at h; cases h
          | some ws =>
            rw [he] at h
            simp only at h
            cases hd : env.dlopen ws.head? with
            | none =>
              rw [hd] at h
              obtain ⟨q, hq, r⟩ := ih h
              exact ⟨q, List.mem_cons_of_mem _ hq, r⟩
            | some m =>
              rw [hd] at h
              cases m with
              | none => cases h
              | some c' =>
                cases h
                exact ⟨p, by simp, ws, he, hd⟩

example : ∃ p ∈ paths .operator sysOnly (Loader.init : Loader String) "X".toList, ∃ ws, sysOnly.expand p = some ws ∧
    sysOnly.dlopen ws.head? = some (some "X of the system") := by
  rcases C213_sources_partial true id .operator sysOnly Loader.init "X".toList
    ((Loader.init : Loader String).register "X".toList "X of the system") "X of the system" rfl with ⟨n, h⟩ | ⟨c, h, e⟩ | ⟨_, h⟩
  · cases h
  · revert e; revert c; decide +kernel
  · exact h

end QDng.Mods
