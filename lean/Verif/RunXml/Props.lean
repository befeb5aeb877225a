import Verif.RunXml.Lemmas

/-
Theorems on running an input file (C92), on the variables of the command line (C93) and on reading the input (C94).
-/

namespace QDng.RunXml

open QDng.Common QDng.Params

theorem param_eq (gp : Container) (k : Str) : Spec.param gp k = OMap.find k gp.params := by
  unfold Spec.param Container.isPresent Container.getString
  cases OMap.find k gp.params <;> rfl

theorem isMulti_iff (n : Str) : isMulti n = true ↔ n = "qdng".toList ∨ n = "multi".toList := by
  unfold isMulti
  rw [Bool.or_eq_true, decide_eq_true_iff, decide_eq_true_iff]
  exact Or.comm

theorem runNodes_eq (E : Env) (cmdline : Str) (gp : Container) (done : List Call) (file before : Option Str) (n : Str)
    (a : List (Str × Str)) (c r : List Xml) (h : OMap.find "dir".toList gp.params = (file.or before))
    (hd : Spec.chosen cmdline file before ≠ some []) :
    ∃ gp', runNodes E cmdline (.elem n a c :: r) { gp := gp, calls := done } =
        Spec.result gp' (Spec.exec E (Spec.plan (Spec.workDir (Spec.chosen cmdline file before))
          (Spec.elements (.elem n a c :: r))) done) ∧
      OMap.find "dir".toList gp'.params = (Spec.chosen cmdline file before).map Spec.slashed ∧
      ∀ k, k ≠ "dir".toList → OMap.find k gp'.params = OMap.find k gp.params := by
  obtain ⟨gp', h1, h2, h3⟩ := directory_eq cmdline gp file before h hd
  refine ⟨gp', ?_, h2, h3⟩
  unfold runNodes
  simp only [h1]
  exact parts_eq E _ gp' n a c r done

/-! ### C92 -/

/-- C92 (what is missing: an input of which the container holds no element but only text or comments, and an empty directory, where the
code dereferences a null pointer or indexes the empty text, see below).

For an input whose top level holds at least one element: the operator definitions are loaded first, then the wave function definitions,
then the programs run, each in the order of the input and each with the chosen directory (`Spec.plan`), until one of these calls fails or
something unknown is met; nothing is called behind that (`Spec.exec`).  The run succeeds exactly if nothing failed.  The directory is that
of the command line, otherwise that of the input, otherwise that of the global parameters, with a slash at its end.  The other global
parameters are those of the input, otherwise those that held before. -/
theorem C92_input_runs_in_order_partial (E : Env) (cmdline name : Str) (attrs : List (Str × Str)) (children : List Xml)
    (gp : Container) (done : List Call) (dir : Option Str) (hattrs : (attrs.map Prod.fst).Nodup)
    (htop : Spec.top name attrs children ≠ [])
    (hdir : dir = Spec.chosen cmdline ((Spec.globals name attrs).lookup "dir".toList) (Spec.param gp "dir".toList))
    (hne : dir ≠ some []) :
    ∃ gp' : Container,
      runXml E cmdline name attrs children { gp := gp, calls := done } =
        Spec.result gp' (Spec.exec E (Spec.plan (Spec.workDir dir) (Spec.top name attrs children)) done) ∧
      Spec.param gp' "dir".toList = dir.map Spec.slashed ∧
      ∀ k, k ≠ "dir".toList → Spec.param gp' k = (((Spec.globals name attrs).lookup k).or (Spec.param gp k)) := by
  subst hdir
  simp only [param_eq] at hne ⊢
  unfold runXml
  by_cases hm : name = "qdng".toList ∨ name = "multi".toList
  · have ht : Spec.top name attrs children = Spec.elements children := by
      unfold Spec.top; exact if_pos hm
    have hg : Spec.globals name attrs = attrs := by
      unfold Spec.globals; exact if_pos hm
    rw [ht] at htop ⊢
    rw [hg] at hne ⊢
    simp only [(isMulti_iff name).2 hm, if_true]
    cases children with
    | nil => exact absurd rfl htop
    | cons x xs =>
      simp only [nextChild]
      have hs := skip_elements (x :: xs)
      rcases skip_form (x :: xs) with h | ⟨n, a, c, r, h⟩
      · rw [h] at hs; exact absurd hs.symm htop
      · rw [← hs, h]
        obtain ⟨gp', h1, h2, h3⟩ := runNodes_eq E cmdline (gp.merge (attributes [.elem name attrs (x :: xs)])) done
          (attrs.lookup "dir".toList) (OMap.find "dir".toList gp.params) n a c r
          (merge_find _ _ _ _ _ _ hattrs) hne
        refine ⟨gp', h1, h2, fun k hk => ?_⟩
        rw [h3 k hk, merge_find _ _ _ _ _ _ hattrs]
  · have ht : Spec.top name attrs children = Spec.elements [.elem name attrs children] := by
      unfold Spec.top; exact if_neg hm
    have hg : Spec.globals name attrs = [] := by
      unfold Spec.globals; exact if_neg hm
    rw [ht]
    rw [hg] at hne ⊢
    have : isMulti name = false := by
      rw [← Bool.not_eq_true, isMulti_iff]; exact hm
    rw [this]
    simp only [Bool.false_eq_true, if_false]
    obtain ⟨gp', h1, h2, h3⟩ := runNodes_eq E cmdline gp done none (OMap.find "dir".toList gp.params) name attrs children []
      (by simp) hne
    exact ⟨gp', h1, h2, fun k hk => by rw [h3 k hk]; rfl⟩

theorem exec_calls (E : Env) : ∀ (items : List Spec.Item) (done : List Call), ∃ k,
    (Spec.exec E items done).1 = done ++ (items.filterMap (fun | .call c => some c | .reject => none)).take k := by
  intro items
  induction items with
  | nil => intro done; exact ⟨0, by simp [Spec.exec]⟩
  | cons x r ih =>
    intro done
    cases x with
    | reject => exact ⟨0, by simp [Spec.exec]⟩
    | call c =>
      unfold Spec.exec
      by_cases h : E done c
      · obtain ⟨k, hk⟩ := ih (done ++ [c])
        refine ⟨k + 1, ?_⟩
        rw [if_pos h, hk]
        simp
      · exact ⟨1, by rw [if_neg h]; simp⟩

theorem progItems (dir : Str) (l : List Xml) :
    ∀ c ∈ (l.map (Spec.progItem dir)).filterMap (fun | .call c => some c | .reject => none), ∃ p x, c = Call.run p x dir := by
  intro c hc
  rw [List.mem_filterMap] at hc
  obtain ⟨i, hi, hc⟩ := hc
  rw [List.mem_map] at hi
  obtain ⟨x, _, rfl⟩ := hi
  unfold Spec.progItem at hc
  cases h : Spec.progNames.lookup (Spec.tag x) with
  | none => rw [h] at hc; simp at hc
  | some p => rw [h] at hc; simp at hc; exact ⟨p, x, hc.symm⟩

theorem planWf_split (dir : Str) (l : List Xml) : ∃ a b,
    (Spec.planWf dir l).filterMap (fun | .call c => some c | .reject => none) = a ++ b ∧ (∀ c ∈ a, Spec.isLoad c = true) ∧
      ∀ c ∈ b, ∃ p x, c = Call.run p x dir := by
  cases l with
  | nil => exact ⟨[], [], rfl, by simp, by simp⟩
  | cons x r =>
    by_cases h : Spec.tag x = "wfdefs".toList
    · refine ⟨((Spec.inside x).map Spec.wfItem).filterMap (fun | .call c => some c | .reject => none), _, ?_, ?_,
        progItems dir r⟩
      · rw [← List.filterMap_append]
        exact congrArg _ (if_pos h)
      · intro c hc
        rw [List.mem_filterMap] at hc
        obtain ⟨i, hi, hc⟩ := hc
        rw [List.mem_map] at hi
        obtain ⟨x, _, rfl⟩ := hi
        by_cases hx : Spec.tag x = "wfdef".toList
        · rw [show Spec.wfItem x = .call (.loadW x) from if_pos hx] at hc
          simp at hc; subst hc; rfl
        · rw [show Spec.wfItem x = .reject from if_neg hx] at hc
          simp at hc
    · refine ⟨[], _, ?_, by simp, progItems dir (x :: r)⟩
      rw [List.nil_append]
      exact congrArg _ (if_neg h)

theorem plan_split (dir : Str) (l : List Xml) : ∃ a b,
    (Spec.plan dir l).filterMap (fun | .call c => some c | .reject => none) = a ++ b ∧ (∀ c ∈ a, Spec.isLoad c = true) ∧
      ∀ c ∈ b, ∃ p x, c = Call.run p x dir := by
  cases l with
  | nil => exact ⟨[], [], rfl, by simp, by simp⟩
  | cons x r =>
    by_cases h : Spec.tag x = "opdefs".toList
    · obtain ⟨a, b, h1, h2, h3⟩ := planWf_split dir r
      refine ⟨((Spec.inside x).map Spec.opItem).filterMap (fun | .call c => some c | .reject => none) ++ a, b, ?_, ?_, h3⟩
      · rw [List.append_assoc, ← h1, ← List.filterMap_append]
        exact congrArg _ (if_pos h)
      · intro c hc
        rcases List.mem_append.1 hc with hc | hc
        · rw [List.mem_filterMap] at hc
          obtain ⟨i, hi, hc⟩ := hc
          rw [List.mem_map] at hi
          obtain ⟨x, _, rfl⟩ := hi
          by_cases hx : Spec.tag x = "udef".toList
          · rw [show Spec.opItem x = .call (.loadU x) from if_pos hx] at hc
            simp at hc; subst hc; rfl
          · by_cases hy : Spec.tag x = "opdef".toList
            · rw [show Spec.opItem x = .call (.loadO x) from (if_neg hx).trans (if_pos hy)] at hc
              simp at hc; subst hc; rfl
            · rw [show Spec.opItem x = .reject from (if_neg hx).trans (if_neg hy)] at hc
              simp at hc
        · exact h2 c hc
    · have : Spec.plan dir (x :: r) = Spec.planWf dir (x :: r) := if_neg h
      rw [this]
      exact planWf_split dir (x :: r)

/-- C92: whatever the input and however its parts behave, all definitions are loaded before the first program runs, and all programs of a
run get the same directory. -/
theorem C92_definitions_before_programs (E : Env) (cmdline name : Str) (attrs : List (Str × Str)) (children : List Xml)
    (gp : Container) (done : List Call) (st : State)
    (h : runXml E cmdline name attrs children { gp := gp, calls := done } = .ok st ∨
      runXml E cmdline name attrs children { gp := gp, calls := done } = .threw st) :
    ∃ (loads runs : List Call) (dir : Str), st.calls = done ++ loads ++ runs ∧ (∀ c ∈ loads, Spec.isLoad c = true) ∧
      ∀ c ∈ runs, ∃ p x, c = .run p x dir := by
  have key : ∀ (gp : Container) (cur : List Xml), (cur = [] ∨ ∃ n a c r, cur = Xml.elem n a c :: r) →
      (runNodes E cmdline cur { gp := gp, calls := done } = .ok st ∨
        runNodes E cmdline cur { gp := gp, calls := done } = .threw st) →
      ∃ (loads runs : List Call) (dir : Str), st.calls = done ++ loads ++ runs ∧ (∀ c ∈ loads, Spec.isLoad c = true) ∧
        ∀ c ∈ runs, ∃ p x, c = .run p x dir := by
    intro gp cur hcur h
    cases hd : directory cmdline gp with
    | none => simp [runNodes, hd] at h
    | some q =>
      obtain ⟨dir, gp'⟩ := q
      rcases hcur with rfl | ⟨n, a, c, r, rfl⟩
      · simp [runNodes, hd, opdefsPart, nameOf] at h
      · have hp : runNodes E cmdline (.elem n a c :: r) { gp := gp, calls := done } =
            Spec.result gp' (Spec.exec E (Spec.plan dir (Spec.elements (.elem n a c :: r))) done) := by
          unfold runNodes
          simp only [hd]
          exact parts_eq E dir gp' n a c r done
        rw [hp] at h
        obtain ⟨k, hk⟩ := exec_calls E (Spec.plan dir (Spec.elements (.elem n a c :: r))) done
        obtain ⟨x, y, h1, h2, h3⟩ := plan_split dir (Spec.elements (.elem n a c :: r))
        have hst : st.calls = (Spec.exec E (Spec.plan dir (Spec.elements (.elem n a c :: r))) done).1 := by
          generalize Spec.exec E (Spec.plan dir (Spec.elements (.elem n a c :: r))) done = e at h
          obtain ⟨cs, b⟩ := e
          cases b <;> simp [Spec.result] at h <;> rw [← h]
        refine ⟨x.take k, y.take (k - x.length), dir, ?_, fun c hc => h2 c (List.mem_of_mem_take hc),
          fun c hc => h3 c (List.mem_of_mem_take hc)⟩
        rw [hst, hk, h1, List.take_append, List.append_assoc]
  unfold runXml at h
  cases hm : isMulti name with
  | true =>
    simp only [hm, if_true] at h
    cases children with
    | nil =>
      refine ⟨[], [], [], ?_, by simp, by simp⟩
      simp [nextChild] at h
      rw [← h]; simp
    | cons x xs => exact key _ _ (skip_form _) h
  | false =>
    simp only [hm] at h
    exact key _ _ (Or.inr ⟨_, _, _, _, rfl⟩) h

/-- C92: an empty container is rejected and nothing is called. -/
theorem C92_empty_input_rejected (E : Env) (cmdline name : Str) (attrs : List (Str × Str)) (st : State)
    (h : name = "qdng".toList ∨ name = "multi".toList) :
    ∃ st', runXml E cmdline name attrs [] st = .threw st' ∧ st'.calls = st.calls := by
  refine ⟨{ st with gp := st.gp.merge (attributes [.elem name attrs []]) }, ?_, rfl⟩
  unfold runXml
  simp only [(isMulti_iff name).2 h, if_true]
  rfl

/-- C92 violated: a container that holds only a comment is not rejected, the name of a node that does not exist is read
(src/CmdHandler.cpp:94-97, 120): `NextChild` returns an object for it, not `NULL`. -/
theorem C92_violated_comment_only (E : Env) (st : State) (h : Spec.param st.gp "dir".toList = none) :
    runXml E [] "qdng".toList [] [.other] st = .ub := by
  have : directory [] (st.gp.merge (attributes [.elem "qdng".toList [] [.other]])) =
      some ([], st.gp.merge (attributes [.elem "qdng".toList [] [.other]])) := by
    unfold directory
    have h2 : (st.gp.merge (attributes [.elem "qdng".toList [] [.other]])).isPresent "dir".toList = false := by
      unfold Container.isPresent
      rw [merge_find _ _ _ _ _ _ (by simp)]
      rw [param_eq] at h
      rw [h]; rfl
    simp only [if_true, h2]
    rfl
  unfold runXml
  rw [(isMulti_iff _).2 (Or.inl rfl)]
  simp only [if_true, nextChild, skip]
  unfold runNodes
  simp only [this]
  rfl

/-- C92 violated: an input with an empty directory attribute (which means the current directory for all programs) makes the code read in
front of the empty text (src/CmdHandler.cpp:106). -/
theorem C92_violated_empty_directory (E : Env) (st : State) (x : Xml) (xs : List Xml) :
    runXml E [] "qdng".toList [("dir".toList, [])] (x :: xs) st = .ub := by
  have : directory [] (st.gp.merge (attributes [.elem "qdng".toList [("dir".toList, [])] (x :: xs)])) = none := by
    unfold directory
    have h1 : OMap.find "dir".toList (st.gp.merge (attributes [.elem "qdng".toList [("dir".toList, [])] (x :: xs)])).params =
        some [] := by
      rw [merge_find _ _ _ _ _ _ (by simp)]; rfl
    simp only [Container.isPresent, Container.getString, if_true, h1]
    rfl
  unfold runXml
  rw [(isMulti_iff _).2 (Or.inl rfl)]
  simp only [if_true, nextChild]
  unfold runNodes
  simp only [this]

/-- A concrete input: a comment, a definition and two programs, the second of which fails. -/
def sample : List Xml :=
  [.other, .elem "opdefs".toList [] [.other, .elem "opdef".toList [("key".toList, "T".toList)] []],
   .elem "propa".toList [] [], .elem "eigen".toList [] [], .elem "filter".toList [] []]

/-- The hypotheses of the theorem hold for it, and what it says is this: one definition, `propa`, `eigen`; the filter is not run. -/
example : ([("dir".toList, "out".toList)].map Prod.fst).Nodup ∧ Spec.top "qdng".toList [("dir".toList, "out".toList)] sample ≠ [] ∧
    Spec.chosen [] ((Spec.globals "qdng".toList [("dir".toList, "out".toList)]).lookup "dir".toList) none = some "out".toList ∧
    Spec.workDir (some "out".toList) = "out/".toList ∧
    ((Spec.exec (fun _ c => match c with | .run .eigen _ _ => false | _ => true)
      (Spec.plan "out/".toList (Spec.top "qdng".toList [] sample)) []).1.map (fun | .run p _ d => (some p, d) | _ => (none, []))) =
      [(none, []), (some .propa, "out/".toList), (some .eigen, "out/".toList)] := by
  refine ⟨by simp, by simp [Spec.top, sample, Spec.elements, Spec.isElem], rfl, rfl, rfl⟩

/-- A concrete run for the theorem on definitions. -/
example : ∃ st, runXml (fun _ _ => true) [] "qdng".toList [] [.elem "propa".toList [] []] { gp := .empty, calls := [] } = .ok st ∧
    st.calls ≠ [] := ⟨_, rfl, by simp [call, State.calls]⟩

/-! ### C93 -/

theorem varDef_some (d n v : Str) : varDef d = some (n, v) ↔ Spec.splits d n v := by
  unfold varDef Spec.splits
  constructor
  · intro h
    cases hf : d.findIdx? (· = '=') with
    | none => rw [hf] at h; cases h
    | some pos =>
      rw [hf] at h
      simp only [Option.some.injEq, Prod.mk.injEq] at h
      obtain ⟨rfl, rfl⟩ := h
      rw [List.findIdx?_eq_some_iff_getElem] at hf
      obtain ⟨hlt, heq, hbef⟩ := hf
      constructor
      · intro hmem
        rw [List.mem_iff_getElem] at hmem
        obtain ⟨j, hj, hj'⟩ := hmem
        rw [List.length_take] at hj
        rw [List.getElem_take] at hj'
        exact hbef j (by omega) (by simpa using hj')
      · have hc : d[pos] = '=' := by simpa using heq
        rw [← hc, ← List.drop_eq_getElem_cons hlt, List.take_append_drop]
  · rintro ⟨hn, rfl⟩
    have : (n ++ '=' :: v).findIdx? (· = '=') = some n.length := by
      rw [List.findIdx?_eq_some_iff_getElem]
      refine ⟨by simp, by simp, ?_⟩
      intro j hj
      rw [List.getElem_append_left hj]
      intro h
      exact hn (by have := List.getElem_mem hj; rw [show n[j] = '=' by simpa using h] at this; exact this)
    rw [this]
    simp

theorem varDef_none (d : Str) : varDef d = none ↔ '=' ∉ d := by
  unfold varDef
  cases hf : d.findIdx? (· = '=') with
  | none =>
    simp only [true_iff]
    rw [List.findIdx?_eq_none_iff] at hf
    intro h
    have := hf _ h
    simp at this
  | some pos =>
    simp only [reduceCtorEq, false_iff, not_not]
    rw [List.findIdx?_eq_some_iff_getElem] at hf
    obtain ⟨hlt, heq, _⟩ := hf
    have := List.getElem_mem hlt
    rwa [show d[pos] = '=' by simpa using heq] at this

/-- C93: the variables given on the command line are accepted exactly if each of them holds an equal sign. -/
theorem C93_definitions_need_equal_sign (ds : List Str) (m : OMap Str Str) :
    (varDefs ds m).isSome ↔ ∀ d ∈ ds, '=' ∈ d := by
  induction ds generalizing m with
  | nil => simp [varDefs]
  | cons d r ih =>
    unfold varDefs
    cases h : varDef d with
    | none =>
      have := (varDef_none d).1 h
      simp [this]
    | some p =>
      obtain ⟨n, v⟩ := p
      have : '=' ∈ d := by
        by_contra hc
        rw [(varDef_none d).2 hc] at h
        cases h
      simp [ih, this]

/-- C93: the variables are `name=value` split at the first equal sign (the value may hold further ones or be empty), and a variable has the
value of the last definition of its name; the other variables keep theirs. -/
theorem C93_variables_have_last_value (ds : List Str) (m m' : OMap Str Str) (h : varDefs ds m = some m') (name : Str) :
    (∀ (i : Nat) (hi : i < ds.length) (value : Str), Spec.splits ds[i] name value →
      (∀ j (hj : j < ds.length), i < j → ∀ v, ¬ Spec.splits ds[j] name v) → OMap.find name m' = some value) ∧
    ((∀ (i : Nat) (hi : i < ds.length) (value : Str), ¬ Spec.splits ds[i] name value) →
      OMap.find name m' = OMap.find name m) := by
  induction ds generalizing m with
  | nil =>
    simp only [varDefs, Option.some.injEq] at h
    subst h
    exact ⟨fun i hi => absurd hi (by simp), fun _ => rfl⟩
  | cons d r ih =>
    unfold varDefs at h
    cases hd : varDef d with
    | none => rw [hd] at h; cases h
    | some p =>
      obtain ⟨n, v⟩ := p
      rw [hd] at h
      obtain ⟨h1, h2⟩ := ih _ h
      have hs := (varDef_some d n v).1 hd
      refine ⟨?_, ?_⟩
      · intro i hi value hv hlast
        cases i with
        | zero =>
          rw [h2 (fun j hj w hw => hlast (j + 1) (by simpa using hj) (by omega) w (by simpa using hw))]
          have hv' := (varDef_some d name value).2 (by simpa using hv)
          rw [hd] at hv'
          cases hv'
          rw [OMap.find_insert, if_pos rfl]
        | succ i =>
          exact h1 i (by simpa using hi) value (by simpa using hv)
            (fun j hj hij w hw => hlast (j + 1) (by simpa using hj) (by omega) w (by simpa using hw))
      · intro hno
        rw [h2 (fun j hj w hw => hno (j + 1) (by simpa using hj) w (by simpa using hw)), OMap.find_insert, if_neg]
        rintro rfl
        exact hno 0 (by simp) v (by simpa using hs)

/-- Two definitions of `a`, the second of which holds. -/
example : varDefs ["a=1".toList, "b=x=y".toList, "a=".toList] [] = some [("a".toList, []), ("b".toList, "x=y".toList)] ∧
    Spec.splits "b=x=y".toList "b".toList "x=y".toList := ⟨by decide +kernel, by decide +kernel, rfl⟩

/-! ### C94 -/

/-- C94 (what is missing: it holds only if the memory behind the bytes that were read happens to begin with a zero byte, which nothing
ensures, see below).  The text the XML parser gets is the contents of the input file, and only the buffer is read. -/
theorem C94_input_text_is_file_partial (content junk : List Char) (h0 : '\x00' ∉ content) :
    readXml content ('\x00' :: junk) = some (content, true) := by
  have h1 : cString (content ++ '\x00' :: junk) = some content := by
    unfold cString
    rw [if_pos (by simp)]
    congr 1
    rw [List.takeWhile_append_of_pos]
    · simp
    · intro c hc
      exact decide_eq_true (fun e : c = '\x00' => h0 (e ▸ hc))
  unfold readXml
  rw [h1]
  simp only [Option.some.injEq, Prod.mk.injEq, true_and, decide_eq_true_iff]
  unfold bufferSize
  omega

/-- C94 violated: the bytes are followed by whatever the memory holds (src/qdng.cpp:119-132 allocates it with `malloc` and never writes a zero
byte), and every text can follow. -/
theorem C94_violated_unterminated (content tail : List Char) (h0 : '\x00' ∉ content) (h1 : '\x00' ∉ tail) :
    ∃ junk b, readXml content junk = some (content ++ tail, b) := by
  refine ⟨tail ++ ['\x00'], decide ((content ++ tail).length < bufferSize content.length), ?_⟩
  have : cString (content ++ (tail ++ ['\x00'])) = some (content ++ tail) := by
    unfold cString
    rw [if_pos (by simp)]
    congr 1
    rw [← List.append_assoc, List.takeWhile_append_of_pos]
    · simp
    · intro c hc
      rcases List.mem_append.1 hc with hc | hc
      · exact decide_eq_true (fun e : c = '\x00' => h0 (e ▸ hc))
      · exact decide_eq_true (fun e : c = '\x00' => h1 (e ▸ hc))
  unfold readXml
  rw [this]

/-- C94 violated: for every file there is a state of the memory in which bytes behind the buffer are read. -/
theorem C94_violated_overrun (content : List Char) (h0 : '\x00' ∉ content) :
    ∃ junk s, readXml content junk = some (s, false) := by
  obtain ⟨junk, b, h⟩ := C94_violated_unterminated content (List.replicate (bufferSize content.length) 'x') h0 (by simp)
  refine ⟨junk, content ++ List.replicate (bufferSize content.length) 'x', ?_⟩
  rw [h]
  unfold readXml at h
  cases hc : cString (content ++ junk) with
  | none => rw [hc] at h; cases h
  | some s =>
    rw [hc] at h
    simp only [Option.some.injEq, Prod.mk.injEq] at h
    obtain ⟨rfl, rfl⟩ := h
    rw [decide_eq_false]
    simp

example : '\x00' ∉ "<qdng/>".toList := by decide +kernel

end QDng.RunXml
