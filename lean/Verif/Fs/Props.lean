import Verif.Fs.Lemmas

/-
Theorems on creating directories (C95).
-/

namespace QDng.Fs

open QDng.Common Spec

theorem plain_nil_or (p : Str) (h : Plain p) : p ≠ ['.', '/'] := by
  rintro rfl
  exact h.1 (by decide)

theorem possible_snoc (S : Sys) (d : Disk) (t : List Str) (b : Str) (h : d (t ++ [b]) = none) :
    Possible S d (t ++ [b]) ↔ Possible S d t ∧ S.allow (t ++ [b]) = true := by
  unfold Possible
  constructor
  · intro hp
    exact ⟨fun q hq => hp q ((prefix_snoc q t b).2 (Or.inl hq)), (hp _ List.prefix_rfl).2 h⟩
  · rintro ⟨h1, h2⟩ q hq
    rcases (prefix_snoc q t b).1 hq with h3 | rfl
    · exact h1 q h3
    · exact ⟨by rw [h]; simp, fun _ => h2⟩

theorem prefix_dir (d : Disk) (hd : Nested d) (t q : List Str) (hq : q <+: t) (h : d t = some .dir) : d q = some .dir := by
  obtain ⟨r, rfl⟩ := hq
  by_cases hr : r = []
  · subst hr; simpa using h
  · exact nested_prefix d hd q r (by rw [h]; simp) hr

theorem createDirN_spec (S : Sys) : ∀ (k : Nat) (p : Str) (d : Disk), p.length < k → Plain p → Wf S d →
    (Possible S d (target S p) → createDirN S k p d = .ok (withDirs d (target S p))) ∧
    (¬ Possible S d (target S p) → ∃ r, r <+: target S p ∧ createDirN S k p d = .threw (withDirs d r)) := by
  intro k
  induction k with
  | zero => intro p d h; omega
  | succ k ih =>
    intro p d hk hp hw
    have hd : Nested d := hw.parent
    have whole : d (target S p) = some .dir → Possible S d (target S p) ∧ withDirs d (target S p) = d := by
      intro h
      constructor
      · intro q hq
        rw [prefix_dir d hd _ q hq h]
        simp
      · exact withDirs_same d _ (fun q hq => by rw [prefix_dir d hd _ q hq h]; simp)
    by_cases h0 : p = []
    · subst h0
      have ht : d (target S []) = some .dir := by simpa [target, names_nil] using hw.cwd
      have hc : createDirN S (k + 1) [] d = .ok d := by rw [createDirN]; simp
      rw [hc, (whole ht).2]
      exact ⟨fun _ => rfl, fun h => absurd (whole ht).1 h⟩
    · have hdot := plain_nil_or p hp
      by_cases hfile : ∃ r, r <+: names p ∧ d (start S p ++ r) = some .file
      · obtain ⟨r, hr, hf⟩ := hfile
        have hno : ¬ Possible S d (target S p) := by
          intro hpos
          refine (hpos (start S p ++ r) ?_).1 hf
          rw [← start_eq]
          exact (List.prefix_append_right_inj _).2 hr
        refine ⟨fun h => absurd h hno, fun _ => ⟨[], List.nil_prefix, ?_⟩⟩
        rw [withDirs_same d [] (fun q hq => by rw [List.prefix_nil.1 hq, hw.root]; simp)]
        rw [createDirN]
        rw [if_neg (by rintro (h | h); exacts [h0 h, hdot h])]
        rcases stat_file S d hd p h0 hp r hr hf with e | e
        · rw [e]
        · rw [e]
      · have hnf : ∀ r, r <+: names p → d (start S p ++ r) ≠ some .file := fun r hr hf => hfile ⟨r, hr, hf⟩
        cases hk2 : d (target S p) with
        | some kk =>
          cases kk with
          | file => exact absurd hk2 (hnf (names p) List.prefix_rfl)
          | dir =>
            have hc : createDirN S (k + 1) p d = .ok d := by
              rw [createDirN, if_neg (by rintro (h | h); exacts [h0 h, hdot h]), stat_dir S d hd p h0 hp hk2]
            rw [hc, (whole hk2).2]
            exact ⟨fun _ => rfl, fun h => absurd (whole hk2).1 h⟩
        | none =>
          have hn0 : names p ≠ [] := by
            intro e
            have : start S p = [] ∨ start S p = S.cwd := by
              unfold start; split
              · exact Or.inl rfl
              · exact Or.inr rfl
            rw [← start_eq, e, List.append_nil] at hk2
            rcases this with h | h
            · rw [h, hw.root] at hk2; cases hk2
            · rw [h, hw.cwd] at hk2; cases hk2
          obtain ⟨s, b, hs, hn, hb, hb0, hform⟩ := stripLast_spec p hn0
          have ht : target S p = start S p ++ names s ++ [b] := by
            rw [← start_eq, hn, List.append_assoc]
          rw [ht] at hk2
          have hsp : Plain s := ⟨fun hm => hp.1 (by rw [hn]; simp [hm]), fun hm => hp.2 (by rw [hn]; simp [hm])⟩
          have hbase : d (start S p) = some .dir := by
            unfold start; split
            · exact hw.root
            · exact hw.cwd
          -- the directory above
          have above : (Possible S d (start S p ++ names s) →
                createDirN S k s d = .ok (withDirs d (start S p ++ names s))) ∧
              (¬ Possible S d (start S p ++ names s) →
                ∃ r, r <+: start S p ++ names s ∧ createDirN S k s d = .threw (withDirs d r)) := by
            have hl := strip_length p s b hb0 hform
            by_cases hs0 : s = []
            · subst hs0
              have e1 : start S p ++ names [] = start S p := by rw [names_nil, List.append_nil]
              rw [e1]
              have e2 : createDirN S k [] d = .ok d := by
                cases k with
                | zero => omega
                | succ k => rw [createDirN]; simp
              rw [e2, withDirs_same d _ (fun q hq => by rw [prefix_dir d hd _ q hq hbase]; simp)]
              refine ⟨fun _ => rfl, fun h => absurd ?_ h⟩
              intro q hq
              rw [prefix_dir d hd _ q hq hbase]
              simp
            · rw [← start_strip S p s b hform hs0, start_eq]
              exact ih s d (by omega) hsp hw
          have hstat : stat S d p = .error .enoent := stat_none S d p h0 hp hnf (by rw [ht]; exact hk2)
          have hc : createDirN S (k + 1) p d = (createDirN S k s d).bind fun d =>
              match mkdir S d p with
              | .ok d => .ok d
              | .error _ => .threw d := by
            rw [createDirN, if_neg (by rintro (h | h); exacts [h0 h, hdot h]), hstat]
            simp only [hs] <;> congr 1
          rw [hc, ht]
          have hposs := possible_snoc S d (start S p ++ names s) b hk2
          by_cases hpa : Possible S d (start S p ++ names s)
          · rw [above.1 hpa]
            have hnest : Nested (withDirs d (start S p ++ names s)) := withDirs_nested d hd _ (fun q hq => (hpa q hq).1)
            have hdir1 : withDirs d (start S p ++ names s) (start S p ++ names s) = some .dir := by
              unfold withDirs
              cases hx : d (start S p ++ names s) with
              | none => rw [if_pos ⟨List.prefix_rfl, rfl⟩]
              | some kk =>
                rw [if_neg (fun hh => absurd hh.2 (by simp))]
                cases kk with
                | dir => rfl
                | file => exact absurd hx (hpa _ List.prefix_rfl).1
            have hnone1 : withDirs d (start S p ++ names s) (start S p ++ names s ++ [b]) = none := by
              unfold withDirs
              rw [if_neg ?_, hk2]
              rintro ⟨hpre, _⟩
              have := hpre.length_le
              rw [List.length_append, List.length_singleton] at this
              omega
            have hm := mkdir_last S _ hnest p s b hp hb hb0 hn hform hdir1 hnone1
            simp only [Out.bind, hm]
            by_cases ha : S.allow (start S p ++ names s ++ [b]) = true
            · rw [if_pos ha]
              refine ⟨fun _ => ?_, fun h => absurd (hposs.2 ⟨hpa, ha⟩) h⟩
              rw [← withDirs_snoc d _ b hk2]
            · rw [if_neg ha]
              exact ⟨fun h => absurd (hposs.1 h).2 ha, fun _ => ⟨start S p ++ names s, List.prefix_append _ _, rfl⟩⟩
          · obtain ⟨r, hr, e⟩ := above.2 hpa
            rw [e]
            exact ⟨fun h => absurd (hposs.1 h).1 hpa, fun _ => ⟨r, hr.trans (List.prefix_append _ _), rfl⟩⟩

/-- C95 (what is missing: paths with `.` or `..` in them, where the claim is false, see below).
Creating a directory succeeds exactly if nothing on the way to it is a file and what is missing may be created; then all missing
directories on the way exist and nothing else has changed. -/
theorem C95_create_directory_partial (S : Sys) (d : Disk) (p : Str) (hw : Wf S d) (hp : Plain p) (d' : Disk) :
    createDir S p d = .ok d' ↔ Possible S d (target S p) ∧ d' = withDirs d (target S p) := by
  obtain ⟨h1, h2⟩ := createDirN_spec S (p.length + 1) p d (by omega) hp hw
  unfold createDir
  by_cases hpos : Possible S d (target S p)
  · rw [h1 hpos]
    constructor
    · intro h; cases h; exact ⟨hpos, rfl⟩
    · rintro ⟨_, rfl⟩; rfl
  · obtain ⟨r, _, e⟩ := h2 hpos
    rw [e]
    constructor
    · intro h; cases h
    · intro h; exact absurd h.1 hpos

/-- C95 (as above): otherwise there is an exception; directories on the way may have been created, nothing else has changed. -/
theorem C95_failure_keeps_rest_partial (S : Sys) (d : Disk) (p : Str) (hw : Wf S d) (hp : Plain p)
    (h : ¬ Possible S d (target S p)) : ∃ r, r <+: target S p ∧ createDir S p d = .threw (withDirs d r) :=
  (createDirN_spec S (p.length + 1) p d (by omega) hp hw).2 h

/-- C95: a directory that was created is there, and creating it once more changes nothing. -/
theorem C95_create_twice_partial (S : Sys) (d d' : Disk) (p : Str) (hw : Wf S d) (hp : Plain p) (h : createDir S p d = .ok d') :
    d' (target S p) = some .dir ∧ createDir S p d' = .ok d' := by
  obtain ⟨hpos, rfl⟩ := (C95_create_directory_partial S d p hw hp d').1 h
  have hall : ∀ q, q <+: target S p → withDirs d (target S p) q = some .dir := by
    intro q hq
    unfold withDirs
    cases hx : d q with
    | none => simp [hq]
    | some k =>
      cases k with
      | dir => simp
      | file => exact absurd hx (hpos q hq).1
  have hw' : Wf S (withDirs d (target S p)) := by
    refine ⟨hall [] List.nil_prefix, ?_, withDirs_nested d hw.parent _ (fun q hq => (hpos q hq).1)⟩
    unfold withDirs
    rw [hw.cwd]; simp
  refine ⟨hall _ List.prefix_rfl, (C95_create_directory_partial S _ p hw' hp _).2 ⟨?_, ?_⟩⟩
  · intro q hq
    rw [hall q hq]
    simp
  · exact (withDirs_same _ _ (fun q hq => by rw [hall q hq]; simp)).symm

/-- An empty file system with the root as the current directory, where everything may be created. -/
def emptyDisk : Disk := fun q => if q = [] then some .dir else none

/-- Everything may be created. -/
def anySys : Sys := { cwd := [], allow := fun _ => true }

theorem emptyDisk_wf : Wf anySys emptyDisk := by
  refine ⟨rfl, rfl, ?_⟩
  intro q n h
  simp [emptyDisk] at h

/-- C95 violated: a path with a dot for a part that does not exist yet: the directory can be created, but an exception is thrown. -/
theorem C95_violated_dot : Wf anySys emptyDisk ∧ Possible anySys emptyDisk ["a".toList] ∧
    ∃ d', createDir anySys "a/.".toList emptyDisk = .threw d' ∧ d' ["a".toList] = some .dir := by
  refine ⟨emptyDisk_wf, ?_, ?_⟩
  · intro q hq
    exact ⟨by unfold emptyDisk; split <;> simp, fun _ => rfl⟩
  · exact ⟨_, rfl, rfl⟩

/-- C95: stripping the last part of a path.  For a path that has a name the last one is removed. -/
theorem C95_strip_last_partial (p : Str) (h : names p ≠ []) : ∃ s, stripLast p = some s ∧ names s = (names p).dropLast := by
  obtain ⟨s, b, hs, hn, _⟩ := stripLast_spec p h
  exact ⟨s, hs, by rw [hn, List.dropLast_concat]⟩

/-- C95 violated: stripping the last part of the root (or of an empty path) reads in front of the text (src/tools/fstools.cpp:23). -/
theorem C95_violated_strip_root (k : Nat) : stripLast (List.replicate k '/') = none := by
  have : dropSlashes (List.replicate k '/') = [] := by
    unfold dropSlashes
    rw [List.reverse_replicate, List.dropWhile_replicate]
    simp
  unfold stripLast
  simp [this]

/-- Concrete case: `x//y/` in an empty file system. -/
example : Plain "x//y/".toList ∧ target anySys "x//y/".toList = ["x".toList, "y".toList] ∧
    Possible anySys emptyDisk (target anySys "x//y/".toList) ∧
    ∃ d', createDir anySys "x//y/".toList emptyDisk = .ok d' ∧ d' ["x".toList, "y".toList] = some .dir := by
  refine ⟨⟨by decide, by decide⟩, by decide, ?_, _, rfl, rfl⟩
  intro q hq
  exact ⟨by unfold emptyDisk; split <;> simp, fun _ => rfl⟩

/-- Concrete failure: a file is in the way. -/
example : ¬ Possible anySys (fun q => if q = [] then some .dir else if q = ["f".toList] then some .file else none)
    (target anySys "f/y".toList) := by
  intro h
  exact (h ["f".toList] ⟨["y".toList], rfl⟩).1 (by decide)

end QDng.Fs
