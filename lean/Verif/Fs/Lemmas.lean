import Verif.Fs.Spec
import Mathlib.Data.List.Basic
import Mathlib.Data.List.Infix

namespace QDng.Fs

open QDng.Common Spec

/-! ### Paths as text -/

theorem comps_ne_nil : ∀ p : Str, comps p ≠ [] := by
  intro p
  induction p with
  | nil => simp [comps]
  | cons c cs ih =>
    unfold comps
    split
    · simp
    · cases h : comps cs with
      | nil => exact absurd h ih
      | cons x xs => simp

theorem comps_slash (b : Str) : ∀ a : Str, comps (a ++ '/' :: b) = comps a ++ comps b := by
  intro a
  induction a with
  | nil => simp [comps]
  | cons c cs ih =>
    simp only [List.cons_append, comps]
    split
    · rw [ih]; rfl
    · rw [ih]
      cases h : comps cs with
      | nil => exact absurd h (comps_ne_nil cs)
      | cons x xs => simp

theorem comps_noslash : ∀ b : Str, '/' ∉ b → comps b = [b] := by
  intro b
  induction b with
  | nil => intro _; rfl
  | cons c cs ih =>
    intro h
    rw [List.mem_cons, not_or] at h
    unfold comps
    rw [if_neg (fun e => h.1 e.symm), ih h.2]
    rfl

theorem names_slash (a b : Str) : names (a ++ '/' :: b) = names a ++ names b := by
  unfold names
  rw [comps_slash, List.filter_append]

theorem names_noslash (b : Str) (h : '/' ∉ b) (hb : b ≠ []) : names b = [b] := by
  unfold names
  rw [comps_noslash b h]
  simp [hb]

theorem names_nil : names [] = [] := rfl

theorem names_slashes (s : Str) : ∀ k, names (s ++ List.replicate k '/') = names s := by
  intro k
  induction k with
  | zero => simp
  | succ k ih => rw [List.replicate_succ, names_slash, show names (List.replicate k '/') = [] from ?_, List.append_nil]
                 clear ih
                 induction k with
                 | zero => rfl
                 | succ k ih => rw [List.replicate_succ, show '/' :: List.replicate k '/' = [] ++ '/' :: List.replicate k '/' from rfl,
                                  names_slash, ih]; rfl

/-- The two ways a list looks from its end. -/
theorem dropWhile_end (q : Char → Bool) (p : Str) : ∃ t, p = (p.reverse.dropWhile q).reverse ++ t ∧ ∀ c ∈ t, q c = true := by
  refine ⟨(p.reverse.takeWhile q).reverse, ?_, ?_⟩
  · rw [← List.reverse_append, List.takeWhile_append_dropWhile, List.reverse_reverse]
  · intro c hc
    exact List.all_eq_true.1 List.all_takeWhile c (List.mem_reverse.1 hc)

theorem dropSlashes_spec (p : Str) : (∃ k, p = dropSlashes p ++ List.replicate k '/') ∧
    (∀ a, dropSlashes p ≠ a ++ ['/']) := by
  constructor
  · obtain ⟨t, ht, h⟩ := dropWhile_end (· = '/') p
    refine ⟨t.length, ?_⟩
    have : t = List.replicate t.length '/' := List.eq_replicate_of_mem (fun c hc => by simpa using h c hc)
    rw [← this]; exact ht
  · intro a h
    unfold dropSlashes at h
    have h2 : p.reverse.dropWhile (· = '/') = '/' :: a.reverse := by
      rw [← List.reverse_inj, h]; simp
    have := List.head_dropWhile_not (l := p.reverse) (fun c => decide (c = '/')) (by rw [h2]; simp)
    simp [h2] at this

/-- How the last name of a path is split off. -/
theorem stripLast_spec (p : Str) (h : names p ≠ []) : ∃ s b, stripLast p = some s ∧ names p = names s ++ [b] ∧ '/' ∉ b ∧ b ≠ [] ∧
    ((dropSlashes p = b ∧ s = []) ∨ dropSlashes p = s ++ '/' :: b) := by
  obtain ⟨⟨k, hk⟩, hend⟩ := dropSlashes_spec p
  have hn : names p = names (dropSlashes p) := by
    conv_lhs => rw [hk]
    exact names_slashes _ _
  have hne : dropSlashes p ≠ [] := by
    intro e
    rw [hn, e] at h
    exact h rfl
  unfold stripLast
  simp only [if_neg hne]
  by_cases hs : '/' ∈ dropSlashes p
  · rw [if_pos hs]
    obtain ⟨b, hb, hb2⟩ := dropWhile_end (· ≠ '/') (dropSlashes p)
    have hx : (dropSlashes p).reverse.dropWhile (fun c => decide (c ≠ '/')) ≠ [] := by
      intro e
      rw [e, List.reverse_nil, List.nil_append] at hb
      rw [hb] at hs
      simpa using hb2 _ hs
    obtain ⟨x, xs, hxx⟩ := List.exists_cons_of_ne_nil hx
    have hx0 : x = '/' := by
      have := List.head_dropWhile_not (l := (dropSlashes p).reverse) (fun c => decide (c ≠ '/')) hx
      simp only [hxx, List.head_cons] at this
      simpa using this
    subst hx0
    have hd : dropSlashes p = xs.reverse ++ '/' :: b := by
      conv_lhs => rw [hb, hxx]
      simp
    have hb3 : '/' ∉ b := fun hm => by simpa using hb2 _ hm
    have hb4 : b ≠ [] := by
      intro e
      rw [e] at hd
      exact hend _ hd
    refine ⟨xs.reverse, b, ?_, ?_, hb3, hb4, Or.inr hd⟩
    · rw [hxx]; simp
    · rw [hn, hd, names_slash, names_noslash b hb3 hb4]
  · rw [if_neg hs]
    refine ⟨[], dropSlashes p, rfl, ?_, hs, hne, Or.inl ⟨rfl, rfl⟩⟩
    rw [hn, names_noslash _ hs hne]; rfl

/-! ### Walking -/

/-- None of the components is a dot. -/
def NoDots (cs : List Str) : Prop := ['.'] ∉ cs ∧ ['.', '.'] ∉ cs

theorem noDots_comps (p : Str) (h : Plain p) : NoDots (comps p) := by
  constructor
  · intro hm
    exact h.1 (List.mem_filter.2 ⟨hm, by simp⟩)
  · intro hm
    exact h.2 (List.mem_filter.2 ⟨hm, by simp⟩)

/-- What exists is inside directories. -/
def Nested (d : Disk) : Prop := ∀ q n, d (q ++ [n]) ≠ none → d q = some .dir

theorem nested_prefix (d : Disk) (h : Nested d) (q : List Str) : ∀ r, d (q ++ r) ≠ none → r ≠ [] → d q = some .dir := by
  intro r
  induction r using List.reverseRecOn with
  | nil => intro _ h; exact absurd rfl h
  | append_singleton r n ih =>
    intro h1 _
    have h2 : d (q ++ r) = some .dir := h (q ++ r) n (by rwa [List.append_assoc])
    by_cases hr : r = []
    · subst hr; simpa using h2
    · exact ih (by rw [h2]; simp) hr

theorem walk_skip (d : Disk) (cur ns : List Str) (h : d cur = some .dir) : walk d cur ([] :: ns) = walk d cur ns := by
  rw [walk]; simp [h]

theorem walk_step (d : Disk) (cur ns : List Str) (n : Str) (h : d cur = some .dir) (h0 : n ≠ []) (h1 : n ≠ ['.'])
    (h2 : n ≠ ['.', '.']) : walk d cur (n :: ns) = walk d (cur ++ [n]) ns := by
  rw [walk]; simp [h, h0, h1, h2]

/-- The walk to a directory. -/
theorem walk_dir (d : Disk) (hd : Nested d) : ∀ (cs cur : List Str), NoDots cs →
    d (cur ++ cs.filter (fun n => n ≠ [])) = some .dir → walk d cur cs = .ok (cur ++ cs.filter (fun n => n ≠ [])) := by
  intro cs
  induction cs with
  | nil => intro cur _ _; simp [walk]
  | cons n ns ih =>
    intro cur hn h
    have hcur : d cur = some .dir := by
      by_cases he : (n :: ns).filter (fun n => n ≠ []) = []
      · rw [he, List.append_nil] at h; exact h
      · exact nested_prefix d hd cur _ (by rw [h]; simp) he
    have hns : NoDots ns := ⟨fun hm => hn.1 (List.mem_cons_of_mem _ hm), fun hm => hn.2 (List.mem_cons_of_mem _ hm)⟩
    by_cases h0 : n = []
    · subst h0
      rw [walk_skip d cur ns hcur]
      have : ([] :: ns : List Str).filter (fun n => n ≠ []) = ns.filter (fun n => n ≠ []) := by simp
      rw [this] at h ⊢
      exact ih cur hns h
    · rw [walk_step d cur ns n hcur h0 (fun e => hn.1 (e ▸ List.mem_cons_self)) (fun e => hn.2 (e ▸ List.mem_cons_self))]
      have : (n :: ns).filter (fun n => n ≠ []) = [n] ++ ns.filter (fun n => n ≠ []) := by simp [h0]
      rw [this, ← List.append_assoc] at h ⊢
      exact ih (cur ++ [n]) hns h

/-- The walk to something missing. -/
theorem walk_none (d : Disk) : ∀ (cs cur : List Str), NoDots cs →
    (∀ r, r <+: cs.filter (fun n => n ≠ []) → d (cur ++ r) ≠ some .file) → d (cur ++ cs.filter (fun n => n ≠ [])) = none →
    walk d cur cs = .error .enoent ∨ walk d cur cs = .ok (cur ++ cs.filter (fun n => n ≠ [])) := by
  intro cs
  induction cs with
  | nil => intro cur _ _ _; right; simp [walk]
  | cons n ns ih =>
    intro cur hn hf h
    have hns : NoDots ns := ⟨fun hm => hn.1 (List.mem_cons_of_mem _ hm), fun hm => hn.2 (List.mem_cons_of_mem _ hm)⟩
    cases hc : d cur with
    | none => left; rw [walk]; simp [hc]
    | some k =>
      cases k with
      | file => exact absurd hc (by simpa using hf [] List.nil_prefix)
      | dir =>
        by_cases h0 : n = []
        · subst h0
          rw [walk_skip d cur ns hc]
          have : ([] :: ns : List Str).filter (fun n => n ≠ []) = ns.filter (fun n => n ≠ []) := by simp
          rw [this] at h hf ⊢
          exact ih cur hns hf h
        · rw [walk_step d cur ns n hc h0 (fun e => hn.1 (e ▸ List.mem_cons_self)) (fun e => hn.2 (e ▸ List.mem_cons_self))]
          have : (n :: ns).filter (fun n => n ≠ []) = [n] ++ ns.filter (fun n => n ≠ []) := by simp [h0]
          rw [this] at hf
          rw [this, ← List.append_assoc] at h ⊢
          refine ih (cur ++ [n]) hns (fun r hr => ?_) h
          rw [List.append_assoc]
          exact hf _ (by simpa using hr)

/-- The walk along a file. -/
theorem walk_file (d : Disk) (hd : Nested d) : ∀ (cs cur r : List Str), NoDots cs → r <+: cs.filter (fun n => n ≠ []) →
    d (cur ++ r) = some .file →
    walk d cur cs = .error .enotdir ∨
      (walk d cur cs = .ok (cur ++ cs.filter (fun n => n ≠ [])) ∧ d (cur ++ cs.filter (fun n => n ≠ [])) = some .file) := by
  intro cs
  induction cs with
  | nil =>
    intro cur r _ hr hf
    simp only [List.filter_nil, List.prefix_nil] at hr
    subst hr
    right; simpa [walk] using hf
  | cons n ns ih =>
    intro cur r hn hr hf
    have hns : NoDots ns := ⟨fun hm => hn.1 (List.mem_cons_of_mem _ hm), fun hm => hn.2 (List.mem_cons_of_mem _ hm)⟩
    by_cases hr0 : r = []
    · subst hr0
      left
      rw [walk]
      rw [List.append_nil] at hf
      simp [hf]
    · have hc : d cur = some .dir := nested_prefix d hd cur r (by rw [hf]; simp) hr0
      by_cases h0 : n = []
      · subst h0
        rw [walk_skip d cur ns hc]
        have : ([] :: ns : List Str).filter (fun n => n ≠ []) = ns.filter (fun n => n ≠ []) := by simp
        rw [this] at hr ⊢
        exact ih cur r hns hr hf
      · rw [walk_step d cur ns n hc h0 (fun e => hn.1 (e ▸ List.mem_cons_self)) (fun e => hn.2 (e ▸ List.mem_cons_self))]
        have : (n :: ns).filter (fun n => n ≠ []) = n :: ns.filter (fun n => n ≠ []) := by simp [h0]
        rw [this] at hr ⊢
        obtain ⟨x, xs, rfl⟩ := List.exists_cons_of_ne_nil hr0
        rw [List.cons_prefix_cons] at hr
        obtain ⟨rfl, hr⟩ := hr
        have := ih (cur ++ [x]) xs hns hr (by rwa [List.append_assoc])
        simpa using this

theorem start_eq (S : Sys) (p : Str) : start S p ++ names p = target S p := rfl

theorem stat_dir (S : Sys) (d : Disk) (hd : Nested d) (p : Str) (hp : p ≠ []) (h : Plain p) (hk : d (target S p) = some .dir) :
    stat S d p = .ok .dir := by
  unfold stat
  rw [if_neg hp, walk_dir d hd (comps p) (start S p) (noDots_comps p h) hk]
  change (match d (target S p) with | none => _ | some k => _) = _
  rw [hk]

theorem stat_none (S : Sys) (d : Disk) (p : Str) (hp : p ≠ []) (h : Plain p)
    (hf : ∀ r, r <+: names p → d (start S p ++ r) ≠ some .file) (hk : d (target S p) = none) :
    stat S d p = .error .enoent := by
  unfold stat
  rw [if_neg hp]
  rcases walk_none d (comps p) (start S p) (noDots_comps p h) hf hk with e | e
  · rw [e]
  · rw [e]
    change (match d (target S p) with | none => _ | some k => _) = _
    rw [hk]

theorem stat_file (S : Sys) (d : Disk) (hd : Nested d) (p : Str) (hp : p ≠ []) (h : Plain p) (r : List Str)
    (hr : r <+: names p) (hf : d (start S p ++ r) = some .file) :
    stat S d p = .ok .file ∨ stat S d p = .error .enotdir := by
  unfold stat
  rw [if_neg hp]
  rcases walk_file d hd (comps p) (start S p) r (noDots_comps p h) hr hf with e | ⟨e, e2⟩
  · right; rw [e]
  · left
    rw [e]
    change (match d (start S p ++ names p) with | none => _ | some k => _) = _
    rw [show d (start S p ++ names p) = some .file from e2]

/-! ### Disks -/

theorem withDirs_nested (d : Disk) (h : Nested d) (t : List Str) (hf : ∀ q, q <+: t → d q ≠ some .file) :
    Nested (withDirs d t) := by
  intro q n hq
  unfold withDirs at hq ⊢
  by_cases h1 : q ++ [n] <+: t ∧ d (q ++ [n]) = none
  · have hqt : q <+: t := (List.prefix_append q [n]).trans h1.1
    by_cases h2 : d q = none
    · rw [if_pos ⟨hqt, h2⟩]
    · rw [if_neg (fun hh => h2 hh.2)]
      cases hk : d q with
      | none => exact absurd hk h2
      | some k =>
        cases k with
        | dir => rfl
        | file => exact absurd hk (hf q hqt)
  · rw [if_neg h1] at hq
    have := h q n hq
    rw [if_neg (fun hh => by rw [this] at hh; exact absurd hh.2 (by simp)), this]

theorem withDirs_same (d : Disk) (t : List Str) (h : ∀ q, q <+: t → d q ≠ none) : withDirs d t = d := by
  funext q
  unfold withDirs
  rw [if_neg (fun hh => h q hh.1 hh.2)]

theorem prefix_snoc (q t : List Str) (b : Str) : q <+: t ++ [b] ↔ q <+: t ∨ q = t ++ [b] := by
  rw [List.prefix_concat_iff]
  exact Or.comm

theorem withDirs_snoc (d : Disk) (t : List Str) (b : Str) (h : d (t ++ [b]) = none) :
    (fun r => if r = t ++ [b] then some Kind.dir else withDirs d t r) = withDirs d (t ++ [b]) := by
  funext r
  unfold withDirs
  by_cases h1 : r = t ++ [b]
  · subst h1
    rw [if_pos rfl, if_pos ⟨List.prefix_rfl, h⟩]
  · rw [if_neg h1]
    by_cases h2 : r <+: t ∧ d r = none
    · rw [if_pos h2, if_pos ⟨(prefix_snoc r t b).2 (Or.inl h2.1), h2.2⟩]
    · rw [if_neg h2, if_neg]
      rintro ⟨h3, h4⟩
      rcases (prefix_snoc r t b).1 h3 with h5 | h5
      · exact h2 ⟨h5, h4⟩
      · exact h1 h5

/-- Making the last directory. -/
theorem mkdir_last (S : Sys) (d : Disk) (hd : Nested d) (p s b : Str) (hp : Plain p) (hb : '/' ∉ b) (hb0 : b ≠ [])
    (hn : names p = names s ++ [b]) (hs : (dropSlashes p = b ∧ s = []) ∨ dropSlashes p = s ++ '/' :: b)
    (hdir : d (start S p ++ names s) = some .dir) (hnone : d (start S p ++ names s ++ [b]) = none) :
    mkdir S d p = if S.allow (start S p ++ names s ++ [b]) then
      .ok (fun r => if r = start S p ++ names s ++ [b] then some .dir else d r) else .error .eacces := by
  have hb1 : b ≠ ['.'] := fun e => hp.1 (by rw [hn, e]; simp)
  have hb2 : b ≠ ['.', '.'] := fun e => hp.2 (by rw [hn, e]; simp)
  have key : (comps (dropSlashes p)).getLast? = some b ∧
      walk d (start S p) (comps (dropSlashes p)).dropLast = .ok (start S p ++ names s) := by
    rcases hs with ⟨h1, h2⟩ | h1
    · subst h2
      rw [h1, comps_noslash b hb]
      refine ⟨rfl, ?_⟩
      simp [walk, names_nil]
    · rw [h1, comps_slash, comps_noslash b hb]
      refine ⟨by simp, ?_⟩
      rw [List.dropLast_concat]
      refine walk_dir d hd _ _ (noDots_comps s ?_) hdir
      constructor
      · intro hm; exact hp.1 (by rw [hn]; simp [hm])
      · intro hm; exact hp.2 (by rw [hn]; simp [hm])
  unfold mkdir
  rw [key.1]
  simp only [key.2, hdir, hb0, hb1, hb2, false_or, if_false, hnone, Option.isSome_none, Bool.false_eq_true]

theorem start_strip (S : Sys) (p s b : Str)
    (hs : (dropSlashes p = b ∧ s = []) ∨ dropSlashes p = s ++ '/' :: b) (h : s ≠ []) : start S s = start S p := by
  obtain ⟨⟨k, hk⟩, _⟩ := dropSlashes_spec p
  rcases hs with ⟨_, h2⟩ | h1
  · exact absurd h2 h
  · obtain ⟨c, cs, rfl⟩ := List.exists_cons_of_ne_nil h
    unfold start
    rw [h1] at hk
    rw [hk]
    rfl

theorem strip_length (p s b : Str) (hb0 : b ≠ []) (hs : (dropSlashes p = b ∧ s = []) ∨ dropSlashes p = s ++ '/' :: b) :
    s.length < p.length := by
  obtain ⟨⟨k, hk⟩, _⟩ := dropSlashes_spec p
  have hl : (dropSlashes p).length ≤ p.length := by
    conv_rhs => rw [hk]
    simp
  rcases hs with ⟨h1, h2⟩ | h1
  · subst h2
    rw [h1] at hl
    have := List.length_pos_iff.2 hb0
    simp only [List.length_nil]; omega
  · rw [h1] at hl
    simp at hl
    omega

end QDng.Fs
