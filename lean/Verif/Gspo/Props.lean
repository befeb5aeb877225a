import Verif.Gspo.Lemmas

/-!
Properties of the set-up of the split operator propagator.
-/

namespace QDng.Gspo

open QDng.Common

/-! ### Histories before the first set-up -/

/-- The call is no set-up. -/
def Ev.Prepares : Ev → Prop
  | .init _ => False
  | _ => True

/-- The clock that was set last, `c` if none was set. -/
def LastClock (c : Option Clk) : List Ev → Option Clk
  | [] => c
  | .clock c' :: l => LastClock (some c') l
  | _ :: l => LastClock c l

/-- Whatever a program adds and whichever clocks it sets before the first set-up, the propagator is untouched and its
list is proper (the hypotheses of the theorems below hold), and its clock is the last one that was set. -/
theorem C312_prepared (l : List Ev) (hl : ∀ e, e ∈ l → e.Prepares) :
    ∃ s, run l St.new = some s ∧ Untouched s ∧ Proper s.parts ∧ s.clock = LastClock none l := by
  have key : ∀ (l : List Ev) (s : St), (∀ e, e ∈ l → e.Prepares) → Untouched s → Proper s.parts →
      ∃ s', run l s = some s' ∧ Untouched s' ∧ Proper s'.parts ∧ s'.clock = LastClock s.clock l := by
    intro l
    induction l with
    | nil => exact fun s _ h1 h2 => ⟨s, rfl, h1, h2, rfl⟩
    | cons e l ih =>
      intro s hl h1 h2
      have hl' : ∀ e, e ∈ l → e.Prepares := fun e he => hl e (List.mem_cons_of_mem _ he)
      cases e with
      | add n p =>
        have h : ∃ s1, after (add s n p) = some s1 ∧ Untouched s1 ∧ Proper s1.parts ∧ s1.clock = s.clock := by
          cases ha : add s n p with
          | ok s1 =>
            refine ⟨s1, rfl, ?_, add_proper h2 ha, ?_⟩
            · rw [add] at ha
              split at ha
              · cases ha
              · split at ha
                · cases ha
                · cases ha; exact h1
            · rw [add] at ha
              split at ha
              · cases ha
              · split at ha
                · cases ha
                · cases ha; rfl
          | threw s1 =>
            rw [add] at ha
            split at ha
            · cases ha; exact ⟨_, rfl, h1, h2, rfl⟩
            · split at ha
              · cases ha; exact ⟨_, rfl, h1, h2, rfl⟩
              · cases ha
          | ub =>
            rw [add] at ha
            split at ha
            · cases ha
            · split at ha <;> cases ha
        obtain ⟨s1, h3, h4, h5, hc⟩ := h
        obtain ⟨s2, h6, h7, h8, h9⟩ := ih s1 hl' h4 h5
        refine ⟨s2, ?_, h7, h8, by rw [h9, hc]; rfl⟩
        simp only [run, h3, h6]
      | clock c =>
        obtain ⟨s2, h6, h7⟩ := ih { s with clock := some c } hl' h1 h2
        refine ⟨s2, ?_, h7⟩
        simp only [run, setClock, after, h6]
      | init psi => exact absurd (hl _ List.mem_cons_self) id
  exact key l St.new hl ⟨rfl, rfl, fun _ => rfl, fun _ => rfl, rfl, rfl⟩ ⟨by decide, by simp [St.new]⟩

/-! ### What is set up, what is refused -/

/-- The input is complete: there are parts, named A, B, C, ... and diagonal, a clock with a time step, and all parts can
be set up for `n` elements. -/
def Complete (s : St) (n : Nat) : Prop :=
  s.parts ≠ [] ∧ Sequence s.parts ∧ (∃ c, s.clock = some c ∧ c.hasStep = true) ∧ Takes s.parts n

/-- The state a successful set-up leaves is ready. -/
theorem ready_done {s : St} (hP : Proper s.parts) (hs : Sequence s.parts) {c : Clk} (hc : s.clock = some c) (n : Nat) :
    Ready { sized n 0 s.parts.length
        { grabbed s.parts 0 s.parts.length (start s) with spoLen := s.parts.length } with
      hInit := some n, hClock := some c } n := by
  have hf := (sequence_iff hP).1 hs
  obtain ⟨h1, h2⟩ := upto_fit hf
  refine ⟨rfl, ⟨upto s.parts s.parts.length, rfl, h1, ?_⟩, rfl, ?_, hc.symm⟩
  · intro i hi
    have hi' : i < s.parts.length := hi
    obtain ⟨p, hp, hp2⟩ := h2 i hi'
    refine ⟨p, (get_iff hP.2 _ _).1 hp, ?_, ?_, hp2⟩
    · show (if 0 ≤ i ∧ i < s.parts.length then get s.parts (base i) else (start s).ops i) = some p
      rw [if_pos (by omega), hp]
    · show (if 0 ≤ i ∧ i < s.parts.length then n else (start s).exp i) = n
      rw [if_pos (by omega)]
  · show s.clock.isSome = true
    rw [hc]; rfl

/-- The last part of the set-up, on the state with the storage sized. -/
theorem finish_done {s : St} (hP : Proper s.parts) {c : Clk} (hc : s.clock = some c) (n : Nat) :
    (c.hasStep = true ∧ Takes s.parts n →
      finish (some n) (sized n 0 s.parts.length
        { grabbed s.parts 0 s.parts.length (start s) with spoLen := s.parts.length })
      = .ok { sized n 0 s.parts.length
          { grabbed s.parts 0 s.parts.length (start s) with spoLen := s.parts.length } with
        hInit := some n, hClock := some c })
    ∧ (¬ (c.hasStep = true ∧ Takes s.parts n) →
      finish (some n) (sized n 0 s.parts.length
        { grabbed s.parts 0 s.parts.length (start s) with spoLen := s.parts.length })
      = .threw (sized n 0 s.parts.length
        { grabbed s.parts 0 s.parts.length (start s) with spoLen := s.parts.length })) := by
  have hst : (start s).clock = some c := hc
  have hpp : (start s).parts = s.parts := rfl
  constructor
  · rintro ⟨h1, h2⟩
    simp only [finish, sized, grabbed, hst, hpp, h1, (takes_iff s.parts n).2 h2, initAll_upto hP h2]
    simp
  · intro h
    simp only [finish, sized, grabbed, hst, hpp]
    cases h1 : c.hasStep with
    | false => simp
    | true =>
      have h2 : initAll n (s.parts.map (·.2)) = false := by
        cases h3 : initAll n (s.parts.map (·.2)) with
        | false => rfl
        | true => exact absurd ⟨h1, (takes_iff _ _).1 h3⟩ h
      simp [h2]

/-- **C312 (part: a wave function that exists).**  The first set-up succeeds exactly when the input is complete, whatever
the order in which the parts were added, and then the propagator is ready for this wave function; otherwise the set-up is
refused with an exception. -/
theorem C312_partial (s : St) (hu : Untouched s) (hP : Proper s.parts) (n : Nat) :
    (Complete s n ∧ ∃ s', init s (some n) = .ok s' ∧ Ready s' n ∧ s'.parts = s.parts ∧ s'.clock = s.clock)
      ∨ (¬ Complete s n ∧ ∃ s', init s (some n) = .threw s') := by
  obtain ⟨hH, -, -, he, -⟩ := hu
  by_cases hs : Sequence s.parts
  · by_cases hc : s.clock = none ∨ s.parts = []
    · refine Or.inr ⟨?_, _, init_noclock (he 0) (Or.inl hH) hP hs hc (some n)⟩
      rintro ⟨h1, -, ⟨c, h2, -⟩, -⟩
      rcases hc with hc | hc
      · rw [hc] at h2; cases h2
      · exact h1 hc
    · have hne : s.parts ≠ [] := fun h => hc (Or.inr h)
      obtain ⟨c, hcc⟩ := Option.ne_none_iff_exists'.1 (fun h => hc (Or.inl h))
      have hi := init_seq (he 0) (Or.inl hH) hP hs (by rw [hcc]; rfl) hne n
      by_cases hg : c.hasStep = true ∧ Takes s.parts n
      · refine Or.inl ⟨⟨hne, hs, ⟨c, hcc, hg.1⟩, hg.2⟩, _, hi.trans ((finish_done hP hcc n).1 hg),
          ready_done hP hs hcc n, rfl, rfl⟩
      · refine Or.inr ⟨?_, _, hi.trans ((finish_done hP hcc n).2 hg)⟩
        rintro ⟨-, -, ⟨c', h2, h3⟩, h4⟩
        rw [hcc] at h2
        cases h2
        exact hg ⟨h3, h4⟩
  · obtain ⟨m, -, -, -, h⟩ := init_nonseq (he 0) (Or.inl hH) hP hs (some n)
    exact Or.inr ⟨fun h => hs h.2.1, _, h⟩

/-- **C312 is false for a missing wave function**: with parts in order and a clock it is used before it is checked. -/
theorem C312_violated_null (s : St) (hu : Untouched s) (hP : Proper s.parts) (hs : Sequence s.parts)
    (hc : s.clock.isSome = true) (hne : s.parts ≠ []) : init s none = .ub := by
  obtain ⟨hH, -, -, he, -⟩ := hu
  have hst : (start s).H = some (upto s.parts 0) := by simp [start, hH, upto]
  obtain ⟨k, hk⟩ : ∃ k, s.parts.length = k + 1 := by
    cases hp : s.parts with
    | nil => exact absurd hp hne
    | cons e l => exact ⟨l.length, rfl⟩
  rw [init_grab (he 0)]
  rcases grab_spec hP.1 s.parts.length 0 (start s) (by omega) rfl hst with ⟨m, h1, h2, h3, -⟩ | ⟨hf, h2⟩
  · exact absurd ((sequence_iff hP).1 hs m h2) h3
  · rw [h2]
    simp only [Out.bind]
    have hcl : (grabbed s.parts 0 s.parts.length (start s)).clock = s.clock := rfl
    have hpl : (grabbed s.parts 0 s.parts.length (start s)).parts = s.parts := rfl
    rw [hcl, hpl, if_neg (by cases h : s.clock <;> simp_all), if_neg (by omega)]
    obtain ⟨p, hp, -⟩ := hf 0 (by omega) (by omega)
    have h : (grabbed s.parts 0 s.parts.length (start s)).ops 0 = some p := by
      simp only [grabbed]
      rw [if_pos (by omega), hp]
    rw [hk] at h ⊢
    simp only [sizes, h]

/-! ### Repeated set-up -/

/-- **C313 (part: after success, wave functions with elements).**  A second set-up is accepted and changes nothing. -/
theorem C313_partial (s s' : St) (hu : Untouched s) (hP : Proper s.parts) (n : Nat) (hn : 0 < n)
    (h : init s (some n) = .ok s') (psi : Option Nat) : init s' psi = .ok s' := by
  rcases C312_partial s hu hP n with ⟨hg, s1, h1, h2, h3, -⟩ | ⟨-, s1, h1⟩
  · rw [h] at h1
    cases h1
    obtain ⟨-, ⟨_, -, -, h4⟩, -⟩ := h2
    have hlen : 0 < s'.parts.length := by
      rw [h3]
      exact List.length_pos_iff.2 hg.1
    obtain ⟨_, -, -, h5, -⟩ := h4 0 hlen
    rw [init, if_pos (by omega)]
  · rw [h] at h1; cases h1

/-- **C313 is false after a late refusal**: if the time step is zero or a part refuses the wave function, the first set-up
is refused, and every further one returns as if it had succeeded although nothing was changed; the Hamiltonian is not set
up and has no clock. -/
theorem C313_violated_silent (s : St) (hu : Untouched s) (hP : Proper s.parts) (hs : Sequence s.parts)
    (hne : s.parts ≠ []) (c : Clk) (hc : s.clock = some c) (n : Nat) (hn : 0 < n)
    (hg : ¬ (c.hasStep = true ∧ Takes s.parts n)) :
    ∃ s', init s (some n) = .threw s' ∧ s'.hInit = none ∧ s'.hClock = none ∧ ∀ psi, init s' psi = .ok s' := by
  obtain ⟨hH, -, -, he, hi, hcl⟩ := hu
  have h := (init_seq (he 0) (Or.inl hH) hP hs (by rw [hc]; rfl) hne n).trans ((finish_done hP hc n).2 hg)
  refine ⟨_, h, hi, hcl, fun psi => ?_⟩
  have hlen : 0 < s.parts.length := List.length_pos_iff.2 hne
  have h0 : (sized n 0 s.parts.length
      { grabbed s.parts 0 s.parts.length (start s) with spoLen := s.parts.length }).exp 0 = n := by
    show (if 0 ≤ 0 ∧ 0 < s.parts.length then n else (start s).exp 0) = n
    rw [if_pos (by omega)]
  rw [init, if_pos (by omega)]

/-- **C313 is false for another size**: a set-up with a wave function of another size returns as if it had succeeded, and
the propagator is not ready for it. -/
theorem C313_violated_other (s s' : St) (hu : Untouched s) (hP : Proper s.parts) (n m : Nat) (hn : 0 < n)
    (hm : m ≠ n) (h : init s (some n) = .ok s') : init s' (some m) = .ok s' ∧ ¬ Ready s' m := by
  refine ⟨C313_partial s s' hu hP n hn h _, ?_⟩
  intro hr
  rcases C312_partial s hu hP n with ⟨hg, s1, h1, h2, -, -⟩ | ⟨-, s1, h1⟩
  · rw [h] at h1
    cases h1
    have h5 := h2.2.2.1
    rw [hr.2.2.1] at h5
    cases h5
    exact hm rfl
  · rw [h] at h1; cases h1

/-- The Hamiltonian has part A after a set-up that was refused early. -/
theorem stuck_after {s : St} (hu : Untouched s) (hP : Proper s.parts) {p : Part} (ha : HasPart s.parts 0 p)
    (hd : p.diag = true) (hbad : ¬ Sequence s.parts ∨ s.clock = none) (psi : Option Nat) :
    ∃ m, 0 < m ∧ m ≤ s.parts.length ∧ (∀ j, j < m → Fit s.parts j)
      ∧ init s psi = .threw (grabbed s.parts 0 m (start s)) ∧ Stuck (grabbed s.parts 0 m (start s)) := by
  obtain ⟨hH, hl, -, he, -⟩ := hu
  have hga : get s.parts (base 0) = some p := (get_iff hP.2 _ _).2 ha
  have hne : s.parts ≠ [] := List.ne_nil_of_mem ha
  have hst : ∀ m, 0 < m → Stuck (grabbed s.parts 0 m (start s)) := by
    intro m hm
    refine ⟨hne, he 0, upto s.parts m, rfl, ?_⟩
    refine List.any_eq_true.2 ⟨(base 0, p), ?_, by simp⟩
    induction m with
    | zero => omega
    | succ m ih =>
      by_cases h0 : m = 0
      · subst h0
        rw [upto_succ hga]
        simp
      · cases hg : get s.parts (base m) with
        | none => simp only [upto, hg]; exact ih (by omega)
        | some q => rw [upto_succ hg]; exact List.mem_append_left _ (ih (by omega))
  by_cases hs : Sequence s.parts
  · have hc : s.clock = none := hbad.resolve_left (fun h => h hs)
    have hlen : 0 < s.parts.length := List.length_pos_iff.2 hne
    refine ⟨s.parts.length, hlen, Nat.le_refl _, (sequence_iff hP).1 hs, ?_, hst _ hlen⟩
    rw [init_noclock (he 0) (Or.inl hH) hP hs (Or.inl hc) psi]
    congr 1
    have : (start s).spoLen = 0 := hl
    simp only [grabbed, this]
    congr 1
    omega
  · obtain ⟨m, h1, h2, h3, h4⟩ := init_nonseq (he 0) (Or.inl hH) hP hs psi
    have hm : 0 < m := by
      rcases Nat.eq_zero_or_pos m with h | h
      · subst h
        exact absurd ⟨p, hga, hd⟩ h2
      · exact h
    exact ⟨m, hm, by omega, h3, h4, hst m hm⟩

/-- **C313 is false after an early refusal**: if there is a diagonal part A but a later part is missing or not diagonal, or
the clock is missing, the set-up is refused, and whatever the program adds, whichever clock it sets and however often it
tries, every later set-up is refused too. -/
theorem C313_violated_stuck (s : St) (hu : Untouched s) (hP : Proper s.parts) (p : Part) (ha : HasPart s.parts 0 p)
    (hd : p.diag = true) (hbad : ¬ Sequence s.parts ∨ s.clock = none) (psi : Option Nat) :
    ∃ s', init s psi = .threw s'
      ∧ ∀ l : List Ev, ∃ s2, run l s' = some s2 ∧ ∀ psi', ∃ s3, init s2 psi' = .threw s3 := by
  obtain ⟨m, -, -, -, h, hst⟩ := stuck_after hu hP ha hd hbad psi
  refine ⟨_, h, fun l => ?_⟩
  obtain ⟨s2, h1, h2⟩ := stuck_run l _ hst
  refine ⟨s2, h1, fun psi' => ?_⟩
  obtain ⟨s3, h3, -⟩ := stuck_init h2 psi'
  exact ⟨s3, h3⟩

/-- **C313 is false for a wave function without elements**: the first set-up succeeds, the second is refused. -/
theorem C313_violated_empty (s : St) (hu : Untouched s) (hP : Proper s.parts) (hg : Complete s 0) (psi : Option Nat) :
    ∃ s', init s (some 0) = .ok s' ∧ ∃ s2, init s' psi = .threw s2 := by
  rcases C312_partial s hu hP 0 with ⟨-, s1, h1, h2, h3, -⟩ | ⟨h, -⟩
  · refine ⟨s1, h1, ?_⟩
    obtain ⟨-, ⟨h, h4, h5, h6⟩, -⟩ := h2
    have hlen : 0 < s1.parts.length := by
      rw [h3]
      exact List.length_pos_iff.2 hg.1
    obtain ⟨p, -, -, h7, h8⟩ := h6 0 hlen
    have hst : Stuck s1 := by
      refine ⟨List.length_pos_iff.1 hlen, h7, h, h4, ?_⟩
      exact List.any_eq_true.2 ⟨_, List.mem_of_getElem? h8, by simp [base_letter]⟩
    obtain ⟨s2, h9, -⟩ := stuck_init hst psi
    exact ⟨s2, h9⟩
  · exact absurd hg h

/-! ### Questions after a refused set-up -/

theorem valid_some (acc : Part → Bool) (s : St) : ∀ k i, (∀ j, i ≤ j → j < i + k → (s.ops j).isSome = true) →
    validLoop acc s k i = .val false := by
  intro k
  induction k with
  | zero => intro i _; rfl
  | succ k ih =>
    intro i h
    obtain ⟨p, hp⟩ := Option.isSome_iff_exists.1 (h i (Nat.le_refl _) (by omega))
    simp only [validLoop, hp]
    split
    · rfl
    · exact ih (i + 1) (fun j h1 h2 => h j (by omega) (by omega))

theorem upd_some (s : St) : ∀ k i, (∀ j, i ≤ j → j < i + k → (s.ops j).isSome = true) →
    ∃ l, updLoop s k i = .val l := by
  intro k
  induction k with
  | zero => intro i _; exact ⟨[], rfl⟩
  | succ k ih =>
    intro i h
    obtain ⟨p, hp⟩ := Option.isSome_iff_exists.1 (h i (Nat.le_refl _) (by omega))
    obtain ⟨l, hl⟩ := ih (i + 1) (fun j h1 h2 => h j (by omega) (by omega))
    exact ⟨p.id :: l, by simp only [updLoop, hp, hl]⟩

theorem valid_ub (acc : Part → Bool) (s : St) {m : Nat} (hm : s.ops m = none)
    (ha : ∀ j p, j < m → s.ops j = some p → acc p = true) : ∀ k i, i ≤ m → m < i + k → validLoop acc s k i = .ub := by
  intro k
  induction k with
  | zero => intro i h1 h2; omega
  | succ k ih =>
    intro i h1 h2
    cases hp : s.ops i with
    | none => simp only [validLoop, hp]
    | some p =>
      have him : i ≠ m := by
        intro h
        subst h
        rw [hm] at hp
        cases hp
      have hacc := ha i p (by omega) hp
      simp only [validLoop, hp, hacc]
      simpa using ih (i + 1) (by omega) (by omega)

theorem upd_ub (s : St) {m : Nat} (hm : s.ops m = none) : ∀ k i, i ≤ m → m < i + k → updLoop s k i = .ub := by
  intro k
  induction k with
  | zero => intro i h1 h2; omega
  | succ k ih =>
    intro i h1 h2
    cases hp : s.ops i with
    | none => simp only [updLoop, hp]
    | some p =>
      have him : i ≠ m := by
        intro h
        subst h
        rw [hm] at hp
        cases hp
      simp only [updLoop, hp, ih (i + 1) (by omega) (by omega)]

/-- **C314 (part: after the first refusal).**  Whatever the reason of the refusal, the propagator can be asked whether it
accepts a wave function, answers no, and can be told that the time has changed. -/
theorem C314_partial (s s' : St) (hu : Untouched s) (hP : Proper s.parts) (n : Nat)
    (h : init s (some n) = .threw s') (acc : Part → Bool) :
    valid acc s' = .val false ∧ ∃ l, updateTime s' = .val l := by
  have key : ∀ t : St, (∀ j, j < t.spoLen → (t.ops j).isSome = true) →
      valid acc t = .val false ∧ ∃ l, updateTime t = .val l := by
    intro t ht
    exact ⟨valid_some acc t _ 0 (fun j _ hj => ht j (by omega)), upd_some t _ 0 (fun j _ hj => ht j (by omega))⟩
  have hgr : ∀ (m : Nat), (∀ j, j < m → Fit s.parts j) → ∀ j, j < m →
      ((grabbed s.parts 0 m (start s)).ops j).isSome = true := by
    intro m hm j hj
    obtain ⟨p, hp, -⟩ := hm j hj
    show (if 0 ≤ j ∧ j < m then get s.parts (base j) else (start s).ops j).isSome = true
    rw [if_pos (by omega), hp]
    rfl
  obtain ⟨hH, hl, -, he, -⟩ := hu
  by_cases hs : Sequence s.parts
  · have hf := (sequence_iff hP).1 hs
    by_cases hc : s.clock = none ∨ s.parts = []
    · rw [init_noclock (he 0) (Or.inl hH) hP hs hc (some n)] at h
      cases h
      exact key _ (fun j hj => hgr _ hf j hj)
    · have hne : s.parts ≠ [] := fun h => hc (Or.inr h)
      obtain ⟨c, hcc⟩ := Option.ne_none_iff_exists'.1 (fun h => hc (Or.inl h))
      have hi := init_seq (he 0) (Or.inl hH) hP hs (by rw [hcc]; rfl) hne n
      by_cases hg : c.hasStep = true ∧ Takes s.parts n
      · rw [hi.trans ((finish_done hP hcc n).1 hg)] at h
        cases h
      · rw [hi.trans ((finish_done hP hcc n).2 hg)] at h
        cases h
        exact key _ (fun j hj => hgr _ hf j hj)
  · obtain ⟨m, -, -, h3, h4⟩ := init_nonseq (he 0) (Or.inl hH) hP hs (some n)
    rw [h4] at h
    cases h
    refine key _ (fun j hj => hgr m h3 j ?_)
    have hj' : j < s.spoLen + (m - 0) := hj
    omega

theorem upd_list (s : St) : ∀ k i, (∀ j, i ≤ j → j < i + k → (s.ops j).isSome = true) →
    ∃ l, updLoop s k i = .val l ∧ l.length = k ∧ ∀ j, j < k → l[j]? = (s.ops (i + j)).map (·.id) := by
  intro k
  induction k with
  | zero => intro i _; exact ⟨[], rfl, rfl, fun j hj => by omega⟩
  | succ k ih =>
    intro i h
    obtain ⟨p, hp⟩ := Option.isSome_iff_exists.1 (h i (Nat.le_refl _) (by omega))
    obtain ⟨l, hl, hl1, hl2⟩ := ih (i + 1) (fun j h1 h2 => h j (by omega) (by omega))
    refine ⟨p.id :: l, by simp only [updLoop, hp, hl], by simp [hl1], ?_⟩
    intro j hj
    cases j with
    | zero => simp [hp]
    | succ j =>
      rw [List.getElem?_cons_succ, hl2 j (by omega)]
      congr 2
      omega

/-- **C314 (part: after success).**  A propagator that is set up tells every part that the time has changed, each once and
in the order of the letters. -/
theorem C314_ready_partial (s s' : St) (hu : Untouched s) (hP : Proper s.parts) (n : Nat)
    (h : init s (some n) = .ok s') :
    ∃ l, updateTime s' = .val l ∧ l.length = s.parts.length
      ∧ ∀ i, i < s.parts.length → ∃ p, HasPart s.parts i p ∧ l[i]? = some p.id := by
  rcases C312_partial s hu hP n with ⟨-, s1, h1, h2, h3, -⟩ | ⟨-, s1, h1⟩
  · rw [h] at h1
    cases h1
    obtain ⟨h4, ⟨_, -, -, h5⟩, -⟩ := h2
    rw [h3] at h4 h5
    obtain ⟨l, hl, hl1, hl2⟩ := upd_list s' s'.spoLen 0 (by
      intro j _ hj
      obtain ⟨p, -, hp, -⟩ := h5 j (by omega)
      rw [hp]; rfl)
    refine ⟨l, hl, by rw [hl1, h4], fun i hi => ?_⟩
    obtain ⟨p, hp1, hp2, -⟩ := h5 i hi
    refine ⟨p, hp1, ?_⟩
    rw [hl2 i (by omega), Nat.zero_add, hp2]
    rfl
  · rw [h] at h1; cases h1

/-- **C314 is false after the second refusal**: if there is a diagonal part A but a later part is missing or not diagonal,
or the clock is missing, then after two refused set-ups asking for the time update is undefined behaviour, and so is
asking whether a wave function is accepted if all parts accept it. -/
theorem C314_violated (s : St) (hu : Untouched s) (hP : Proper s.parts) (p : Part) (ha : HasPart s.parts 0 p)
    (hd : p.diag = true) (hbad : ¬ Sequence s.parts ∨ s.clock = none) (psi psi' : Option Nat) :
    ∃ s1 s2, init s psi = .threw s1 ∧ init s1 psi' = .threw s2
      ∧ updateTime s2 = .ub ∧ ∀ acc : Part → Bool, (∀ e, e ∈ s.parts → acc e.2 = true) → valid acc s2 = .ub := by
  obtain ⟨m, hm, hml, hf, h, hst⟩ := stuck_after hu hP ha hd hbad psi
  obtain ⟨hH, hl, ho, he, -⟩ := hu
  have hga : get s.parts (base 0) = some p := (get_iff hP.2 _ _).2 ha
  have h2 : init (grabbed s.parts 0 m (start s)) psi' = .threw
      { grabbed s.parts 0 m (start s) with
        ops := fun j => if j = 0 then some p else (grabbed s.parts 0 m (start s)).ops j
        spoLen := s.spoLen + (m - 0) + 1 } := by
    obtain ⟨k, hk⟩ : ∃ k, s.parts.length = k + 1 := ⟨s.parts.length - 1, by omega⟩
    obtain ⟨-, -, hh, hh1, hh2⟩ := hst
    have hadd : addH hh (base 0) p = none := by rw [addH, if_pos hh2]
    have hstart : start (grabbed s.parts 0 m (start s)) = grabbed s.parts 0 m (start s) := rfl
    have hpl : (grabbed s.parts 0 m (start s)).parts = s.parts := rfl
    have hsl : (grabbed s.parts 0 m (start s)).spoLen = s.spoLen + (m - 0) := rfl
    rw [init_grab (show (grabbed s.parts 0 m (start s)).exp 0 = 0 from he 0), hstart, hpl, hk]
    simp only [grab, hpl, hga, hd, hh1, hadd, Out.bind, hsl]
    simp
  have hnone : (if m = 0 then some p else (grabbed s.parts 0 m (start s)).ops m) = none := by
    rw [if_neg (by omega)]
    show (if 0 ≤ m ∧ m < m then get s.parts (base m) else (start s).ops m) = none
    rw [if_neg (by omega)]
    exact ho m
  refine ⟨_, _, h, h2, ?_, ?_⟩
  · exact upd_ub _ (m := m) hnone _ 0 (by omega) (by simp only [hl]; omega)
  · intro acc hacc
    refine valid_ub acc _ (m := m) hnone ?_ _ 0 (by omega) (by simp only [hl]; omega)
    intro j q hj hq
    have hq' : (if j = 0 then some p else
        if 0 ≤ j ∧ j < m then get s.parts (base j) else (start s).ops j) = some q := hq
    by_cases hj0 : j = 0
    · rw [if_pos hj0] at hq'
      cases hq'
      exact hacc _ ha
    · rw [if_neg hj0, if_pos (by omega)] at hq'
      exact hacc _ ((get_iff hP.2 _ _).1 hq')

/-! ### The hypotheses are met -/

/-- A part that can be set up with eight elements (used in the examples, `/repo/src/qdlib/OGSPO.cpp:76-84`). -/
def exPart (i : Nat) : Part := { id := i, diag := true, takes := fun n => n == 8 || n == 0 }

/-- Parts B and A, added in this order, and a clock (used in the examples, `/repo/src/qdlib/OGSPO.cpp:61-105`). -/
def exSt : St :=
  { St.new with
    parts := [(some [66], exPart 2), (some [65], exPart 1)]
    clock := some { id := 1, hasStep := true } }

theorem ex_untouched : Untouched exSt := ⟨rfl, rfl, fun _ => rfl, fun _ => rfl, rfl, rfl⟩

theorem ex_proper : Proper exSt.parts := ⟨by decide, by decide⟩

theorem ex_seq : Sequence exSt.parts := by
  intro i hi
  match i, hi with
  | 0, _ => exact ⟨exPart 1, List.mem_cons_of_mem _ List.mem_cons_self, rfl⟩
  | 1, _ => exact ⟨exPart 2, List.mem_cons_self, rfl⟩
  | i + 2, hi =>
    have h2 : i + 2 < 2 := hi
    omega

/-- The input is complete for eight elements and for none; the state comes from a history without a set-up; with seven
elements the parts refuse; without the clock, or with the part C instead of B, the set-up is refused early. -/
example : run [.add (some [66]) (exPart 2), .add (some [65]) (exPart 1), .clock { id := 1, hasStep := true }] St.new
    = some exSt := rfl

example : Complete exSt 8 ∧ Complete exSt 0 ∧ ¬ Takes exSt.parts 7 := by
  refine ⟨⟨List.cons_ne_nil _ _, ex_seq, ⟨_, rfl, rfl⟩, ?_⟩, ⟨List.cons_ne_nil _ _, ex_seq, ⟨_, rfl, rfl⟩, ?_⟩, ?_⟩
  · intro e he
    simp only [exSt, List.mem_cons, List.not_mem_nil, or_false] at he
    rcases he with rfl | rfl <;> rfl
  · intro e he
    simp only [exSt, List.mem_cons, List.not_mem_nil, or_false] at he
    rcases he with rfl | rfl <;> rfl
  · intro h
    exact absurd (h _ List.mem_cons_self) (by decide)

example : ∃ s', init exSt (some 8) = .ok s' ∧ s'.spoLen = 2 ∧ s'.exp 1 = 8 ∧ (s'.ops 0).map (·.id) = some 1
    ∧ init s' (some 9) = .ok s' := ⟨_, rfl, rfl, rfl, rfl, rfl⟩

example : Untouched { exSt with clock := none } ∧ Proper { exSt with clock := none }.parts
    ∧ HasPart { exSt with clock := none }.parts 0 (exPart 1) ∧ (exPart 1).diag = true :=
  ⟨ex_untouched, ex_proper, List.mem_cons_of_mem _ List.mem_cons_self, rfl⟩

example : ¬ Sequence [(some [65], exPart 1), (some [67], exPart 3)] := by
  intro h
  obtain ⟨p, hp, -⟩ := h 1 (by decide)
  simp [HasPart, Letter] at hp

end QDng.Gspo
