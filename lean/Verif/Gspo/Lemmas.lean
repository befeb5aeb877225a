import Verif.Gspo.Spec

/-!
Lemmas on the set-up of the split operator propagator.
-/

namespace QDng.Gspo

open QDng.Common

theorem base_letter (i : Nat) : base i = Letter i := rfl

theorem base_inj {i j : Nat} (hi : i < 128) (hj : j < 128) (h : base i = base j) : i = j := by
  simp only [base, List.cons.injEq, and_true] at h
  omega

/-- With distinct names looking a name up finds exactly the entry with this name. -/
theorem get_iff {l : List (Option Name × Part)} (hl : (l.filterMap (·.1)).Nodup) (n : Name) (p : Part) :
    get l n = some p ↔ (some n, p) ∈ l := by
  induction l with
  | nil => simp [get]
  | cons e l ih =>
    obtain ⟨a, q⟩ := e
    cases a with
    | none =>
      have h : get ((none, q) :: l) n = get l n := by simp [get]
      rw [h, ih (by simpa using hl)]
      simp
    | some m =>
      have hn : m ∉ l.filterMap (·.1) ∧ (l.filterMap (·.1)).Nodup := by simpa using hl
      by_cases hm : m = n
      · subst hm
        have h : get ((some m, q) :: l) m = some q := by simp [get]
        rw [h]
        constructor
        · intro h2
          cases h2
          exact List.mem_cons_self
        · intro h2
          rcases List.mem_cons.1 h2 with h3 | h3
          · cases h3; rfl
          · exact absurd (List.mem_filterMap (f := fun x : Option Name × Part => x.1).2 ⟨_, h3, rfl⟩) hn.1
      · have h : get ((some m, q) :: l) n = get l n := by simp [get, hm]
        rw [h, ih hn.2]
        constructor
        · exact fun h2 => List.mem_cons_of_mem _ h2
        · intro h2
          rcases List.mem_cons.1 h2 with h3 | h3
          · cases h3; exact absurd rfl hm
          · exact h3

/-- Part number `j` can be grabbed. -/
def Fit (P : List (Option Name × Part)) (j : Nat) : Prop := ∃ p, get P (base j) = some p ∧ p.diag = true

theorem sequence_iff {P : List (Option Name × Part)} (hP : Proper P) :
    Sequence P ↔ ∀ j, j < P.length → Fit P j := by
  constructor
  · intro h j hj
    obtain ⟨p, h1, h2⟩ := h j hj
    exact ⟨p, (get_iff hP.2 _ _).2 h1, h2⟩
  · intro h j hj
    obtain ⟨p, h1, h2⟩ := h j hj
    exact ⟨p, (get_iff hP.2 _ _).1 h1, h2⟩

/-- The members of the Hamiltonian after `m` rounds. -/
def upto (P : List (Option Name × Part)) : Nat → List (Name × Part)
  | 0 => []
  | m + 1 =>
    match get P (base m) with
    | none => upto P m
    | some p => upto P m ++ [(base m, p)]

theorem upto_succ {P : List (Option Name × Part)} {m : Nat} {p : Part} (h : get P (base m) = some p) :
    upto P (m + 1) = upto P m ++ [(base m, p)] := by
  simp only [upto, h]

theorem upto_len (P : List (Option Name × Part)) (m : Nat) : (upto P m).length ≤ m := by
  induction m with
  | zero => simp [upto]
  | succ m ih =>
    cases h : get P (base m) with
    | none => simp only [upto, h]; omega
    | some p => simp only [upto, h, List.length_append, List.length_singleton]; omega

theorem upto_mem {P : List (Option Name × Part)} {m : Nat} {e : Name × Part} (h : e ∈ upto P m) :
    ∃ j, j < m ∧ e.1 = base j ∧ get P (base j) = some e.2 := by
  induction m with
  | zero => simp [upto] at h
  | succ m ih =>
    cases hg : get P (base m) with
    | none =>
      simp only [upto, hg] at h
      obtain ⟨j, h1, h2⟩ := ih h
      exact ⟨j, by omega, h2⟩
    | some p =>
      rw [upto_succ hg] at h
      rcases List.mem_append.1 h with h | h
      · obtain ⟨j, h1, h2⟩ := ih h
        exact ⟨j, by omega, h2⟩
      · rw [List.mem_singleton] at h
        subst h
        exact ⟨m, by omega, rfl, hg⟩

theorem upto_fit {P : List (Option Name × Part)} {m : Nat} (h : ∀ j, j < m → Fit P j) :
    (upto P m).length = m
      ∧ ∀ j, j < m → ∃ p, get P (base j) = some p ∧ (upto P m)[j]? = some (base j, p) := by
  induction m with
  | zero => exact ⟨rfl, fun j hj => by omega⟩
  | succ m ih =>
    obtain ⟨h1, h2⟩ := ih (fun j hj => h j (by omega))
    obtain ⟨p, hp, -⟩ := h m (by omega)
    rw [upto_succ hp]
    refine ⟨by simp [h1], fun j hj => ?_⟩
    by_cases hjm : j = m
    · subst hjm
      refine ⟨p, hp, ?_⟩
      rw [List.getElem?_append_right (by omega), h1]
      simp
    · obtain ⟨q, hq, hq2⟩ := h2 j (by omega)
      refine ⟨q, hq, ?_⟩
      rw [List.getElem?_append_left (by omega)]
      exact hq2

theorem addH_upto {P : List (Option Name × Part)} {m : Nat} (hm : m < 128) {p : Part} (h : get P (base m) = some p) :
    addH (upto P m) (base m) p = some (upto P (m + 1)) := by
  have h1 : ¬ (((upto P m).any fun e => e.1 == base m) = true) := by
    intro hc
    obtain ⟨e, he, he2⟩ := List.any_eq_true.1 hc
    obtain ⟨j, hj, hj2, -⟩ := upto_mem he
    rw [hj2] at he2
    have h3 : j = m := base_inj (by omega) hm (eq_of_beq he2)
    omega
  have h2 : ¬ (128 ≤ (upto P m).length) := by
    have := upto_len P m
    omega
  rw [addH, if_neg h1, if_neg h2, upto_succ h]

/-- The state after the rounds `i … m-1` of the loop that grabs the operators. -/
def grabbed (P : List (Option Name × Part)) (i m : Nat) (s : St) : St :=
  { s with
    ops := fun j => if i ≤ j ∧ j < m then get P (base j) else s.ops j
    spoLen := s.spoLen + (m - i)
    H := some (upto P m) }

theorem grab_spec {P : List (Option Name × Part)} (hP : P.length ≤ 128) :
    ∀ k i s, i + k = P.length → s.parts = P → s.H = some (upto P i) →
      (∃ m, i ≤ m ∧ m < P.length ∧ ¬ Fit P m ∧ (∀ j, i ≤ j → j < m → Fit P j)
          ∧ grab k i s = .threw (grabbed P i m s))
        ∨ ((∀ j, i ≤ j → j < P.length → Fit P j) ∧ grab k i s = .ok (grabbed P i P.length s)) := by
  intro k
  induction k with
  | zero =>
    intro i s hi hp hH
    refine Or.inr ⟨fun j h1 h2 => by omega, ?_⟩
    have hi' : i = P.length := by omega
    subst hi'
    simp only [grab, grabbed]
    obtain ⟨a, b, c, d, e, f, g, h⟩ := s
    simp only at hH
    subst hH
    congr 2
    · funext j
      rw [if_neg (by omega)]
    · simp
  | succ k ih =>
    intro i s hi hp hH
    have hid : grabbed P i i s = s := by
      simp only [grabbed]
      obtain ⟨a, b, c, d, e, f, g, h⟩ := s
      simp only at hH
      subst hH
      congr 1
      · funext j
        rw [if_neg (by omega)]
      · simp
    cases hg : get P (base i) with
    | none =>
      refine Or.inl ⟨i, Nat.le_refl _, by omega, ?_, fun j h1 h2 => by omega, ?_⟩
      · rintro ⟨p, h1, -⟩
        rw [hg] at h1
        cases h1
      · rw [hid]
        simp only [grab, hp, hg]
    | some p =>
      cases hd : p.diag with
      | false =>
        refine Or.inl ⟨i, Nat.le_refl _, by omega, ?_, fun j h1 h2 => by omega, ?_⟩
        · rintro ⟨q, h1, h2⟩
          rw [hg] at h1
          cases h1
          rw [hd] at h2
          cases h2
        · rw [hid]
          simp only [grab, hp, hg, hd, if_true]
      | true =>
        have hstep : grab (k + 1) i s = grab k (i + 1)
            { s with
              ops := fun j => if j = i then some p else s.ops j
              spoLen := s.spoLen + 1
              H := some (upto P (i + 1)) } := by
          simp only [grab, hp, hg, hd, hH, addH_upto (show i < 128 by omega) hg]
          simp
        have hgr : ∀ m, i + 1 ≤ m → grabbed P (i + 1) m
            { s with
              ops := fun j => if j = i then some p else s.ops j
              spoLen := s.spoLen + 1
              H := some (upto P (i + 1)) } = grabbed P i m s := by
          intro m hm
          simp only [grabbed]
          congr 1
          · funext j
            by_cases hj : j = i
            · subst hj
              rw [if_neg (by omega), if_pos rfl, if_pos (by omega), hg]
            · rw [if_neg hj]
              by_cases hj2 : i ≤ j ∧ j < m
              · rw [if_pos (by omega), if_pos hj2]
              · rw [if_neg (by omega), if_neg hj2]
          · omega
        have hfit : Fit P i := ⟨p, hg, hd⟩
        rcases ih (i + 1)
            { s with
              ops := fun j => if j = i then some p else s.ops j
              spoLen := s.spoLen + 1
              H := some (upto P (i + 1)) } (by omega) hp rfl with ⟨m, h1, h2, h3, h4, h5⟩ | ⟨h1, h2⟩
        · refine Or.inl ⟨m, by omega, h2, h3, ?_, ?_⟩
          · intro j hj1 hj2
            by_cases hj : j = i
            · subst hj; exact hfit
            · exact h4 j (by omega) hj2
          · rw [hstep, h5, hgr m h1]
        · refine Or.inr ⟨?_, ?_⟩
          · intro j hj1 hj2
            by_cases hj : j = i
            · subst hj; exact hfit
            · exact h1 j (by omega) hj2
          · rw [hstep, h2, hgr _ (by omega)]

/-- The state after the rounds `i … m-1` of the loop that sizes the storage. -/
def sized (n i m : Nat) (s : St) : St :=
  { s with exp := fun j => if i ≤ j ∧ j < m then n else s.exp j }

theorem sizes_ok (n : Nat) : ∀ k i s, (∀ j, i ≤ j → j < i + k → (s.ops j).isSome = true) →
    sizes (some n) k i s = .ok (sized n i (i + k) s) := by
  intro k
  induction k with
  | zero =>
    intro i s _
    obtain ⟨a, b, c, d, e, f, g, h⟩ := s
    simp only [sizes, sized]
    congr 2
    funext j
    rw [if_neg (by omega)]
  | succ k ih =>
    intro i s h
    obtain ⟨p, hp⟩ := Option.isSome_iff_exists.1 (h i (Nat.le_refl _) (by omega))
    simp only [sizes, hp]
    rw [ih (i + 1) { s with exp := fun j => if j = i then n else s.exp j } (fun j h1 h2 => h j (by omega) (by omega))]
    simp only [sized]
    congr 2
    funext j
    by_cases hj : j = i
    · subst hj
      rw [if_neg (by omega), if_pos rfl, if_pos (by omega)]
    · rw [if_neg hj]
      by_cases hj2 : i ≤ j ∧ j < i + (k + 1)
      · rw [if_pos (by omega), if_pos hj2]
      · rw [if_neg (by omega), if_neg hj2]

theorem initAll_iff (n : Nat) (l : List Part) : initAll n l = true ↔ ∀ p, p ∈ l → p.takes n = true := by
  induction l with
  | nil => simp [initAll]
  | cons p l ih =>
    simp only [initAll]
    cases h : p.takes n with
    | false => simp [h]
    | true => simp [h, ih]

/-- The members of the Hamiltonian can be set up if the parts can. -/
theorem initAll_upto {P : List (Option Name × Part)} (hP : Proper P) {n m : Nat} (h : Takes P n) :
    initAll n ((upto P m).map (·.2)) = true := by
  rw [initAll_iff]
  intro p hp
  obtain ⟨e, he, rfl⟩ := List.mem_map.1 hp
  obtain ⟨j, -, -, hj⟩ := upto_mem he
  exact h _ ((get_iff hP.2 _ _).1 hj)

theorem takes_iff (P : List (Option Name × Part)) (n : Nat) :
    initAll n (P.map (·.2)) = true ↔ Takes P n := by
  rw [initAll_iff]
  constructor
  · intro h e he
    exact h _ (List.mem_map.2 ⟨e, he, rfl⟩)
  · intro h p hp
    obtain ⟨e, he, rfl⟩ := List.mem_map.1 hp
    exact h e he

/-- The loop that grabs the operators, started by the set-up. -/
def start (s : St) : St := { s with H := some (s.H.getD []) }

theorem init_grab {s : St} (h0 : s.exp 0 = 0) (psi : Option Nat) :
    init s psi = (grab s.parts.length 0 (start s)).bind fun s1 =>
      if s1.clock.isNone = true then .threw { s1 with spoLen := s1.parts.length }
      else if s1.parts.length < 1 then .threw { s1 with spoLen := s1.parts.length }
      else (sizes psi s1.parts.length 0 { s1 with spoLen := s1.parts.length }).bind (finish psi) := by
  rw [init, if_neg (by omega)]
  rfl

/-- The set-up of a propagator whose parts are in order and which has a clock, up to the storage. -/
theorem init_seq {s : St} (h0 : s.exp 0 = 0) (hH : s.H = none ∨ s.H = some []) (hP : Proper s.parts)
    (hs : Sequence s.parts) (hc : s.clock.isSome = true) (hne : s.parts ≠ []) (n : Nat) :
    init s (some n) = finish (some n) (sized n 0 s.parts.length
      { grabbed s.parts 0 s.parts.length (start s) with spoLen := s.parts.length }) := by
  have hst : (start s).H = some (upto s.parts 0) := by
    rcases hH with hH | hH <;> simp [start, hH, upto]
  have hlen : ¬ s.parts.length < 1 := by
    cases h : s.parts with
    | nil => exact absurd h hne
    | cons _ _ => simp
  rw [init_grab h0]
  rcases grab_spec hP.1 s.parts.length 0 (start s) (by omega) rfl hst with ⟨m, h1, h2, h3, -⟩ | ⟨hf, h2⟩
  · exact absurd ((sequence_iff hP).1 hs m h2) h3
  · rw [h2]
    simp only [Out.bind]
    have hcl : (grabbed s.parts 0 s.parts.length (start s)).clock = s.clock := rfl
    have hpl : (grabbed s.parts 0 s.parts.length (start s)).parts = s.parts := rfl
    rw [hcl, hpl, if_neg (by cases h : s.clock <;> simp_all), if_neg hlen]
    rw [sizes_ok]
    · simp only [Nat.zero_add]
    · intro j _ hj
      have hj' : j < s.parts.length := by omega
      obtain ⟨p, hp, -⟩ := hf j (by omega) hj'
      have h : (grabbed s.parts 0 s.parts.length (start s)).ops j = some p := by
        simp only [grabbed]
        rw [if_pos (by omega), hp]
      simp only [h, Option.isSome_some]

/-- The set-up of a propagator whose parts are not in order. -/
theorem init_nonseq {s : St} (h0 : s.exp 0 = 0) (hH : s.H = none ∨ s.H = some []) (hP : Proper s.parts)
    (hs : ¬ Sequence s.parts) (psi : Option Nat) :
    ∃ m, m < s.parts.length ∧ ¬ Fit s.parts m ∧ (∀ j, j < m → Fit s.parts j)
      ∧ init s psi = .threw (grabbed s.parts 0 m (start s)) := by
  have hst : (start s).H = some (upto s.parts 0) := by
    rcases hH with hH | hH <;> simp [start, hH, upto]
  rw [init_grab h0]
  rcases grab_spec hP.1 s.parts.length 0 (start s) (by omega) rfl hst with ⟨m, h1, h2, h3, h4, h5⟩ | ⟨hf, h2⟩
  · refine ⟨m, h2, h3, fun j hj => h4 j (by omega) hj, ?_⟩
    rw [h5]
    rfl
  · exact absurd ((sequence_iff hP).2 (fun j hj => hf j (by omega) hj)) hs

/-- The set-up of a propagator whose parts are in order without a clock or without parts. -/
theorem init_noclock {s : St} (h0 : s.exp 0 = 0) (hH : s.H = none ∨ s.H = some []) (hP : Proper s.parts)
    (hs : Sequence s.parts) (hc : s.clock = none ∨ s.parts = []) (psi : Option Nat) :
    init s psi = .threw { grabbed s.parts 0 s.parts.length (start s) with spoLen := s.parts.length } := by
  have hst : (start s).H = some (upto s.parts 0) := by
    rcases hH with hH | hH <;> simp [start, hH, upto]
  rw [init_grab h0]
  rcases grab_spec hP.1 s.parts.length 0 (start s) (by omega) rfl hst with ⟨m, h1, h2, h3, -⟩ | ⟨hf, h2⟩
  · exact absurd ((sequence_iff hP).1 hs m h2) h3
  · rw [h2]
    simp only [Out.bind]
    have hcl : (grabbed s.parts 0 s.parts.length (start s)).clock = s.clock := rfl
    have hpl : (grabbed s.parts 0 s.parts.length (start s)).parts = s.parts := rfl
    rw [hcl, hpl]
    by_cases h : s.clock.isNone = true
    · rw [if_pos h]
    · rw [if_neg h]
      rcases hc with hc | hc
      · rw [hc] at h; exact absurd rfl h
      · rw [if_pos (by rw [hc]; decide)]

/-- Once the Hamiltonian has a part A and the storage has no size, every set-up is refused. -/
def Stuck (s : St) : Prop :=
  s.parts ≠ [] ∧ s.exp 0 = 0 ∧ ∃ h, s.H = some h ∧ (h.any fun e => e.1 == base 0) = true

theorem stuck_init {s : St} (hs : Stuck s) (psi : Option Nat) :
    ∃ s', init s psi = .threw s' ∧ Stuck s' := by
  obtain ⟨h1, h2, h, h3, h4⟩ := hs
  obtain ⟨k, hk⟩ : ∃ k, s.parts.length = k + 1 := by
    cases hp : s.parts with
    | nil => exact absurd hp h1
    | cons e l => exact ⟨l.length, rfl⟩
  have hstart : start s = s := by
    obtain ⟨a, b, c, d, e, f, g, i⟩ := s
    simp only at h3
    subst h3
    rfl
  rw [init_grab h2, hstart, hk]
  cases hg : get s.parts (base 0) with
  | none =>
    refine ⟨s, ?_, h1, h2, h, h3, h4⟩
    simp only [grab, hg, Out.bind]
  | some p =>
    cases hd : p.diag with
    | false =>
      refine ⟨s, ?_, h1, h2, h, h3, h4⟩
      simp only [grab, hg, hd, if_true, Out.bind]
    | true =>
      have ha : addH h (base 0) p = none := by rw [addH, if_pos h4]
      refine ⟨{ s with ops := fun j => if j = 0 then some p else s.ops j, spoLen := s.spoLen + 1 }, ?_,
        h1, h2, h, h3, h4⟩
      simp only [grab, hg, hd, h3, ha, Out.bind]
      simp

theorem stuck_run : ∀ (l : List Ev) (s : St), Stuck s → ∃ s', run l s = some s' ∧ Stuck s' := by
  intro l
  induction l with
  | nil => exact fun s hs => ⟨s, rfl, hs⟩
  | cons e l ih =>
    intro s hs
    cases e with
    | add n p =>
      have h : ∃ s1, after (add s n p) = some s1 ∧ Stuck s1 := by
        rw [add]
        split
        · exact ⟨s, rfl, hs⟩
        · split
          · exact ⟨s, rfl, hs⟩
          · exact ⟨_, rfl, by simp, hs.2.1, hs.2.2⟩
      obtain ⟨s1, h1, h2⟩ := h
      obtain ⟨s2, h3, h4⟩ := ih s1 h2
      refine ⟨s2, ?_, h4⟩
      simp only [run, h1, h3]
    | clock c =>
      obtain ⟨s2, h3, h4⟩ := ih { s with clock := some c } ⟨hs.1, hs.2.1, hs.2.2⟩
      refine ⟨s2, ?_, h4⟩
      simp only [run, setClock, after, h3]
    | init psi =>
      obtain ⟨s1, h1, h2⟩ := stuck_init hs psi
      obtain ⟨s2, h3, h4⟩ := ih s1 h2
      refine ⟨s2, ?_, h4⟩
      simp only [run, h1, after, h3]

/-- Every list a program can make is proper. -/
theorem add_proper {s s' : St} {n : Option Name} {p : Part} (h : Proper s.parts) (ha : add s n p = .ok s') :
    Proper s'.parts := by
  rw [add] at ha
  split at ha
  · cases ha
  · rename_i h1
    split at ha
    · cases ha
    · rename_i h2
      cases ha
      refine ⟨by simp; omega, ?_⟩
      simp only [List.filterMap_append]
      cases n with
      | none => simpa using h.2
      | some a =>
        simp only [List.filterMap_cons, List.filterMap_nil]
        rw [List.nodup_append]
        refine ⟨h.2, by simp, ?_⟩
        intro x hx y hy hxy
        rw [List.mem_singleton] at hy
        subst hy
        subst hxy
        obtain ⟨e, he, he2⟩ := List.mem_filterMap.1 hx
        apply h1
        simp only [Option.isSome_some, Bool.true_and]
        exact List.any_eq_true.2 ⟨e, he, by rw [he2]; simp⟩

end QDng.Gspo
