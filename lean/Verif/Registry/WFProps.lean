import Verif.Registry.OpProps
import Verif.Collector.Props

/-
C42: the registry of wave functions never leaves a dangling entry.
-/

namespace QDng.Registry

open QDng.Common

/-! ### Specification -/

/-- The references to a wave function held outside of the registry. -/
def outsideStep (p : Nat) (n : Nat) : WCall → Nat
  | .retain q => if q = p then n + 1 else n
  | .release q => if q = p then n - 1 else n
  | _ => n

/-- The references held outside of the registry after a sequence of calls. -/
def outside (p : Nat) (l : List WCall) : Nat := l.foldl (outsideStep p) 0

/-- Callers keep the rules: they own a reference to wave functions they hand over or release, set no key to nothing, and
use no keys that look like generated ones. -/
def Fair (held : Nat → Nat) : WCall → Prop
  | .add k p _ => ¬ ['_', '_'] <+: k ∧ (p ≠ 0 → 0 < held p)
  | .set k p => ¬ ['_', '_'] <+: k ∧ p ≠ 0 ∧ 0 < held p
  | .clear => True
  | .retain p => p ≠ 0
  | .release p => p ≠ 0 ∧ 0 < held p

/-- All calls keep the rules at the time they are made. -/
def AllFair (l : List WCall) : Prop := ∀ a c b, l = a ++ c :: b → Fair (fun p => outside p a) c

/-! ### Invariant -/

/-- Entries that refer to a wave function. -/
def holders (p : Nat) (m : OMap Str WFEntry) : Nat := m.countP fun q => decide (q.2.wf = p)

/-- The counters are the references held outside and in the registry. -/
structure WFs.Inv (s : WFs) (held : Nat → Nat) : Prop where
  sorted : OMap.Sorted s.store
  keys : ∀ k e, s.store.find k = some e → ¬ ['_', '_'] <+: k ∨ ∃ nm i, i < s.anon ∧ k = anonKey nm i
  life : ∃ reqs, s.coll = Collector.run reqs ∧
    ∀ p, p ≠ 0 → (Collector.life p reqs).open_ = held p + holders p s.store
  notNull : ∀ k e, s.store.find k = some e → e.wf ≠ 0

theorem run_register (reqs : List Collector.Req) (p : Nat) :
    (Collector.run reqs).register p = Collector.run (reqs ++ [.register p]) := by
  unfold Collector.run
  rw [List.foldl_append]
  rfl

theorem run_delete (reqs : List Collector.Req) (p : Nat) :
    (Collector.run reqs).delete p = Collector.run (reqs ++ [.delete p]) := by
  unfold Collector.run
  rw [List.foldl_append]
  rfl

theorem life_register (reqs : List Collector.Req) (p q : Nat) :
    (Collector.life p (reqs ++ [.register q])).open_ = (Collector.life p reqs).open_ + (if q = p then 1 else 0) := by
  unfold Collector.life
  rw [List.foldl_append]
  show (Collector.Life.step p _ (.register q)).open_ = _
  unfold Collector.Life.step
  dsimp only
  split_ifs <;> rfl

theorem life_delete (reqs : List Collector.Req) (p q : Nat) :
    (Collector.life p (reqs ++ [.delete q])).open_ = (Collector.life p reqs).open_ - (if q = p then 1 else 0) := by
  unfold Collector.life
  rw [List.foldl_append]
  show (Collector.Life.step p (List.foldl (Collector.Life.step p) _ reqs) (.delete q)).open_ = _
  generalize List.foldl (Collector.Life.step p) _ reqs = L
  unfold Collector.Life.step
  dsimp only
  split_ifs with h1 h2 h3
  · omega
  · dsimp only
    omega
  · rfl
  · rfl

theorem holders_insert_new (p : Nat) {m : OMap Str WFEntry} (h : OMap.Sorted m) (k : Str) (v : WFEntry)
    (hk : m.find k = none) : holders p (m.insert k v) = holders p m + (if v.wf = p then 1 else 0) := by
  have := countP_insert (fun e : WFEntry => decide (e.wf = p)) k v h
  rw [hk] at this
  unfold holders
  split_ifs with hv
  · simpa [hv] using this
  · simpa [hv] using this

theorem holders_insert_old (p : Nat) {m : OMap Str WFEntry} (h : OMap.Sorted m) (k : Str) (v w : WFEntry)
    (hk : m.find k = some w) :
    holders p (m.insert k v) + (if w.wf = p then 1 else 0) = holders p m + (if v.wf = p then 1 else 0) := by
  have := countP_insert (fun e : WFEntry => decide (e.wf = p)) k v h
  rw [hk] at this
  unfold holders
  split_ifs with hv hw
  · simpa [hv, hw] using this
  · simpa [hv, hw] using this
  · simp_all
  · simp_all

theorem holders_pos (p : Nat) (m : OMap Str WFEntry) (k : Str) (e : WFEntry) (h : m.find k = some e) (he : e.wf = p) :
    0 < holders p m := by
  unfold holders
  rw [List.countP_pos_iff]
  exact ⟨(k, e), OMap.find_mem h, by simpa using he⟩

theorem inv_put_wf {s : WFs} {held : Nat → Nat} (h : s.Inv held) (k : Str) (wf : Nat) (persist : Bool)
    (hk : s.store.find k = none) (hwf : wf ≠ 0) (n : Nat) (hn : s.anon ≤ n)
    (hkey : ¬ ['_', '_'] <+: k ∨ ∃ nm i, i < n ∧ k = anonKey nm i) :
    ({ s.put k wf persist with anon := n } : WFs).Inv held := by
  obtain ⟨reqs, hr, hl⟩ := h.life
  refine ⟨OMap.sorted_insert h.sorted, ?_, ⟨reqs ++ [.register wf], ?_, ?_⟩, ?_⟩
  · intro k' e he
    have he' : OMap.find k' (OMap.insert k _ s.store) = some e := he
    rw [OMap.find_insert] at he'
    split_ifs at he' with hh
    · rw [hh]; exact hkey
    · rcases h.keys k' e he' with h1 | ⟨nm, i, h1, h2⟩
      · exact Or.inl h1
      · exact Or.inr ⟨nm, i, Nat.lt_of_lt_of_le h1 hn, h2⟩
  · show s.coll.register wf = _
    rw [hr, run_register]
  · intro p hp
    show _ = _ + holders p (OMap.insert k _ s.store)
    rw [life_register, hl p hp, holders_insert_new p h.sorted k _ hk]
    dsimp only
    omega
  · intro k' e he
    have he' : OMap.find k' (OMap.insert k _ s.store) = some e := he
    rw [OMap.find_insert] at he'
    split_ifs at he' with hh
    · cases he'; exact hwf
    · exact h.notNull k' e he'

theorem inv_add_wf {name : Nat → Str} {s : WFs} {held : Nat → Nat} (h : s.Inv held) (k : Str) (p : Nat) (persist : Bool)
    (hk : ¬ ['_', '_'] <+: k) : (s.add name k p persist).1.Inv held := by
  unfold WFs.add
  split_ifs with h1 h2 h3
  · exact h
  · exact h
  · refine inv_put_wf h _ p persist ?_ h2 (s.anon + 1) (Nat.le_succ _) (Or.inr ⟨_, _, Nat.lt_succ_self _, rfl⟩)
    cases hf : s.store.find (anonKey (name p) s.anon) with
    | none => rfl
    | some e =>
      rcases h.keys _ e hf with h4 | ⟨nm, i, h4, h5⟩
      · exact absurd (anonKey_prefix _ _) h4
      · have := anonKey_inj h5
        omega
  · refine inv_put_wf h k p persist ?_ h2 s.anon (le_refl _) (Or.inl hk)
    cases hf : s.store.find k with
    | none => rfl
    | some e => rw [hf] at h1; exact absurd rfl h1

theorem clear_store_wf {s : WFs} (h : OMap.Sorted s.store) : s.clear.store = s.store.filter (fun p => p.2.persist) ∧
    s.clear.coll = ((s.store.filter fun p => !p.2.persist).map fun p => p.2.wf).foldl (fun c q => c.delete q) s.coll := by
  unfold WFs.clear
  dsimp only
  rw [clearLoop_eq _ _ _ _ _ h (by have := List.length_filter_le (fun p : Str × WFEntry => !p.2.persist) s.store; omega)]
  exact ⟨rfl, rfl⟩

/-- Giving back a list of references. -/
theorem foldl_delete (l : List Nat) : ∀ reqs, ∃ reqs',
    l.foldl (fun c q => c.delete q) (Collector.run reqs) = Collector.run reqs' ∧
    ∀ p, (Collector.life p reqs').open_ = (Collector.life p reqs).open_ - l.count p := by
  induction l with
  | nil => intro reqs; exact ⟨reqs, rfl, fun p => by simp⟩
  | cons q l ih =>
    intro reqs
    obtain ⟨reqs', h1, h2⟩ := ih (reqs ++ [.delete q])
    refine ⟨reqs', ?_, ?_⟩
    · rw [List.foldl_cons, run_delete, h1]
    · intro p
      rw [h2, life_delete, List.count_cons]
      by_cases hq : q = p
      · rw [if_pos hq, if_pos (by simpa using hq)]
        omega
      · rw [if_neg hq, if_neg (by simpa using hq)]
        omega

theorem holders_filter (p : Nat) (m : OMap Str WFEntry) :
    holders p m = holders p (m.filter fun q => q.2.persist) +
      ((m.filter fun q => !q.2.persist).map fun q => q.2.wf).count p := by
  unfold holders
  induction m with
  | nil => rfl
  | cons q r ih =>
    cases hp : q.2.persist
    · rw [List.filter_cons_of_neg (by simp [hp]), List.filter_cons_of_pos (by simp [hp]), List.map_cons,
        List.count_cons, List.countP_cons, ih]
      by_cases hq : q.2.wf = p
      · simp only [hq]; simp; omega
      · simp [hq]
    · rw [List.filter_cons_of_pos (by simp [hp]), List.filter_cons_of_neg (by simp [hp]), List.countP_cons,
        List.countP_cons, ih]
      omega

theorem inv_step_wf {name : Nat → Str} {s : WFs} {a : List WCall} (h : s.Inv fun p => outside p a) (c : WCall)
    (hc : Fair (fun p => outside p a) c) : (s.step name c).1.Inv fun p => outside p (a ++ [c]) := by
  have hout : ∀ p, outside p (a ++ [c]) = outsideStep p (outside p a) c := by
    intro p
    unfold outside
    rw [List.foldl_append]
    rfl
  have hfun : (fun p => outside p (a ++ [c])) = fun p => outsideStep p (outside p a) c := funext hout
  rw [hfun]
  obtain ⟨reqs, hr, hl⟩ := h.life
  cases c with
  | add k p persist => exact inv_add_wf h k p persist hc.1
  | set k wf =>
    show (s.set name k wf).1.Inv fun p => outside p a
    unfold WFs.set
    split
    · exact inv_add_wf h k wf true hc.1
    · rename_i e he
      have hwf : wf ≠ 0 := hc.2.1
      have hheld : 0 < outside wf a := hc.2.2
      refine ⟨OMap.sorted_insert h.sorted, ?_, ⟨reqs ++ [.delete e.wf] ++ [.register wf], ?_, ?_⟩, ?_⟩
      · intro k' e' he'
        have he' : OMap.find k' (OMap.insert k _ s.store) = some e' := he'
        rw [OMap.find_insert] at he'
        split_ifs at he' with hh
        · rw [hh]; exact h.keys k e he
        · exact h.keys k' e' he'
      · show (s.coll.delete e.wf).register wf = _
        rw [hr, run_delete, run_register]
      · intro p hp
        show _ = _ + holders p (OMap.insert k _ s.store)
        have hold := holders_insert_old p h.sorted k { e with wf := wf } e he
        have hpos := holders_pos p s.store k e he
        dsimp only at hold
        rw [life_register, life_delete, hl p hp]
        split_ifs at hold ⊢ with h1 h2 h3
        · have := hpos h1
          omega
        · have := hpos h1
          omega
        · omega
        · omega
      · intro k' e' he'
        have he' : OMap.find k' (OMap.insert k _ s.store) = some e' := he'
        rw [OMap.find_insert] at he'
        split_ifs at he' with hh
        · cases he'; exact hwf
        · exact h.notNull k' e' he'
  | clear =>
    obtain ⟨h1, h2⟩ := clear_store_wf h.sorted
    obtain ⟨reqs', h3, h4⟩ := foldl_delete ((s.store.filter fun p => !p.2.persist).map fun p => p.2.wf) reqs
    have hsub : ∀ k e, s.clear.store.find k = some e → s.store.find k = some e := by
      intro k e he
      rw [h1, find_filter _ h.sorted] at he
      cases hf : s.store.find k with
      | none => rw [hf] at he; cases he
      | some e' =>
        rw [hf] at he
        cases hp : e'.persist
        · simp [Option.filter, hp] at he
        · simp only [Option.filter, hp, if_true] at he
          exact he
    refine ⟨?_, ?_, ⟨reqs', ?_, ?_⟩, ?_⟩
    · show OMap.Sorted s.clear.store
      rw [h1]
      exact sorted_filter _ h.sorted
    · intro k e he
      exact h.keys k e (hsub k e he)
    · show s.clear.coll = _
      rw [h2, hr, h3]
    · intro p hp
      show _ = _ + holders p s.clear.store
      rw [h1, h4, hl p hp]
      have := holders_filter p s.store
      show _ = outside p a + _
      omega
    · intro k e he
      exact h.notNull k e (hsub k e he)
  | retain q =>
    refine ⟨h.sorted, h.keys, ⟨reqs ++ [.register q], ?_, ?_⟩, h.notNull⟩
    · show s.coll.register q = _
      rw [hr, run_register]
    · intro p hp
      rw [life_register, hl p hp]
      show _ = (if q = p then outside p a + 1 else outside p a) + holders p s.store
      split_ifs <;> omega
  | release q =>
    have hheld : 0 < outside q a := hc.2
    refine ⟨h.sorted, h.keys, ⟨reqs ++ [.delete q], ?_, ?_⟩, h.notNull⟩
    · show s.coll.delete q = _
      rw [hr, run_delete]
    · intro p hp
      rw [life_delete, hl p hp]
      show _ = (if q = p then outside p a - 1 else outside p a) + holders p s.store
      split_ifs with hq
      · subst hq
        omega
      · omega

theorem inv_run_wf (name : Nat → Str) : ∀ (l a : List WCall) (s : WFs), (s.Inv fun p => outside p a) →
    (∀ x c y, l = x ++ c :: y → Fair (fun p => outside p (a ++ x)) c) →
    (s.run name l).Inv fun p => outside p (a ++ l) := by
  intro l
  induction l with
  | nil => intro a s h _; rw [List.append_nil]; exact h
  | cons c l ih =>
    intro a s h hf
    have h1 := inv_step_wf (name := name) h c (by have := hf [] c l rfl; rwa [List.append_nil] at this)
    have h2 := ih (a ++ [c]) (s.step name c).1 h1 (by
      intro x d y hxy
      have := hf (c :: x) d y (by rw [hxy]; rfl)
      rwa [List.append_cons] at this)
    rw [List.append_assoc] at h2
    exact h2

/-! ### C42 -/

/-- C42: if the callers keep the rules, every key gives a wave function that is alive, and a wave function is alive
exactly as long as a key or a caller refers to it.  Missing: callers that break the rules in ways the registry could
cope with, see the theorems below. -/
theorem C42_alive_partial (name : Nat → Str) (l : List WCall) (hl : AllFair l) :
    let s := (WFs.start Collector.State.init).run name l
    (∀ k p, s.get k = .val p → p ≠ 0 ∧ s.coll.isAllocated p = true) ∧
    (∀ p, p ≠ 0 → (s.coll.isAllocated p = true ↔ 0 < outside p l ∨ ∃ k, s.get k = .val p)) := by
  intro s
  have h : s.Inv fun p => outside p l := by
    have := inv_run_wf name l [] (WFs.start Collector.State.init)
      ⟨OMap.sorted_nil, fun k e he => by (cases he), ⟨[], rfl, fun p _ => rfl⟩, fun k e he => by (cases he)⟩ hl
    exact this
  obtain ⟨reqs, hr, hlife⟩ := h.life
  have halloc : ∀ p, p ≠ 0 → (s.coll.isAllocated p = true ↔ 0 < outside p l + holders p s.store) := by
    intro p hp
    rw [← hlife p hp, hr]
    have hag := Collector.agree_run reqs
    unfold Collector.State.isAllocated
    rw [Collector.find_isSome]
    constructor
    · intro hx
      obtain ⟨e, he, hep⟩ := List.mem_map.1 hx
      have := (hag.mem e he).2.2
      rw [hep] at this
      exact this
    · exact hag.alive p hp
  have hget : ∀ k p, s.get k = .val p ↔ ∃ e, s.store.find k = some e ∧ e.wf = p := by
    intro k p
    unfold WFs.get
    cases hf : s.store.find k with
    | none => simp
    | some e => simp
  constructor
  · intro k p hk
    obtain ⟨e, he, hep⟩ := (hget k p).1 hk
    have hp : p ≠ 0 := hep ▸ h.notNull k e he
    refine ⟨hp, (halloc p hp).2 ?_⟩
    have := holders_pos p s.store k e he hep
    omega
  · intro p hp
    rw [halloc p hp]
    constructor
    · intro hpos
      by_cases ho : 0 < outside p l
      · exact Or.inl ho
      · right
        have hh : 0 < holders p s.store := by omega
        unfold holders at hh
        rw [List.countP_pos_iff] at hh
        obtain ⟨⟨k, e⟩, hm, he⟩ := hh
        exact ⟨k, (hget k p).2 ⟨e, (OMap.find_eq_some_iff h.sorted k e).2 hm, by simpa using he⟩⟩
    · rintro (ho | ⟨k, hk⟩)
      · omega
      · obtain ⟨e, he, hep⟩ := (hget k p).1 hk
        have := holders_pos p s.store k e he hep
        omega

/-- A history that keeps the rules: a wave function is created, registered and released by its creator; then replaced. -/
example : AllFair [.retain 1, .set ['A'] 1, .release 1, .retain 2, .set ['A'] 2, .clear] := by
  intro a c b h
  have key : ∀ (l : List WCall) (a : List WCall), (a ++ c :: b) = l → c = l[a.length]?.getD .clear ∧ a = l.take a.length := by
    intro l a h
    subst h
    refine ⟨by simp, by simp⟩
  obtain ⟨h1, h2⟩ := key _ a h.symm
  have hlen : a.length < 6 := by
    have := congrArg List.length h
    simp at this
    omega
  rw [h1, h2]
  have : a.length = 0 ∨ a.length = 1 ∨ a.length = 2 ∨ a.length = 3 ∨ a.length = 4 ∨ a.length = 5 := by omega
  rcases this with h | h | h | h | h | h <;> rw [h]
  · show (1 : Nat) ≠ 0
    decide
  · exact ⟨by decide, by decide, by decide⟩
  · exact ⟨by decide, by decide⟩
  · show (2 : Nat) ≠ 0
    decide
  · exact ⟨by decide, by decide, by decide⟩
  · trivial

/-- C42: registering under an existing key, or nothing, is rejected without effect. -/
theorem C42_add_rejected (name : Nat → Str) (s : WFs) (k : Str) (p : Nat) (persist : Bool)
    (h : (∃ q, s.get k = .val q) ∨ p = 0) : s.add name k p persist = (s, .threw) := by
  unfold WFs.add
  split_ifs with h1 h2 h3
  · rfl
  · rfl
  all_goals
    exfalso
    rcases h with ⟨q, h⟩ | h
    · unfold WFs.get at h
      cases hf : OMap.find k s.store with
      | none => rw [hf] at h; cases h
      | some e => rw [hf] at h1; exact h1 rfl
    · exact h2 h

/-- C42: setting a key gives this wave function under the key and leaves all other keys. -/
theorem C42_set (name : Nat → Str) (s : WFs) (k : Str) (p : Nat) (hp : p ≠ 0) (hk : cstr k ≠ []) :
    (s.set name k p).2 = .done ∧ (s.set name k p).1.get k = .val p ∧
    ∀ k', k' ≠ k → (s.set name k p).1.get k' = s.get k' := by
  unfold WFs.set
  cases hf : s.store.find k with
  | none =>
    have hadd : s.add name k p true = (s.put k p true, .done) := by
      unfold WFs.add
      have : (cstr k).length ≠ 0 := fun hh => hk (List.length_eq_zero_iff.1 hh)
      rw [hf, if_neg (by simp), if_neg hp, if_neg (by omega)]
    dsimp only
    rw [hadd]
    refine ⟨rfl, ?_, ?_⟩
    · unfold WFs.get WFs.put
      dsimp only
      rw [OMap.find_insert, if_pos rfl]
    · intro k' hk'
      unfold WFs.get WFs.put
      dsimp only
      rw [OMap.find_insert, if_neg hk']
  | some e =>
    dsimp only
    refine ⟨rfl, ?_, ?_⟩
    · unfold WFs.get
      dsimp only
      rw [OMap.find_insert, if_pos rfl]
    · intro k' hk'
      unfold WFs.get
      dsimp only
      rw [OMap.find_insert, if_neg hk']

/-- C42: clearing removes exactly the entries that are not persistent. -/
theorem C42_clear (name : Nat → Str) (l : List WCall) (hl : AllFair l) :
    let s := (WFs.start Collector.State.init).run name l
    ∀ k e, s.clear.store.find k = some e ↔ s.store.find k = some e ∧ e.persist = true := by
  intro s k e
  have h : s.Inv fun p => outside p l := by
    have := inv_run_wf name l [] (WFs.start Collector.State.init)
      ⟨OMap.sorted_nil, fun k e he => by (cases he), ⟨[], rfl, fun p _ => rfl⟩, fun k e he => by (cases he)⟩ hl
    exact this
  rw [(clear_store_wf h.sorted).1, find_filter _ h.sorted]
  cases hf : OMap.find k s.store with
  | none => simp [Option.filter]
  | some e' =>
    cases hp : e'.persist
    · simp only [Option.filter, hp]
      constructor
      · intro h; cases h
      · rintro ⟨h, he⟩
        cases h
        rw [hp] at he
        cases he
    · simp only [Option.filter, hp, if_true]
      constructor
      · intro h
        exact ⟨h, by cases h; exact hp⟩
      · exact fun h => h.1

/-- C42 is violated: setting a key to the wave function it holds, when nobody else refers to it, destroys this wave
function and leaves it under the key. -/
theorem C42_violated_same : ∃ name,
    let s := (WFs.start Collector.State.init).run name [.retain 1, .set ['A'] 1, .release 1]
    s.get ['A'] = .val 1 ∧ s.coll.isAllocated 1 = true ∧ 1 ∉ s.coll.destroyed ∧
    1 ∈ (s.set name ['A'] 1).1.coll.destroyed ∧ (s.set name ['A'] 1).1.get ['A'] = .val 1 :=
  ⟨fun _ => ['X'], by decide⟩

/-- C42 is violated: a key that exists can be set to nothing. -/
theorem C42_violated_null : ∃ name,
    ((WFs.start Collector.State.init).run name [.retain 1, .set ['A'] 1, .set ['A'] 0]).get ['A'] = .val 0 :=
  ⟨fun _ => ['X'], by decide⟩

end QDng.Registry
