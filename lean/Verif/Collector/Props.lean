import Verif.Collector.Model

/-! # Property C11: reference counting registry -/

namespace QDng.Collector

/-! ## Specification -/

/-- Requests made to the registry. -/
inductive Req
  | register (p : Nat)
  | delete (p : Nat)
  | deleteAll
  deriving DecidableEq

/-- The history run on the model. -/
def run (l : List Req) : State :=
  l.foldl (fun s r => match r with
    | .register p => s.register p
    | .delete p => s.delete p
    | .deleteAll => s.deleteAll) State.init

/-- Open registrations of one object `p` and number of completed lives, as a user counts them. -/
structure Life where
  open_ : Nat
  ended : Nat
  deriving DecidableEq

/-- The effect of a request on the life of object `p`. -/
def Life.step (p : Nat) (l : Life) : Req → Life
  | .register q => if q = p then { l with open_ := l.open_ + 1 } else l
  | .delete q =>
    if q = p then
      (if l.open_ = 0 then l
       else if l.open_ = 1 then { open_ := 0, ended := l.ended + 1 }
       else { l with open_ := l.open_ - 1 })
    else l
  | .deleteAll => if l.open_ = 0 then l else { open_ := 0, ended := l.ended + 1 }

/-- The life of object `p` after a history. -/
def life (p : Nat) (l : List Req) : Life := l.foldl (Life.step p) { open_ := 0, ended := 0 }

/-! ## Lemmas -/

/-- The state agrees with the lives of all objects. -/
structure Agree (s : State) (L : Nat → Life) : Prop where
  nodup : (s.refs.map (fun e => e.p)).Nodup
  mem : ∀ e ∈ s.refs, e.p ≠ 0 ∧ e.refcount = ((L e.p).open_ : Int) ∧ 0 < (L e.p).open_
  alive : ∀ p, p ≠ 0 → 0 < (L p).open_ → p ∈ s.refs.map (fun e => e.p)
  ended : ∀ p, p ≠ 0 → s.destroyed.count p = (L p).ended
  null : 0 ∉ s.destroyed

theorem find_some {p i : Nat} {l : List Entry} (h : find p l = some i) :
    ∃ a e b, l = a ++ e :: b ∧ a.length = i ∧ e.p = p ∧ ∀ x ∈ a, x.p ≠ p := by
  unfold find at h
  induction l generalizing i with
  | nil => simp at h
  | cons x r ih =>
    rw [List.findIdx?_cons] at h
    by_cases hx : x.p = p
    · simp [hx] at h
      exact ⟨[], x, r, rfl, by simp [h], hx, by simp⟩
    · simp [hx] at h
      obtain ⟨j, hj, rfl⟩ := h
      obtain ⟨a, e, b, h1, h2, h3, h4⟩ := ih hj
      refine ⟨x :: a, e, b, by simp [h1], by simp [h2], h3, ?_⟩
      intro y hy
      rcases List.mem_cons.1 hy with hy | hy
      · rw [hy]; exact hx
      · exact h4 y hy

theorem find_none {p : Nat} {l : List Entry} (h : find p l = none) : ∀ x ∈ l, x.p ≠ p := by
  unfold find at h
  rw [List.findIdx?_eq_none_iff] at h
  intro x hx hp
  have := h x hx
  simp [hp] at this

theorem find_isSome {p : Nat} {l : List Entry} :
    (find p l).isSome = true ↔ p ∈ l.map (fun e => e.p) := by
  cases h : find p l with
  | none =>
    have := find_none h
    simp
    exact fun x hx => this x hx
  | some i =>
    obtain ⟨a, e, b, h1, _, h3, _⟩ := find_some h
    simp only [Option.isSome_some, true_iff]
    rw [h1, ← h3]
    simp

theorem modify_mid (f : Entry → Entry) (a b : List Entry) (e : Entry) :
    (a ++ e :: b).modify a.length f = a ++ f e :: b := by
  induction a with
  | nil => rfl
  | cons x a ih => simp [ih]

theorem agree_register {s : State} {L : Nat → Life} (h : Agree s L) (q : Nat) :
    Agree (s.register q) (fun p => (L p).step p (.register q)) := by
  unfold State.register
  by_cases hq : q = 0
  · subst hq
    rw [if_pos rfl]
    refine ⟨h.nodup, ?_, ?_, ?_, h.null⟩
    · intro e he
      obtain ⟨h1, h2, h3⟩ := h.mem e he
      have : ¬ 0 = e.p := fun hc => h1 hc.symm
      simp only [Life.step, this, if_false]
      exact ⟨h1, h2, h3⟩
    · intro p hp
      have : ¬ 0 = p := fun hc => hp hc.symm
      simp only [Life.step, this, if_false]
      exact h.alive p hp
    · intro p hp
      have : ¬ 0 = p := fun hc => hp hc.symm
      simp only [Life.step, this, if_false]
      exact h.ended p hp
  · rw [if_neg hq]
    have hended : ∀ p, p ≠ 0 → s.destroyed.count p = ((L p).step p (.register q)).ended := by
      intro p hp
      rw [h.ended p hp]
      simp only [Life.step]
      split <;> rfl
    cases hf : find q s.refs with
    | none =>
      have hno := find_none hf
      refine ⟨?_, ?_, ?_, hended, h.null⟩
      · simp only [List.map_append, List.map_cons, List.map_nil]
        rw [List.nodup_append]
        refine ⟨h.nodup, by simp, ?_⟩
        intro a ha b hb hab
        simp at hb
        subst hb; subst hab
        obtain ⟨e, h1, h2⟩ := List.mem_map.1 ha
        exact hno e h1 h2
      · intro e he
        simp only [List.mem_append, List.mem_singleton] at he
        rcases he with he | he
        · obtain ⟨h1, h2, h3⟩ := h.mem e he
          have : ¬ q = e.p := fun hc => hno e he hc.symm
          simp only [Life.step, this, if_false]
          exact ⟨h1, h2, h3⟩
        · subst he
          have h0 : (L q).open_ = 0 := by
            by_contra hc
            have := h.alive q hq (by omega)
            obtain ⟨e, h1, h2⟩ := List.mem_map.1 this
            exact hno e h1 h2
          simp [Life.step, h0, hq]
      · intro p hp hpos
        simp only [List.map_append, List.mem_append]
        by_cases hpq : q = p
        · right; simp [hpq]
        · left
          simp only [Life.step, hpq, if_false] at hpos
          exact h.alive p hp hpos
    | some i =>
      obtain ⟨a, e, b, h1, h2, h3, h4⟩ := find_some hf
      have hmod : s.refs.modify i (fun e => { e with refcount := e.refcount + 1 })
          = a ++ { e with refcount := e.refcount + 1 } :: b := by
        rw [h1, ← h2, modify_mid]
      have hmap : (s.refs.modify i (fun e => { e with refcount := e.refcount + 1 })).map (fun e => e.p)
          = s.refs.map (fun e => e.p) := by
        rw [hmod, h1]; simp
      have hb : ∀ x ∈ b, x.p ≠ q := by
        intro x hx hxq
        have := h.nodup
        rw [h1] at this
        simp only [List.map_append, List.map_cons] at this
        have := (List.nodup_append.1 this).2.1
        rw [List.nodup_cons] at this
        exact this.1 (List.mem_map.2 ⟨x, hx, by rw [hxq, h3]⟩)
      refine ⟨?_, ?_, ?_, hended, h.null⟩
      · simp only [hmap]; exact h.nodup
      · intro x hx
        simp only [hmod, List.mem_append, List.mem_cons] at hx
        have hold : ∀ x ∈ s.refs, x.p ≠ q → x.p ≠ 0 ∧
            x.refcount = (((L x.p).step x.p (.register q)).open_ : Int) ∧
            0 < ((L x.p).step x.p (.register q)).open_ := by
          intro x hx hxq
          obtain ⟨h5, h6, h7⟩ := h.mem x hx
          have : ¬ q = x.p := fun hc => hxq hc.symm
          simp only [Life.step, this, if_false]
          exact ⟨h5, h6, h7⟩
        rcases hx with hx | hx | hx
        · exact hold x (by rw [h1]; simp [hx]) (h4 x hx)
        · subst hx
          obtain ⟨h5, h6, h7⟩ := h.mem e (by rw [h1]; simp)
          simp only [h3] at h5 h6 h7 ⊢
          simp only [Life.step, if_true]
          refine ⟨h5, ?_, by omega⟩
          rw [h6]; simp
        · exact hold x (by rw [h1]; simp [hx]) (hb x hx)
      · intro p hp hpos
        simp only [hmap]
        by_cases hpq : q = p
        · subst hpq
          rw [h1, ← h3]; simp
        · simp only [Life.step, hpq, if_false] at hpos
          exact h.alive p hp hpos

theorem agree_delete {s : State} {L : Nat → Life} (h : Agree s L) (q : Nat) :
    Agree (s.delete q) (fun p => (L p).step p (.delete q)) := by
  unfold State.delete
  by_cases hq : q = 0
  · subst hq
    rw [if_pos rfl]
    refine ⟨h.nodup, ?_, ?_, ?_, h.null⟩
    · intro e he
      obtain ⟨h1, h2, h3⟩ := h.mem e he
      have : ¬ 0 = e.p := fun hc => h1 hc.symm
      simp only [Life.step, this, if_false]
      exact ⟨h1, h2, h3⟩
    · intro p hp
      have : ¬ 0 = p := fun hc => hp hc.symm
      simp only [Life.step, this, if_false]
      exact h.alive p hp
    · intro p hp
      have : ¬ 0 = p := fun hc => hp hc.symm
      simp only [Life.step, this, if_false]
      exact h.ended p hp
  · rw [if_neg hq]
    cases hf : find q s.refs with
    | none =>
      have hno := find_none hf
      have h0 : (L q).open_ = 0 := by
        by_contra hc
        have := h.alive q hq (by omega)
        obtain ⟨e, h1, h2⟩ := List.mem_map.1 this
        exact hno e h1 h2
      have hsame : ∀ p, (L p).step p (.delete q) = L p := by
        intro p
        simp only [Life.step]
        split
        · rename_i hqp; subst hqp; rw [if_pos h0]
        · rfl
      simp only [hsame]
      exact h
    | some i =>
      obtain ⟨a, e, b, h1, h2, h3, h4⟩ := find_some hf
      have hmod : s.refs.modify i (fun e => { e with refcount := e.refcount - 1 })
          = a ++ { e with refcount := e.refcount - 1 } :: b := by
        rw [h1, ← h2, modify_mid]
      have hget : (a ++ { e with refcount := e.refcount - 1 } :: b)[i]?
          = some { e with refcount := e.refcount - 1 } := by
        rw [← h2]; simp
      have hnd : a.map (fun e => e.p) ++ q :: b.map (fun e => e.p) |>.Nodup := by
        have := h.nodup
        rw [h1] at this
        simpa [h3] using this
      have hb : ∀ x ∈ b, x.p ≠ q := by
        intro x hx hxq
        have := (List.nodup_append.1 hnd).2.1
        rw [List.nodup_cons] at this
        exact this.1 (List.mem_map.2 ⟨x, hx, hxq⟩)
      have hold : ∀ x ∈ s.refs, x.p ≠ q → x.p ≠ 0 ∧
          x.refcount = (((L x.p).step x.p (.delete q)).open_ : Int) ∧
          0 < ((L x.p).step x.p (.delete q)).open_ := by
        intro x hx hxq
        obtain ⟨h5, h6, h7⟩ := h.mem x hx
        have : ¬ q = x.p := fun hc => hxq hc.symm
        simp only [Life.step, this, if_false]
        exact ⟨h5, h6, h7⟩
      obtain ⟨h5, h6, h7⟩ := h.mem e (by rw [h1]; simp)
      rw [h3] at h5 h6 h7
      simp only [hmod, hget]
      by_cases hz : e.refcount - 1 = 0
      · rw [if_pos hz]
        have hone : (L q).open_ = 1 := by omega
        have herase : (a ++ { e with refcount := e.refcount - 1 } :: b).eraseIdx i = a ++ b := by
          rw [← h2, List.eraseIdx_append_of_length_le (Nat.le_refl _)]
          simp
        simp only [herase]
        refine ⟨?_, ?_, ?_, ?_, ?_⟩
        · simp only [List.map_append]
          exact List.Nodup.sublist (List.Sublist.append (List.Sublist.refl _)
            (List.sublist_cons_self _ _)) hnd
        · intro x hx
          rcases List.mem_append.1 hx with hx | hx
          · exact hold x (by rw [h1]; simp [hx]) (h4 x hx)
          · exact hold x (by rw [h1]; simp [hx]) (hb x hx)
        · intro p hp hpos
          by_cases hpq : q = p
          · subst hpq
            simp [Life.step, hone] at hpos
          · simp only [Life.step, hpq, if_false] at hpos
            have := h.alive p hp hpos
            rw [h1] at this
            simp only [List.map_append, List.map_cons, List.mem_append, List.mem_cons] at this ⊢
            rcases this with this | this | this
            · exact Or.inl this
            · rw [h3] at this; exact absurd this.symm hpq
            · exact Or.inr this
        · intro p hp
          simp only [List.count_cons, h.ended p hp, Life.step]
          by_cases hpq : q = p
          · subst hpq
            simp [hone]
          · simp [hpq]
        · simp only [List.mem_cons, not_or]
          exact ⟨fun hc => hq hc.symm, h.null⟩
      · rw [if_neg hz]
        have hmap : (a ++ { e with refcount := e.refcount - 1 } :: b).map (fun e => e.p)
            = s.refs.map (fun e => e.p) := by
          rw [h1]; simp
        have hbig : (L q).open_ ≠ 0 ∧ (L q).open_ ≠ 1 := by omega
        refine ⟨?_, ?_, ?_, ?_, h.null⟩
        · simp only [hmap]; exact h.nodup
        · intro x hx
          simp only [List.mem_append, List.mem_cons] at hx
          rcases hx with hx | hx | hx
          · exact hold x (by rw [h1]; simp [hx]) (h4 x hx)
          · subst hx
            simp only [h3, Life.step, if_true, hbig.1, hbig.2, if_false]
            refine ⟨h5, ?_, by omega⟩
            rw [h6]; omega
          · exact hold x (by rw [h1]; simp [hx]) (hb x hx)
        · intro p hp hpos
          simp only [hmap]
          by_cases hpq : q = p
          · subst hpq
            rw [h1, ← h3]; simp
          · simp only [Life.step, hpq, if_false] at hpos
            exact h.alive p hp hpos
        · intro p hp
          rw [h.ended p hp]
          simp only [Life.step]
          by_cases hpq : q = p
          · subst hpq
            simp [hbig.1, hbig.2]
          · simp [hpq]

theorem foldl_cons_count (l : List Entry) (d : List Nat) (p : Nat) :
    (l.foldl (fun d e => e.p :: d) d).count p = (l.map (fun e => e.p)).count p + d.count p := by
  induction l generalizing d with
  | nil => simp
  | cons x r ih =>
    simp only [List.foldl_cons, List.map_cons, ih, List.count_cons]
    omega

theorem agree_deleteAll {s : State} {L : Nat → Life} (h : Agree s L) :
    Agree s.deleteAll (fun p => (L p).step p .deleteAll) := by
  unfold State.deleteAll
  have hall : s.refs.filter (fun e => e.refcount > 0) = s.refs := by
    rw [List.filter_eq_self]
    intro e he
    obtain ⟨_, h2, h3⟩ := h.mem e he
    simp [h2, h3]
  rw [hall]
  refine ⟨by simp, by simp, ?_, ?_, ?_⟩
  · intro p _ hpos
    simp only [Life.step] at hpos
    split at hpos
    · omega
    · simp at hpos
  · intro p hp
    simp only [foldl_cons_count, h.ended p hp, Life.step]
    by_cases h0 : (L p).open_ = 0
    · rw [if_pos h0]
      have : p ∉ s.refs.map (fun e => e.p) := by
        intro hm
        obtain ⟨e, h1, h2⟩ := List.mem_map.1 hm
        have := (h.mem e h1).2.2
        rw [h2] at this
        omega
      rw [List.count_eq_zero_of_not_mem this]
      omega
    · rw [if_neg h0]
      have := h.alive p hp (by omega)
      have h1 : (s.refs.map (fun e => e.p)).count p ≤ 1 := List.nodup_iff_count.1 h.nodup p
      have h2 := List.count_pos_iff.2 this
      simp only
      omega
  · intro hm
    have h1 : (0 : Nat) < (s.refs.foldl (fun d e => e.p :: d) s.destroyed).count 0 :=
      List.count_pos_iff.2 hm
    rw [foldl_cons_count, List.count_eq_zero_of_not_mem h.null, List.count_eq_zero_of_not_mem] at h1
    · omega
    · intro hm
      obtain ⟨e, h2, h3⟩ := List.mem_map.1 hm
      exact (h.mem e h2).1 h3

theorem agree_run (l : List Req) : Agree (run l) (fun p => life p l) := by
  unfold run life
  have h0 : Agree State.init (fun _ => ({ open_ := 0, ended := 0 } : Life)) :=
    ⟨by simp [State.init], by simp [State.init], by intro p _ h; simp at h, by simp [State.init],
      by simp [State.init]⟩
  generalize State.init = s at h0 ⊢
  have gen : ∀ (l : List Req) (s : State) (L : Nat → Life), Agree s L →
      Agree (l.foldl (fun s r => match r with
        | .register p => s.register p
        | .delete p => s.delete p
        | .deleteAll => s.deleteAll) s) (fun p => l.foldl (Life.step p) (L p)) := by
    intro l
    induction l with
    | nil => intro s L h; exact h
    | cons r l ih =>
      intro s L h
      simp only [List.foldl_cons]
      cases r with
      | register q => exact ih _ _ (agree_register h q)
      | delete q => exact ih _ _ (agree_delete h q)
      | deleteAll => exact ih _ _ (agree_deleteAll h)
  exact gen l s _ h0

/-! ## C11 -/

/-- **C11**: after every history of requests an object is reported alive exactly if it has more
registrations than deletions since it last became unregistered; its destructor ran once for each
completed life; the number of elements is the number of living objects. -/
theorem C11_refcount (l : List Req) :
    (∀ p, p ≠ 0 → ((run l).isAllocated p = true ↔ 0 < (life p l).open_)) ∧
    (∀ p, p ≠ 0 → (run l).destroyed.count p = (life p l).ended) ∧
    (run l).isAllocated 0 = false ∧ 0 ∉ (run l).destroyed ∧
    (∃ alive : List Nat, alive.Nodup ∧ (∀ p, p ∈ alive ↔ p ≠ 0 ∧ 0 < (life p l).open_) ∧
      (run l).elements = alive.length) := by
  have h := agree_run l
  have key : ∀ p, p ∈ (run l).refs.map (fun e => e.p) ↔ p ≠ 0 ∧ 0 < (life p l).open_ := by
    intro p
    constructor
    · intro hm
      obtain ⟨e, h1, h2⟩ := List.mem_map.1 hm
      have := h.mem e h1
      rw [h2] at this
      exact ⟨this.1, this.2.2⟩
    · rintro ⟨h1, h2⟩
      exact h.alive p h1 h2
  refine ⟨?_, h.ended, ?_, h.null, (run l).refs.map (fun e => e.p), h.nodup, key, ?_⟩
  · intro p hp
    unfold State.isAllocated
    rw [find_isSome, key]
    simp [hp]
  · unfold State.isAllocated
    rw [← Bool.not_eq_true, find_isSome, key]
    simp
  · simp [State.elements]

/-- **C11**: deleting an object that is not registered changes nothing. -/
theorem C11_delete_unregistered (l : List Req) (p : Nat) (h : (run l).isAllocated p = false) :
    (run l).delete p = run l := by
  unfold State.isAllocated at h
  unfold State.delete
  split
  · rfl
  · cases hf : find p (run l).refs with
    | none => rfl
    | some i => rw [hf] at h; cases h

example :
    let l : List Req := [.register 5, .register 5, .register 7, .delete 5, .delete 7, .delete 9, .delete 5,
      .register 5]
    (run l).isAllocated 5 = true ∧ (run l).isAllocated 7 = false ∧ (run l).destroyed = [5, 7] ∧
      life 5 l = { open_ := 1, ended := 1 } ∧ (run l).isAllocated 9 = false := by decide

end QDng.Collector
