import Verif.Memory.Model

/-! # Helper lemmas for the memory pool -/

namespace QDng.Memory

open QDng

theorem W_pos : 0 < W := by unfold W; omega

theorem usub_eq {a b : Nat} (ha : a < W) (hb : b ≤ a) : usub a b = a - b := by
  unfold usub
  have : b % W = b := Nat.mod_eq_of_lt (by omega)
  rw [this]
  have : a + (W - b) = (a - b) + W := by omega
  rw [this, Nat.add_mod_right, Nat.mod_eq_of_lt (by omega)]

/-- Invariant of the pool which holds for every client. -/
structure Inv (nd : Bool) (s : Pool) : Prop where
  sorted : OMap.Sorted s.slots
  heap : s.heap = OMap.mapv (fun sl => slotBytes nd sl.size) s.slots
  used : s.used = OMap.total s.heap
  small : s.used < W
  freeMap : ∀ e ∈ s.freeMap, ∃ sl, OMap.find e.2 s.slots = some sl ∧ sl.size = e.1
  peak : s.used ≤ s.maxUsed
  debug : nd = false → s.freeMap = [] ∧ ∀ p sl, OMap.find p s.slots = some sl → sl.free = false

theorem inv_init (nd : Bool) (m : Nat) : Inv nd (Pool.init m) where
  sorted := OMap.sorted_nil
  heap := rfl
  used := rfl
  small := W_pos
  freeMap := by intro e he; simp [Pool.init] at he
  peak := Nat.le_refl _
  debug := by intro _; exact ⟨rfl, by intro p sl h; simp [Pool.init, OMap.find] at h⟩

theorem Inv.heap_sorted {nd : Bool} {s : Pool} (h : Inv nd s) : OMap.Sorted s.heap := by
  rw [h.heap]; exact OMap.sorted_mapv _ h.sorted

theorem Inv.find_heap {nd : Bool} {s : Pool} (h : Inv nd s) (p : Nat) :
    OMap.find p s.heap = (OMap.find p s.slots).map (fun sl => slotBytes nd sl.size) := by
  rw [h.heap, OMap.find_mapv]

/-- Behaviour assumed of `posix_memalign`: the address is not the one of a block which is still
allocated, and all blocks together fit into the address space. -/
def OsOk (nd : Bool) (s : Pool) (size : Nat) (os : Option Nat) : Prop :=
  ∀ a, os = some a → OMap.find a s.heap = none ∧
    OMap.total s.heap + slotBytes nd (numBlocks nd size) < W

theorem track_eq (s : Pool) : s.track = { s with maxUsed := max s.maxUsed s.used } := by
  unfold Pool.track
  split
  · rename_i h
    have : max s.maxUsed s.used = s.used := by omega
    rw [this]
  · rename_i h
    have : max s.maxUsed s.used = s.maxUsed := by omega
    rw [this]

/-- The cases of `Align`. -/
theorem align_cases {nd : Bool} {s : Pool} (hi : Inv nd s) (size : Nat) (os : Option Nat)
    (hos : OsOk nd s size os) :
    (s.align nd size os = .threw s) ∨
    (∃ p, s.avail ≥ size ∧ os = some p ∧ OMap.find p s.slots = none ∧ OMap.find p s.heap = none ∧
      (∀ e ∈ s.freeMap, e.1 ≠ numBlocks nd size) ∧
      s.used + slotBytes nd (numBlocks nd size) < W ∧
      s.align nd size os = .ok
        { s with
          slots := OMap.insert p { size := numBlocks nd size, free := false } s.slots
          used := s.used + slotBytes nd (numBlocks nd size)
          maxUsed := max s.maxUsed (s.used + slotBytes nd (numBlocks nd size))
          heap := OMap.insert p (slotBytes nd (numBlocks nd size)) s.heap } p) ∨
    (∃ p sl, s.avail ≥ size ∧ (numBlocks nd size, p) ∈ s.freeMap ∧ OMap.find p s.slots = some sl ∧
      sl.size = numBlocks nd size ∧
      s.align nd size os = .ok
        { s with
          slots := OMap.insert p { sl with free := false } s.slots
          freeMap := s.freeMap.erase (numBlocks nd size, p) } p) := by
  unfold Pool.align
  by_cases hav : s.avail < size
  · left; rw [if_pos hav]
  rw [if_neg hav]
  simp only
  cases hf : s.freeMap.find? (fun e => e.1 = numBlocks nd size) with
  | none =>
    cases os with
    | none => left; rfl
    | some p =>
      right; left
      obtain ⟨h1, h2⟩ := hos p rfl
      have h3 : OMap.find p s.slots = none := by
        rw [hi.find_heap] at h1
        simpa using h1
      have h4 : (s.used + slotBytes nd (numBlocks nd size)) % W
          = s.used + slotBytes nd (numBlocks nd size) := by
        apply Nat.mod_eq_of_lt
        rw [hi.used]; exact h2
      refine ⟨p, by omega, rfl, h3, h1, ?_, ?_, ?_⟩
      · intro e he hne
        have := List.find?_eq_none.1 hf e he
        simp at this
        exact this hne
      · rw [hi.used]; exact h2
      · simp only [h3, Option.isSome_none, Bool.false_eq_true, if_false, h4, track_eq]
  | some e =>
    right; right
    have he := List.mem_of_find?_eq_some hf
    have hp := List.find?_some hf
    simp at hp
    obtain ⟨sl, h1, h2⟩ := hi.freeMap e he
    refine ⟨e.2, sl, by omega, ?_, h1, ?_, ?_⟩
    · rw [← hp]; exact he
    · rw [h2, hp]
    · simp only [h1, track_eq]
      have : e = (numBlocks nd size, e.2) := by rw [← hp]
      have hmax : max s.maxUsed s.used = s.maxUsed := by have := hi.peak; omega
      simp only [hmax]
      rw [← this]

theorem inv_align {nd : Bool} {s s' : Pool} (hi : Inv nd s) (size : Nat) (os : Option Nat)
    (hos : OsOk nd s size os) {p : Nat} (h : s.align nd size os = .ok s' p) : Inv nd s' := by
  rcases align_cases hi size os hos with h1 | ⟨q, _, _, h3, h4, h5, h6, h7⟩ | ⟨q, sl, _, h2, h3, h4, h5⟩
  · rw [h1] at h; cases h
  · rw [h7] at h
    obtain ⟨rfl, rfl⟩ : _ = s' ∧ q = p := by simpa using h
    refine ⟨OMap.sorted_insert hi.sorted, ?_, ?_, h6, ?_, ?_, ?_⟩
    · simp only [OMap.mapv_insert]
      rw [← hi.heap]
    · simp only [OMap.total_insert _ h4]
      rw [hi.used]
    · intro e he
      obtain ⟨sl, h8, h9⟩ := hi.freeMap e he
      refine ⟨sl, ?_, h9⟩
      simp only [OMap.find_insert]
      rw [if_neg]
      · exact h8
      · intro hc; rw [hc, h3] at h8; cases h8
    · exact Nat.le_max_right _ _
    · intro hd
      refine ⟨(hi.debug hd).1, ?_⟩
      intro p' sl' h'
      simp only [OMap.find_insert] at h'
      split at h'
      · simp at h'; rw [← h']
      · exact (hi.debug hd).2 p' sl' h'
  · rw [h5] at h
    obtain ⟨rfl, rfl⟩ : _ = s' ∧ q = p := by simpa using h
    refine ⟨OMap.sorted_insert hi.sorted, ?_, hi.used, hi.small, ?_, hi.peak, ?_⟩
    · simp only [OMap.mapv_insert]
      rw [← hi.heap, OMap.insert_same hi.heap_sorted]
      rw [hi.find_heap, h3]; rfl
    · intro e he
      obtain ⟨sl', h8, h9⟩ := hi.freeMap e (List.mem_of_mem_erase he)
      simp only [OMap.find_insert]
      split
      · rename_i hc
        rw [hc, h3] at h8
        simp at h8
        subst h8
        exact ⟨_, rfl, h9⟩
      · exact ⟨sl', h8, h9⟩
    · intro hd
      have := (hi.debug hd).1
      rw [this] at h2
      simp at h2

/-- The cases of `Free`. -/
theorem free_cases {nd : Bool} {s : Pool} (hi : Inv nd s) (p : Nat) :
    (OMap.find p s.slots = none ∧ s.free nd p = .ok s ()) ∨
    (∃ sl, OMap.find p s.slots = some sl ∧ nd = true ∧ s.free nd p = .ok
      { s with slots := OMap.insert p { sl with free := true } s.slots
               freeMap := s.freeMap ++ [(sl.size, p)] } ()) ∨
    (∃ sl, OMap.find p s.slots = some sl ∧ nd = false ∧ slotBytes nd sl.size ≤ s.used ∧
      s.free nd p = .ok
      { s with used := s.used - slotBytes nd sl.size, heap := OMap.erase p s.heap
               slots := OMap.erase p s.slots } ()) := by
  unfold Pool.free
  cases hf : OMap.find p s.slots with
  | none => left; exact ⟨rfl, rfl⟩
  | some sl =>
    right
    cases nd with
    | true => left; exact ⟨sl, rfl, rfl, rfl⟩
    | false =>
      right
      have h1 : OMap.find p s.heap = some (slotBytes false sl.size) := by
        rw [hi.find_heap, hf]; rfl
      have h2 := OMap.total_erase h1
      have h3 : slotBytes false sl.size ≤ s.used := by rw [hi.used]; omega
      refine ⟨sl, rfl, rfl, h3, ?_⟩
      simp only [heapFree, h1, Bool.false_eq_true, if_false, usub_eq hi.small h3]

theorem inv_free {nd : Bool} {s s' : Pool} (hi : Inv nd s) (p : Nat)
    (h : s.free nd p = .ok s' ()) : Inv nd s' := by
  rcases free_cases hi p with ⟨_, h1⟩ | ⟨sl, h2, h3, h4⟩ | ⟨sl, h2, h3, h4, h5⟩
  · rw [h1] at h; cases h; exact hi
  · rw [h4] at h
    cases h
    refine ⟨OMap.sorted_insert hi.sorted, ?_, hi.used, hi.small, ?_, hi.peak, ?_⟩
    · simp only [OMap.mapv_insert]
      rw [← hi.heap, OMap.insert_same hi.heap_sorted]
      rw [hi.find_heap, h2]; rfl
    · intro e he
      simp only [List.mem_append, List.mem_singleton] at he
      rcases he with he | he
      · obtain ⟨sl', h8, h9⟩ := hi.freeMap e he
        simp only [OMap.find_insert]
        split
        · rename_i hc
          rw [hc, h2] at h8
          simp at h8
          subst h8
          exact ⟨_, rfl, h9⟩
        · exact ⟨sl', h8, h9⟩
      · subst he
        simp [OMap.find_insert]
    · intro hd; rw [h3] at hd; cases hd
  · rw [h5] at h
    cases h
    have h1 : OMap.find p s.heap = some (slotBytes nd sl.size) := by
      rw [hi.find_heap, h2]; rfl
    have ht := OMap.total_erase h1
    have hu := hi.used
    refine ⟨OMap.sorted_erase hi.sorted, ?_, ?_, ?_, ?_, ?_, ?_⟩
    · simp only [OMap.mapv_erase]
      rw [← hi.heap]
    · simp only; omega
    · have := hi.small; simp only; omega
    · intro e he
      simp only [(hi.debug h3).1] at he
      cases he
    · have := hi.peak; simp only; omega
    · intro hd
      refine ⟨(hi.debug hd).1, ?_⟩
      intro p' sl' h'
      simp only [OMap.find_erase hi.sorted] at h'
      split at h'
      · cases h'
      · exact (hi.debug hd).2 p' sl' h'

open Classical in
theorem cleanupLoop_spec (nd : Bool) (slots : OMap Nat Slot)
    (hs : OMap.Sorted slots) (used : Nat) (heap : OMap Nat Nat) (hu : used < W)
    (hsum : OMap.total (OMap.mapv (fun sl => slotBytes nd sl.size) (slots.filter (fun q => q.2.free)))
      ≤ used)
    (hsh : OMap.Sorted heap)
    (hh : ∀ q ∈ slots, OMap.find q.1 heap = some (slotBytes nd q.2.size)) :
    ∃ h', cleanupLoop nd slots used heap = some
      (slots.filter (fun q => !q.2.free),
       used - OMap.total (OMap.mapv (fun sl => slotBytes nd sl.size)
        (slots.filter (fun q => q.2.free))), h') ∧ OMap.Sorted h' ∧
      ∀ p, OMap.find p h' =
        if ∃ sl, (p, sl) ∈ slots ∧ sl.free = true then none else OMap.find p heap := by
  induction slots generalizing used heap with
  | nil => exact ⟨heap, by simp [cleanupLoop, OMap.total, OMap.mapv], hsh, by simp⟩
  | cons q r ih =>
    obtain ⟨p, sl⟩ := q
    have h1 := List.pairwise_cons.1 hs
    have hp := hh (p, sl) List.mem_cons_self
    have hne : ∀ q ∈ r, q.1 ≠ p := by
      intro q hq
      have := h1.1 q hq
      simp at this
      omega
    unfold cleanupLoop
    by_cases hfree : sl.free = true
    · simp only [hfree, List.filter_cons, if_true, Bool.not_true, Bool.false_eq_true, if_false]
      simp only [hfree, List.filter_cons, if_true] at hsum
      have e1 : OMap.total (OMap.mapv (fun sl => slotBytes nd sl.size)
          ((p, sl) :: r.filter (fun q => q.2.free))) = slotBytes nd sl.size +
          OMap.total (OMap.mapv (fun sl => slotBytes nd sl.size) (r.filter (fun q => q.2.free))) := by
        simp [OMap.total, OMap.mapv]
      rw [e1] at hsum ⊢
      have hfr : heapFree p heap = some (OMap.erase p heap) := by
        unfold heapFree; rw [hp]
      simp only [hfr]
      rw [usub_eq hu (by omega)]
      obtain ⟨h', h2, h3, h4⟩ := ih h1.2 (used - slotBytes nd sl.size) (OMap.erase p heap) (by omega)
        (by omega) (OMap.sorted_erase hsh) (by
          intro q hq
          rw [OMap.find_erase hsh, if_neg (hne q hq)]
          exact hh q (List.mem_cons_of_mem _ hq))
      refine ⟨h', ?_, h3, ?_⟩
      · rw [h2, Nat.sub_sub]
      · intro p'
        rw [h4 p', OMap.find_erase hsh]
        by_cases hpp : p' = p
        · subst hpp
          rw [if_pos (show ∃ s, (p', s) ∈ (p', sl) :: r ∧ s.free = true from
            ⟨sl, List.mem_cons_self, hfree⟩)]
          simp
        · rw [if_neg hpp]
          have : (∃ s, (p', s) ∈ (p, sl) :: r ∧ s.free = true) ↔ (∃ s, (p', s) ∈ r ∧ s.free = true) := by
            constructor
            · rintro ⟨s, hm, hf⟩
              rcases List.mem_cons.1 hm with hm | hm
              · exact absurd (Prod.mk.inj hm).1 hpp
              · exact ⟨s, hm, hf⟩
            · rintro ⟨s, hm, hf⟩
              exact ⟨s, List.mem_cons_of_mem _ hm, hf⟩
          simp only [this]
    · have hfree : sl.free = false := by simpa using hfree
      simp only [hfree, List.filter_cons, Bool.false_eq_true, if_false, Bool.not_false, if_true]
      simp only [hfree, List.filter_cons, Bool.false_eq_true, if_false] at hsum
      obtain ⟨h', h2, h3, h4⟩ := ih h1.2 used heap hu hsum hsh
        (fun q hq => hh q (List.mem_cons_of_mem _ hq))
      refine ⟨h', ?_, h3, ?_⟩
      · rw [h2]
      · intro p'
        rw [h4 p']
        have : (∃ s, (p', s) ∈ (p, sl) :: r ∧ s.free = true) ↔ (∃ s, (p', s) ∈ r ∧ s.free = true) := by
          constructor
          · rintro ⟨s, hm, hf⟩
            rcases List.mem_cons.1 hm with hm | hm
            · have := (Prod.mk.inj hm).2
              subst this
              rw [hfree] at hf; cases hf
            · exact ⟨s, hm, hf⟩
          · rintro ⟨s, hm, hf⟩
            exact ⟨s, List.mem_cons_of_mem _ hm, hf⟩
        simp only [this]

theorem total_filter_add (nd : Bool) (slots : OMap Nat Slot) :
    OMap.total (OMap.mapv (fun sl => slotBytes nd sl.size) (slots.filter (fun q => q.2.free)))
    + OMap.total (OMap.mapv (fun sl => slotBytes nd sl.size) (slots.filter (fun q => !q.2.free)))
    = OMap.total (OMap.mapv (fun sl => slotBytes nd sl.size) slots) := by
  induction slots with
  | nil => rfl
  | cons q r ih =>
    unfold OMap.total OMap.mapv at *
    cases h : q.2.free <;> simp [h] at ih ⊢ <;> omega

theorem find_filter_inuse {slots : OMap Nat Slot} (hs : OMap.Sorted slots) (p : Nat) :
    OMap.find p (slots.filter (fun q => !q.2.free)) =
      match OMap.find p slots with
      | some sl => if sl.free then none else some sl
      | none => none := by
  have hs' : OMap.Sorted (slots.filter (fun q => !q.2.free)) :=
    List.Pairwise.sublist List.filter_sublist hs
  cases hf : OMap.find p slots with
  | none =>
    cases hf' : OMap.find p (slots.filter (fun q => !q.2.free)) with
    | none => rfl
    | some sl =>
      have := OMap.find_mem hf'
      have := List.mem_of_mem_filter this
      rw [← OMap.find_eq_some_iff hs, hf] at this
      cases this
  | some sl =>
    have hm := OMap.find_mem hf
    cases hfr : sl.free with
    | true =>
      simp only [hfr, if_true]
      cases hf' : OMap.find p (slots.filter (fun q => !q.2.free)) with
      | none => rfl
      | some sl' =>
        have := OMap.find_mem hf'
        have h2 := List.mem_filter.1 this
        have h3 := (OMap.find_eq_some_iff hs _ _).2 h2.1
        rw [hf] at h3
        simp at h3
        subst h3
        simp [hfr] at h2
    | false =>
      simp only [hfr, Bool.false_eq_true, if_false]
      rw [OMap.find_eq_some_iff hs']
      exact List.mem_filter.2 ⟨hm, by simp [hfr]⟩

theorem cleanup_eq {nd : Bool} {s : Pool} (hi : Inv nd s) :
    s.cleanup nd = .ok
      { s with
        slots := s.slots.filter (fun q => !q.2.free)
        used := OMap.total (OMap.mapv (fun sl => slotBytes nd sl.size)
          (s.slots.filter (fun q => !q.2.free)))
        heap := OMap.mapv (fun sl => slotBytes nd sl.size) (s.slots.filter (fun q => !q.2.free))
        freeMap := [] } () := by
  have hadd := total_filter_add nd s.slots
  have hu := hi.used
  rw [hi.heap] at hu
  obtain ⟨h', h1, h2, h3⟩ := cleanupLoop_spec nd s.slots hi.sorted s.used s.heap hi.small
    (by omega) hi.heap_sorted (by
      intro q hq
      rw [hi.find_heap, (OMap.find_eq_some_iff hi.sorted q.1 q.2).2 hq]
      rfl)
  have hs' : OMap.Sorted (s.slots.filter (fun q => !q.2.free)) :=
    List.Pairwise.sublist List.filter_sublist hi.sorted
  have hh : h' = OMap.mapv (fun sl => slotBytes nd sl.size) (s.slots.filter (fun q => !q.2.free)) := by
    apply OMap.ext h2 (OMap.sorted_mapv _ hs')
    intro p
    rw [h3 p, OMap.find_mapv, find_filter_inuse hi.sorted, hi.find_heap]
    cases hf : OMap.find p s.slots with
    | none => simp
    | some sl =>
      have hm := OMap.find_mem hf
      cases hfr : sl.free with
      | true => rw [if_pos ⟨sl, hm, hfr⟩]; simp [hfr]
      | false =>
        rw [if_neg]
        · simp [hfr]
        · rintro ⟨sl', hm', hfr'⟩
          have := (OMap.find_eq_some_iff hi.sorted _ _).2 hm'
          rw [hf] at this
          simp at this
          subst this
          rw [hfr] at hfr'
          cases hfr'
  unfold Pool.cleanup
  rw [h1]
  simp only
  rw [hh]
  congr 2
  omega

theorem inv_cleanup {nd : Bool} {s s' : Pool} (hi : Inv nd s) (h : s.cleanup nd = .ok s' ()) :
    Inv nd s' := by
  rw [cleanup_eq hi] at h
  cases h
  have hadd := total_filter_add nd s.slots
  have hu := hi.used
  rw [hi.heap] at hu
  have hs' : OMap.Sorted (s.slots.filter (fun q => !q.2.free)) :=
    List.Pairwise.sublist List.filter_sublist hi.sorted
  refine ⟨hs', rfl, rfl, ?_, ?_, ?_, ?_⟩
  · have := hi.small; simp only; omega
  · intro e he; cases he
  · have := hi.peak; simp only; omega
  · intro hd
    refine ⟨rfl, ?_⟩
    intro p sl hf
    simp only [find_filter_inuse hi.sorted] at hf
    split at hf
    · split at hf
      · cases hf
      · rename_i hx
        simp at hf
        subst hf
        simpa using hx
    · cases hf

theorem inv_reconfigure {nd : Bool} {s : Pool} (hi : Inv nd s) (m : Nat) :
    Inv nd (s.reconfigure m) :=
  ⟨hi.sorted, hi.heap, hi.used, hi.small, hi.freeMap, hi.peak, hi.debug⟩

end QDng.Memory
