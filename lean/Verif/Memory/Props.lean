import Verif.Memory.Lemmas

/-!
# Properties C06 - C10: memory pool and size strings
-/

namespace QDng.Memory

open QDng

/-! ## Specification: clients of the pool -/

/-- The pool together with the pointers which were handed out and not given back since, each with the
size that was asked for. -/
structure World where
  pool : Pool
  owned : List (Nat × Nat)
  deriving DecidableEq

/-- Calls of a client; `os` is what the operating system answers if it is asked. -/
inductive Op
  | align (size : Nat) (os : Option Nat)
  | free (p : Nat)
  | cleanup
  | reconfigure (max : Nat)

/-- One call; `none` is undefined behaviour. -/
def wstep (nd : Bool) (w : World) : Op → Option World
  | .align size os =>
    match w.pool.align nd size os with
    | .ok s p => some { pool := s, owned := (p, size) :: w.owned }
    | .threw s => some { w with pool := s }
    | .ub => none
  | .free p =>
    match w.pool.free nd p with
    | .ok s _ => some { pool := s, owned := w.owned.filter (fun e => e.1 ≠ p) }
    | .threw s => some { w with pool := s }
    | .ub => none
  | .cleanup =>
    match w.pool.cleanup nd with
    | .ok s _ => some { w with pool := s }
    | .threw s => some { w with pool := s }
    | .ub => none
  | .reconfigure m => some { w with pool := w.pool.reconfigure m }

/-- Which calls are considered: the operating system hands out fresh memory only; sizes and limits are
`size_t` values.  A careful client (`careful = true`) frees a pointer only while it owns it, or a
pointer which is not from the pool. -/
def Allowed (nd careful : Bool) (w : World) : Op → Prop
  | .align size os => size < W ∧ OsOk nd w.pool size os
  | .free p => careful = true → (∃ n, (p, n) ∈ w.owned) ∨ OMap.find p w.pool.heap = none
  | .cleanup => True
  | .reconfigure m => m < W

/-- States which can be reached. -/
inductive Reach (nd careful : Bool) : World → Prop
  | init (max : Nat) (h : max < W) : Reach nd careful { pool := Pool.init max, owned := [] }
  | step {w w' : World} (op : Op) (hw : Reach nd careful w) (ha : Allowed nd careful w op)
      (hs : wstep nd w op = some w') : Reach nd careful w'

/-! ## Invariants along histories -/

theorem reach_inv {nd careful : Bool} {w : World} (h : Reach nd careful w) : Inv nd w.pool := by
  induction h with
  | init m _ => exact inv_init nd m
  | step op hw ha hs ih =>
    cases op with
    | align size os =>
      unfold wstep at hs
      simp only at hs
      split at hs
      · rename_i s p hal
        cases hs
        exact inv_align ih size os ha.2 hal
      · rename_i s hal
        cases hs
        rcases align_cases ih size os ha.2 with h1 | ⟨q, _, _, _, _, _, _, h7⟩ | ⟨q, sl, _, _, _, _, h5⟩
        · rw [h1] at hal; cases hal; exact ih
        · rw [h7] at hal; cases hal
        · rw [h5] at hal; cases hal
      · cases hs
    | free p =>
      unfold wstep at hs
      simp only at hs
      split at hs
      · rename_i s u hal
        cases hs
        exact inv_free ih p hal
      · rename_i s hal
        rcases free_cases ih p with ⟨_, h1⟩ | ⟨sl, _, _, h4⟩ | ⟨sl, _, _, _, h5⟩
        · rw [h1] at hal; cases hal
        · rw [h4] at hal; cases hal
        · rw [h5] at hal; cases hal
      · cases hs
    | cleanup =>
      unfold wstep at hs
      simp only at hs
      split at hs
      · rename_i s u hal
        cases hs
        exact inv_cleanup ih hal
      · rename_i s hal
        rw [cleanup_eq ih] at hal; cases hal
      · cases hs
    | reconfigure m =>
      cases hs
      exact inv_reconfigure ih m

/-- Invariant for careful clients. -/
structure Careful (nd : Bool) (w : World) : Prop where
  nodup : (w.owned.map (fun e => e.1)).Nodup
  owned : ∀ e ∈ w.owned, ∃ sl, OMap.find e.1 w.pool.slots = some sl ∧ sl.free = false ∧
    sl.size = numBlocks nd e.2
  freeNodup : (w.pool.freeMap.map (fun e => e.2)).Nodup
  free : ∀ e ∈ w.pool.freeMap, ∃ sl, OMap.find e.2 w.pool.slots = some sl ∧ sl.free = true

theorem Careful.disjoint {nd : Bool} {w : World} (h : Careful nd w) {p n m : Nat}
    (h1 : (p, n) ∈ w.owned) (h2 : (m, p) ∈ w.pool.freeMap) : False := by
  obtain ⟨sl, h3, h4, _⟩ := h.owned _ h1
  obtain ⟨sl', h5, h6⟩ := h.free _ h2
  simp only at h3 h5
  rw [h3] at h5
  cases h5
  rw [h4] at h6
  cases h6

theorem careful_align {nd : Bool} {w : World} (hi : Inv nd w.pool) (hc : Careful nd w)
    {size : Nat} {os : Option Nat} (hos : OsOk nd w.pool size os) {s : Pool} {p : Nat}
    (h : w.pool.align nd size os = .ok s p) :
    (∀ n, (p, n) ∉ w.owned) ∧ Careful nd { pool := s, owned := (p, size) :: w.owned } := by
  rcases align_cases hi size os hos with h1 | ⟨q, _, _, h3, h4, h5, h6, h7⟩ | ⟨q, sl, _, h2, h3, h4, h5⟩
  · rw [h1] at h; cases h
  · rw [h7] at h
    obtain ⟨rfl, rfl⟩ : _ = s ∧ q = p := by simpa using h
    have hfresh : ∀ n, (q, n) ∉ w.owned := by
      intro n hn
      obtain ⟨sl, h8, _⟩ := hc.owned _ hn
      rw [h3] at h8
      cases h8
    refine ⟨hfresh, ?_, ?_, hc.freeNodup, ?_⟩
    · simp only [List.map_cons, List.nodup_cons]
      refine ⟨?_, hc.nodup⟩
      intro hm
      obtain ⟨⟨a, b⟩, h8, h9⟩ := List.mem_map.1 hm
      simp only at h9
      subst h9
      exact hfresh b h8
    · intro e he
      simp only [OMap.find_insert]
      rcases List.mem_cons.1 he with he | he
      · subst he
        exact ⟨_, by simp; rfl, rfl, rfl⟩
      · rw [if_neg]
        · exact hc.owned e he
        · intro hq
          exact hfresh e.2 (by rw [← hq]; exact he)
    · intro e he
      obtain ⟨sl, h8, h9⟩ := hc.free e he
      simp only [OMap.find_insert]
      rw [if_neg]
      · exact ⟨sl, h8, h9⟩
      · intro hq
        rw [hq, h3] at h8
        cases h8
  · rw [h5] at h
    obtain ⟨rfl, rfl⟩ : _ = s ∧ q = p := by simpa using h
    have hfresh : ∀ n, (q, n) ∉ w.owned := fun n hn => hc.disjoint hn h2
    have hsub := hc.freeNodup
    have hperm := List.perm_cons_erase h2
    have hnd : ((numBlocks nd size, q) :: w.pool.freeMap.erase (numBlocks nd size, q)).map (fun e => e.2)
        |>.Nodup := ((hperm.map (fun e => e.2)).nodup_iff).1 hsub
    simp only [List.map_cons, List.nodup_cons] at hnd
    refine ⟨hfresh, ?_, ?_, hnd.2, ?_⟩
    · simp only [List.map_cons, List.nodup_cons]
      refine ⟨?_, hc.nodup⟩
      intro hm
      obtain ⟨⟨a, b⟩, h8, h9⟩ := List.mem_map.1 hm
      simp only at h9
      subst h9
      exact hfresh b h8
    · intro e he
      simp only [OMap.find_insert]
      rcases List.mem_cons.1 he with he | he
      · subst he
        exact ⟨{ sl with free := false }, by simp, rfl, h4⟩
      · rw [if_neg]
        · exact hc.owned e he
        · intro hq
          exact hfresh e.2 (by rw [← hq]; exact he)
    · intro e he
      have hne : e.2 ≠ q := by
        intro hq
        apply hnd.1
        exact List.mem_map.2 ⟨e, he, hq⟩
      obtain ⟨sl', h8, h9⟩ := hc.free e (List.mem_of_mem_erase he)
      simp only [OMap.find_insert]
      rw [if_neg hne]
      exact ⟨sl', h8, h9⟩

theorem careful_free {nd : Bool} {w : World} (hi : Inv nd w.pool) (hc : Careful nd w) (p : Nat)
    (ha : (∃ n, (p, n) ∈ w.owned) ∨ OMap.find p w.pool.heap = none) {s : Pool}
    (h : w.pool.free nd p = .ok s ()) :
    Careful nd { pool := s, owned := w.owned.filter (fun e => e.1 ≠ p) } := by
  have hnodup : ((w.owned.filter (fun e => e.1 ≠ p)).map (fun e => e.1)).Nodup :=
    List.Nodup.sublist (List.Sublist.map _ List.filter_sublist) hc.nodup
  have hmem : ∀ e ∈ w.owned.filter (fun e => e.1 ≠ p), e ∈ w.owned ∧ e.1 ≠ p := by
    intro e he
    have := List.mem_filter.1 he
    exact ⟨this.1, by simpa using this.2⟩
  rcases free_cases hi p with ⟨_, h1⟩ | ⟨sl, h2, h3, h4⟩ | ⟨sl, h2, h3, h4, h5⟩
  · rw [h1] at h; cases h
    exact ⟨hnodup, fun e he => hc.owned e (hmem e he).1, hc.freeNodup, hc.free⟩
  · rw [h4] at h; cases h
    have hown : ∃ n, (p, n) ∈ w.owned := by
      rcases ha with ha | ha
      · exact ha
      · rw [hi.find_heap, h2] at ha; cases ha
    obtain ⟨n, hown⟩ := hown
    refine ⟨hnodup, ?_, ?_, ?_⟩
    · intro e he
      simp only [OMap.find_insert, if_neg (hmem e he).2]
      exact hc.owned e (hmem e he).1
    · simp only [List.map_append, List.map_cons, List.map_nil]
      rw [List.nodup_append]
      refine ⟨hc.freeNodup, by simp, ?_⟩
      intro a ha' b hb hab
      simp at hb
      subst hb
      subst hab
      obtain ⟨⟨x, y⟩, h8, h9⟩ := List.mem_map.1 ha'
      simp only at h9
      subst h9
      exact hc.disjoint hown h8
    · intro e he
      simp only [OMap.find_insert]
      by_cases hq : e.2 = p
      · rw [if_pos hq]
        exact ⟨_, rfl, rfl⟩
      · rw [if_neg hq]
        simp only [List.mem_append, List.mem_singleton] at he
        rcases he with he | he
        · exact hc.free e he
        · exact absurd (by rw [he]) hq
  · rw [h5] at h; cases h
    refine ⟨hnodup, ?_, hc.freeNodup, ?_⟩
    · intro e he
      simp only [OMap.find_erase hi.sorted, if_neg (hmem e he).2]
      exact hc.owned e (hmem e he).1
    · intro e he
      simp only [(hi.debug h3).1] at he
      cases he

theorem careful_cleanup {nd : Bool} {w : World} (hi : Inv nd w.pool) (hc : Careful nd w) {s : Pool}
    (h : w.pool.cleanup nd = .ok s ()) : Careful nd { w with pool := s } := by
  rw [cleanup_eq hi] at h
  cases h
  refine ⟨hc.nodup, ?_, by simp, by simp⟩
  intro e he
  obtain ⟨sl, h1, h2, h3⟩ := hc.owned e he
  refine ⟨sl, ?_, h2, h3⟩
  simp only [find_filter_inuse hi.sorted, h1]
  simp [h2]

theorem reach_careful {nd : Bool} {w : World} (h : Reach nd true w) : Careful nd w := by
  induction h with
  | init m _ => exact ⟨by simp, by simp, by simp [Pool.init], by simp [Pool.init]⟩
  | step op hw ha hs ih =>
    have hi := reach_inv hw
    cases op with
    | align size os =>
      unfold wstep at hs
      simp only at hs
      split at hs
      · rename_i s p hal
        cases hs
        exact (careful_align hi ih ha.2 hal).2
      · rename_i s hal
        cases hs
        rcases align_cases hi size os ha.2 with h1 | ⟨q, _, _, _, _, _, _, h7⟩ | ⟨q, sl, _, _, _, _, h5⟩
        · rw [h1] at hal; cases hal; exact ih
        · rw [h7] at hal; cases hal
        · rw [h5] at hal; cases hal
      · cases hs
    | free p =>
      unfold wstep at hs
      simp only at hs
      split at hs
      · rename_i s u hal
        cases hs
        exact careful_free hi ih p (ha rfl) hal
      · rename_i s hal
        rcases free_cases hi p with ⟨_, h1⟩ | ⟨sl, _, _, h4⟩ | ⟨sl, _, _, _, h5⟩
        · rw [h1] at hal; cases hal
        · rw [h4] at hal; cases hal
        · rw [h5] at hal; cases hal
      · cases hs
    | cleanup =>
      unfold wstep at hs
      simp only at hs
      split at hs
      · rename_i s u hal
        cases hs
        exact careful_cleanup hi ih hal
      · rename_i s hal
        rw [cleanup_eq hi] at hal; cases hal
      · cases hs
    | reconfigure m =>
      cases hs
      exact ⟨ih.nodup, ih.owned, ih.freeNodup, ih.free⟩

/-! ## C06 -/

/-- **C06** (accounting): in every reachable state, whatever the client does, the used counter is the
number of bytes obtained from the system and not returned, and the peak counter is not below it. -/
theorem C06_accounting {nd careful : Bool} {w : World} (h : Reach nd careful w) :
    w.pool.used = OMap.total w.pool.heap ∧ w.pool.used ≤ w.pool.maxUsed :=
  ⟨(reach_inv h).used, (reach_inv h).peak⟩

/-- **C06** (no undefined behaviour, peak never decreases): every allowed call is executed and does
not lower the peak counter. -/
theorem C06_step {nd careful : Bool} {w : World} (h : Reach nd careful w) (op : Op)
    (ha : Allowed nd careful w op) :
    ∃ w', wstep nd w op = some w' ∧ w.pool.maxUsed ≤ w'.pool.maxUsed := by
  have hi := reach_inv h
  cases op with
  | align size os =>
    unfold wstep
    rcases align_cases hi size os ha.2 with h1 | ⟨q, _, _, _, _, _, _, h7⟩ | ⟨q, sl, _, _, _, _, h5⟩
    · simp only [h1]; exact ⟨_, rfl, Nat.le_refl _⟩
    · simp only [h7]; exact ⟨_, rfl, Nat.le_max_left _ _⟩
    · simp only [h5]; exact ⟨_, rfl, Nat.le_refl _⟩
  | free p =>
    unfold wstep
    rcases free_cases hi p with ⟨_, h1⟩ | ⟨sl, _, _, h4⟩ | ⟨sl, _, _, _, h5⟩
    · simp only [h1]; exact ⟨_, rfl, Nat.le_refl _⟩
    · simp only [h4]; exact ⟨_, rfl, Nat.le_refl _⟩
    · simp only [h5]; exact ⟨_, rfl, Nat.le_refl _⟩
  | cleanup =>
    unfold wstep
    simp only [cleanup_eq hi]
    exact ⟨_, rfl, Nat.le_refl _⟩
  | reconfigure m => exact ⟨_, rfl, Nat.le_refl _⟩

/-- **C06** (no block is in use and free): for careful clients the blocks they own are pairwise
different, none of them is on the free list, and no block is twice on the free list. -/
theorem C06_disjoint {nd : Bool} {w : World} (h : Reach nd true w) :
    (w.owned.map (fun e => e.1)).Nodup ∧ (w.pool.freeMap.map (fun e => e.2)).Nodup ∧
    ∀ e ∈ w.owned, ∀ f ∈ w.pool.freeMap, e.1 ≠ f.2 := by
  have hc := reach_careful h
  refine ⟨hc.nodup, hc.freeNodup, ?_⟩
  rintro ⟨p, n⟩ he ⟨m, q⟩ hf hpq
  simp only at hpq
  subst hpq
  exact hc.disjoint he hf

/-! ## C07 -/

theorem numBlocks_bytes (nd : Bool) (size : Nat) (h : size + blockSize nd ≤ W) :
    size ≤ slotBytes nd (numBlocks nd size) := by
  unfold slotBytes numBlocks
  have hb : 0 < blockSize nd := by cases nd <;> decide
  have hd := Nat.div_add_mod size (blockSize nd)
  have hlt := Nat.mod_lt size hb
  rw [Nat.mul_comm] at hd
  split
  · rename_i hpos
    rw [Nat.add_mul, Nat.one_mul]
    rw [Nat.mod_eq_of_lt (by omega)]
    omega
  · have : size % blockSize nd = 0 := by omega
    rw [Nat.add_zero, Nat.mod_eq_of_lt (by omega)]
    omega

/-- **C07** (partial: careful clients only): a pointer returned by `Align` is different from all
pointers the client owns, and its block in the system has at least the requested size (for requests
that do not come within one block of the largest `size_t`). -/
theorem C07_fresh_partial {nd : Bool} {w : World} (h : Reach nd true w) {size : Nat}
    {os : Option Nat} (ha : Allowed nd true w (.align size os)) {s : Pool} {p : Nat}
    (hal : w.pool.align nd size os = .ok s p) :
    (∀ n, (p, n) ∉ w.owned) ∧
    ∃ bytes, OMap.find p s.heap = some bytes ∧ (size + blockSize nd ≤ W → size ≤ bytes) := by
  have hi := reach_inv h
  have hc := careful_align hi (reach_careful h) ha.2 hal
  refine ⟨hc.1, ?_⟩
  obtain ⟨sl, h1, _, h3⟩ := hc.2.owned (p, size) List.mem_cons_self
  have hi' := inv_align hi size os ha.2 hal
  refine ⟨slotBytes nd sl.size, ?_, ?_⟩
  · rw [hi'.find_heap, h1]; rfl
  · intro hs
    rw [h3]
    exact numBlocks_bytes nd size hs

/-- **C07** (blocks stay large enough): whatever a careful client owns is backed by a live system block
of at least the requested size. -/
theorem C07_backed {nd : Bool} {w : World} (h : Reach nd true w) :
    ∀ e ∈ w.owned, ∃ bytes, OMap.find e.1 w.pool.heap = some bytes ∧
      (e.2 + blockSize nd ≤ W → e.2 ≤ bytes) := by
  intro e he
  obtain ⟨sl, h1, _, h3⟩ := (reach_careful h).owned e he
  refine ⟨slotBytes nd sl.size, ?_, ?_⟩
  · rw [(reach_inv h).find_heap, h1]; rfl
  · intro hs
    rw [h3]
    exact numBlocks_bytes nd e.2 hs

/-- **C07** as stated is violated: after a double free (release build) the pool hands out the same
pointer twice. -/
theorem C07_violated : ∃ w : World, Reach true false w ∧
    ∃ s p n, w.pool.align true 100 none = .ok s p ∧ (p, n) ∈ w.owned := by
  have h0 : Reach true false { pool := Pool.init 1000000, owned := [] } := .init 1000000 (by decide)
  have h1 : Reach true false
      { pool := { slots := [(64, ⟨1, false⟩)], freeMap := [], used := 4096, maxMem := 1000000,
                  maxUsed := 4096, heap := [(64, 4096)] }, owned := [(64, 100)] } :=
    .step (.align 100 (some 64)) h0
      ⟨by decide, by intro a ha; cases ha; exact ⟨by decide, by decide⟩⟩ (by decide +kernel)
  have h2 : Reach true false
      { pool := { slots := [(64, ⟨1, true⟩)], freeMap := [(1, 64)], used := 4096, maxMem := 1000000,
                  maxUsed := 4096, heap := [(64, 4096)] }, owned := [] } :=
    .step (.free 64) h1 (by intro h; cases h) (by decide +kernel)
  have h3 : Reach true false
      { pool := { slots := [(64, ⟨1, true⟩)], freeMap := [(1, 64), (1, 64)], used := 4096,
                  maxMem := 1000000, maxUsed := 4096, heap := [(64, 4096)] }, owned := [] } :=
    .step (.free 64) h2 (by intro h; cases h) (by decide +kernel)
  have h4 : Reach true false
      { pool := { slots := [(64, ⟨1, false⟩)], freeMap := [(1, 64)], used := 4096,
                  maxMem := 1000000, maxUsed := 4096, heap := [(64, 4096)] }, owned := [(64, 100)] } :=
    .step (.align 100 none) h3 ⟨by decide, by intro a ha; cases ha⟩ (by decide +kernel)
  refine ⟨_, h4, ⟨[(64, ⟨1, false⟩)], [], 4096, 1000000, 4096, [(64, 4096)]⟩, 64, 100, ?_, ?_⟩
  · decide +kernel
  · decide

/-! ## C08 -/

/-- States reached while the limit stays at `max`. -/
inductive ReachFixed (nd careful : Bool) (max : Nat) : World → Prop
  | init : ReachFixed nd careful max { pool := Pool.init max, owned := [] }
  | step {w w' : World} (op : Op) (hw : ReachFixed nd careful max w) (ha : Allowed nd careful w op)
      (hno : ∀ m, op ≠ .reconfigure m)
      (hs : wstep nd w op = some w') : ReachFixed nd careful max w'

theorem ReachFixed.reach {nd careful : Bool} {max : Nat} (hm : max < W) {w : World}
    (h : ReachFixed nd careful max w) : Reach nd careful w := by
  induction h with
  | init => exact .init max hm
  | step op _ ha _ hs ih => exact .step op ih ha hs

theorem total_dvd (nd : Bool) (slots : OMap Nat Slot) :
    blockSize nd ∣ OMap.total (OMap.mapv (fun sl => slotBytes nd sl.size) slots) := by
  induction slots with
  | nil => exact Nat.dvd_zero _
  | cons q r ih =>
    have h1 : blockSize nd ∣ slotBytes nd q.2.size := by
      unfold slotBytes
      have hw : blockSize nd ∣ W := by cases nd <;> decide
      exact (Nat.dvd_mod_iff hw).2 (Nat.dvd_mul_left _ _)
    unfold OMap.total OMap.mapv at *
    simp only [List.map_cons, List.sum_cons]
    exact Nat.dvd_add h1 ih

theorem block_le {B n m : Nat} (hm : B ∣ m) (h : n ≤ m) :
    (n / B + if n % B > 0 then 1 else 0) * B ≤ m := by
  obtain ⟨k, rfl⟩ := hm
  rcases Nat.eq_zero_or_pos B with hB | hB
  · subst hB; simp
  have h1 : n / B ≤ k := by
    have := Nat.div_le_div_right (c := B) h
    rwa [Nat.mul_div_cancel_left _ hB] at this
  have hd := Nat.div_add_mod n B
  rw [Nat.mul_comm B k]
  apply Nat.mul_le_mul_right
  split
  · rename_i hp
    rcases Nat.lt_or_ge (n / B) k with h2 | h2
    · omega
    · have : n / B = k := by omega
      rw [this] at hd
      omega
  · omega

/-- **C08** (partial): if the limit is a multiple of the block size (always so in a debug build), the
memory obtained from the system never exceeds it, whatever the client does. -/
theorem C08_limit_partial {nd careful : Bool} {max : Nat} (hm : max < W)
    (hdvd : blockSize nd ∣ max) {w : World} (h : ReachFixed nd careful max w) :
    OMap.total w.pool.heap ≤ max := by
  have key : w.pool.used ≤ max ∧ w.pool.maxMem = max := by
    induction h with
    | init => exact ⟨Nat.zero_le _, rfl⟩
    | step op hw ha hno hs ih =>
      have hi := reach_inv (hw.reach hm)
      cases op with
      | align size os =>
        unfold wstep at hs
        simp only at hs
        rcases align_cases hi size os ha.2 with h1 | ⟨q, hav, _, _, _, _, h6, h7⟩ | ⟨q, sl, _, _, _, _, h5⟩
        · rw [h1] at hs; cases hs; exact ih
        · rw [h7] at hs; cases hs
          refine ⟨?_, ih.2⟩
          simp only
          unfold Pool.avail at hav
          rw [ih.2, usub_eq hm ih.1] at hav
          have hd2 := total_dvd nd
          have hu := Nat.dvd_sub hdvd (by
            have := hi.used; rw [hi.heap] at this; exact this ▸ hd2 _)
          have := block_le hu hav
          have hle : slotBytes nd (numBlocks nd size) ≤ numBlocks nd size * blockSize nd :=
            Nat.mod_le _ _
          unfold numBlocks at hle ⊢
          omega
        · rw [h5] at hs; cases hs; exact ih
      | free p =>
        unfold wstep at hs
        rcases free_cases hi p with ⟨_, h1⟩ | ⟨sl, _, _, h4⟩ | ⟨sl, _, _, _, h5⟩
        · simp only [h1] at hs; cases hs; exact ih
        · simp only [h4] at hs; cases hs; exact ih
        · simp only [h5] at hs; cases hs
          exact ⟨by have := ih.1; simp only; omega, ih.2⟩
      | cleanup =>
        unfold wstep at hs
        simp only [cleanup_eq hi] at hs
        cases hs
        refine ⟨?_, ih.2⟩
        have h2 := hi.used
        rw [hi.heap, ← total_filter_add nd] at h2
        have := ih.1
        simp only
        omega
      | reconfigure m => exact absurd rfl (hno m)
  rw [← (reach_inv (h.reach hm)).used]
  exact key.1

/-- **C08** is violated in a release build for a limit that is not a multiple of 4096: the limit is
exceeded, and from then on requests of nearly any size pass the check. -/
theorem C08_violated : ∃ w : World, ReachFixed true true 5000 w ∧ OMap.total w.pool.heap > 5000 ∧
    w.pool.avail > 10 ^ 18 := by
  have h1 : ReachFixed true true 5000
      { pool := { slots := [(64, ⟨2, false⟩)], freeMap := [], used := 8192, maxMem := 5000,
                  maxUsed := 8192, heap := [(64, 8192)] }, owned := [(64, 5000)] } :=
    .step (.align 5000 (some 64)) .init
      ⟨by decide, by intro a ha; cases ha; exact ⟨by decide, by decide⟩⟩ (by intro m h; cases h)
      (by decide +kernel)
  exact ⟨_, h1, by decide +kernel, by decide +kernel⟩

/-! ## C09 -/

/-- **C09**: `Cleanup` keeps exactly the blocks in use, with address and size, returns all others, and
lowers the used counter by exactly the bytes returned; a careful client keeps everything it owns. -/
theorem C09_cleanup {nd careful : Bool} {w : World} (h : Reach nd careful w) :
    ∃ s, w.pool.cleanup nd = .ok s () ∧
      (∀ p sl, OMap.find p s.slots = some sl ↔ OMap.find p w.pool.slots = some sl ∧ sl.free = false) ∧
      (∀ p, OMap.find p s.heap =
        match OMap.find p w.pool.slots with
        | some sl => if sl.free then none else OMap.find p w.pool.heap
        | none => none) ∧
      s.freeMap = [] ∧
      s.used + OMap.total (OMap.mapv (fun sl => slotBytes nd sl.size)
        (w.pool.slots.filter (fun q => q.2.free))) = w.pool.used ∧
      (careful = true → ∀ e ∈ w.owned, OMap.find e.1 s.heap = OMap.find e.1 w.pool.heap ∧
        (OMap.find e.1 s.heap).isSome) := by
  have hi := reach_inv h
  have hadd := total_filter_add nd w.pool.slots
  have hu := hi.used
  rw [hi.heap] at hu
  have hheap : ∀ p, OMap.find p (OMap.mapv (fun sl => slotBytes nd sl.size)
      (w.pool.slots.filter (fun q => !q.2.free))) =
        match OMap.find p w.pool.slots with
        | some sl => if sl.free then none else OMap.find p w.pool.heap
        | none => none := by
    intro p
    rw [OMap.find_mapv, find_filter_inuse hi.sorted, hi.find_heap]
    cases hf : OMap.find p w.pool.slots with
    | none => rfl
    | some sl => cases hfr : sl.free <;> simp [hfr]
  refine ⟨_, cleanup_eq hi, ?_, hheap, rfl, by simp only; omega, ?_⟩
  · intro p sl
    simp only [find_filter_inuse hi.sorted]
    cases hf : OMap.find p w.pool.slots with
    | none => simp
    | some sl' =>
      cases hfr : sl'.free
      · simp only [hfr, Bool.false_eq_true, if_false]
        constructor
        · intro hx; cases hx; exact ⟨rfl, hfr⟩
        · intro hx; exact hx.1
      · simp only [hfr, if_true]
        constructor
        · intro hx; cases hx
        · rintro ⟨hx, hy⟩
          cases hx
          rw [hfr] at hy; cases hy
  · intro hc e he
    subst hc
    obtain ⟨sl, h1, h2, _⟩ := (reach_careful h).owned e he
    simp only
    rw [hheap, h1]
    simp only [h2, Bool.false_eq_true, if_false, true_and]
    rw [hi.find_heap, h1]
    rfl

/-- Non-vacuity for C06 - C09: a careful client that owns one block while another one is free. -/
example : ∃ w : World, Reach true true w ∧ w.owned = [(4096, 5000)] ∧
    w.pool.freeMap = [(1, 64)] ∧ w.pool.used = 12288 := by
  have h0 : Reach true true { pool := Pool.init 1000000, owned := [] } := .init 1000000 (by decide)
  have h1 : Reach true true
      { pool := { slots := [(64, ⟨1, false⟩)], freeMap := [], used := 4096, maxMem := 1000000,
                  maxUsed := 4096, heap := [(64, 4096)] }, owned := [(64, 100)] } :=
    .step (.align 100 (some 64)) h0
      ⟨by decide, by intro a ha; cases ha; exact ⟨by decide, by decide⟩⟩ (by decide +kernel)
  have h2 : Reach true true
      { pool := { slots := [(64, ⟨1, false⟩), (4096, ⟨2, false⟩)], freeMap := [], used := 12288,
                  maxMem := 1000000, maxUsed := 12288, heap := [(64, 4096), (4096, 8192)] },
        owned := [(4096, 5000), (64, 100)] } :=
    .step (.align 5000 (some 4096)) h1
      ⟨by decide, by intro a ha; cases ha; exact ⟨by decide, by decide⟩⟩ (by decide +kernel)
  have h3 : Reach true true
      { pool := { slots := [(64, ⟨1, true⟩), (4096, ⟨2, false⟩)], freeMap := [(1, 64)], used := 12288,
                  maxMem := 1000000, maxUsed := 12288, heap := [(64, 4096), (4096, 8192)] },
        owned := [(4096, 5000)] } :=
    .step (.free 64) h2 (by intro _; left; exact ⟨100, by decide⟩) (by decide +kernel)
  exact ⟨_, h3, rfl, rfl, rfl⟩

/-! ## C10 -/

/-- The number of bytes of a unit letter. -/
def unitBytes : Option Char → Option Nat
  | none => some 1
  | some 'K' => some 1024
  | some 'M' => some (1024 ^ 2)
  | some 'G' => some (1024 ^ 3)
  | some 'T' => some (1024 ^ 4)
  | some _ => none

/-- Digit strings and their value, by recursion from the right. -/
inductive Numeral : Str → Nat → Prop
  | digit (d : Nat) (h : d < 10) : Numeral [Char.ofNat (48 + d)] d
  | snoc {s : Str} {n : Nat} (d : Nat) (h : d < 10) (hs : Numeral s n) :
      Numeral (s ++ [Char.ofNat (48 + d)]) (10 * n + d)

theorem digit_facts (d : Nat) (h : d < 10) : isDigit (Char.ofNat (48 + d)) = true ∧
    (Char.ofNat (48 + d)).toNat - '0'.toNat = d ∧ Char.ofNat (48 + d) ≠ 'B' ∧
    unitFactor (Char.ofNat (48 + d)) = some 1 := by
  have : d = 0 ∨ d = 1 ∨ d = 2 ∨ d = 3 ∨ d = 4 ∨ d = 5 ∨ d = 6 ∨ d = 7 ∨ d = 8 ∨ d = 9 := by omega
  rcases this with h | h | h | h | h | h | h | h | h | h <;> subst h <;> decide

theorem Numeral.facts {s : Str} {n : Nat} (h : Numeral s n) :
    s ≠ [] ∧ s.all isDigit = true ∧ decVal s = n ∧
      ∃ d, d < 10 ∧ s.getLast? = some (Char.ofNat (48 + d)) := by
  induction h with
  | digit d h =>
    obtain ⟨h1, h2, _, _⟩ := digit_facts d h
    refine ⟨by simp, by simp [h1], ?_, d, h, rfl⟩
    simp only [decVal, List.foldl_cons, List.foldl_nil, h2]
    omega
  | snoc d h hs ih =>
    obtain ⟨h1, h2, _, _⟩ := digit_facts d h
    refine ⟨by simp, by simp [h1]; simpa using ih.2.1, ?_, d, h, by simp⟩
    have := ih.2.2.1
    unfold decVal at this ⊢
    rw [List.foldl_append, this]
    simp only [List.foldl_cons, List.foldl_nil, h2]

/-- **C10** (partial): a numeral followed by an optional unit and an optional `B` is read as number
times unit when the product fits. -/
theorem C10_size_partial (s : Str) (n : Nat) (unit : Option Char) (b : Bool) (f : Nat)
    (hs : Numeral s n) (hu : unitBytes unit = some f) (hfit : n * f < 2 ^ 64) :
    readFromString (s ++ unit.toList ++ (if b then ['B'] else [])) = .value (n * f) := by
  obtain ⟨hne, hdig, hval, d, hd, hlast⟩ := hs.facts
  obtain ⟨_, _, hdB, hdu⟩ := digit_facts d hd
  have hf1 : f ≥ 1 := by
    unfold unitBytes at hu
    split at hu <;> simp at hu <;> omega
  have hn : n < W := by
    have : n * 1 ≤ n * f := Nat.mul_le_mul_left n hf1
    unfold W; omega
  have hmod : n * f % W = n * f := Nat.mod_eq_of_lt hfit
  have hemp : s.isEmpty = false := by simpa using hne
  have core : ∀ u : Str, u = s ++ unit.toList →
      ∃ suffix, u.getLast? = some suffix ∧ suffix ≠ 'B' ∧ ∃ factor, unitFactor suffix = some factor ∧
        factor = f ∧ (if factor > 1 then u.dropLast else u) = s := by
    intro u hu'
    subst hu'
    unfold unitBytes at hu
    split at hu
    · simp at hu
      subst hu
      refine ⟨_, by simpa using hlast, hdB, 1, hdu, rfl, by simp⟩
    · cases hu
      exact ⟨'K', by simp, by decide, 1024, by decide, rfl, by simp⟩
    · cases hu
      exact ⟨'M', by simp, by decide, 1024 * 1024, by decide, rfl, by simp⟩
    · cases hu
      exact ⟨'G', by simp, by decide, 1024 * 1024 * 1024, by decide, rfl, by simp⟩
    · cases hu
      exact ⟨'T', by simp, by decide, 1024 * 1024 * 1024 * 1024, by decide, rfl, by simp⟩
    · cases hu
  obtain ⟨suffix, h1, h2, factor, h3, h4, h5⟩ := core _ rfl
  subst h4
  generalize s ++ unit.toList = u at h1 h5
  unfold readFromString
  cases b with
  | true =>
    simp only [if_true, List.getLast?_append, List.getLast?_singleton, Option.some_or,
      List.dropLast_concat]
    rw [h1]
    simp only [h3, h5, hdig, hemp, if_true, Bool.false_eq_true, if_false, hval, hn, hmod]
  | false =>
    simp only [Bool.false_eq_true, if_false, List.append_nil]
    rw [h1]
    simp only [if_neg h2]
    rw [h1]
    simp only [h3, h5, hdig, hemp, if_true, Bool.false_eq_true, if_false, hval, hn, hmod]

/-- **C10** (rejections): a text is accepted only if it is a non empty digit string followed by an
optional unit and an optional `B`. -/
theorem C10_rejects (t : Str) (v : Nat) (h : readFromString t = .value v) :
    ∃ (s : Str) (unit : Option Char) (b : Bool) (f : Nat),
      t = s ++ unit.toList ++ (if b then ['B'] else []) ∧ s ≠ [] ∧ (∀ c ∈ s, isDigit c = true) ∧
      unitBytes unit = some f := by
  unfold readFromString at h
  split at h
  · cases h
  rename_i last hlast
  have ht : t = t.dropLast ++ [last] := by
    have hne : t ≠ [] := by rintro rfl; simp at hlast
    rw [List.getLast?_eq_some_getLast hne] at hlast
    simp at hlast
    rw [← hlast]
    exact (List.dropLast_append_getLast hne).symm
  obtain ⟨u, b, hu, hb⟩ : ∃ (u : Str) (b : Bool), (if last = 'B' then t.dropLast else t) = u ∧
      t = u ++ (if b then ['B'] else []) := by
    by_cases hB : last = 'B'
    · exact ⟨t.dropLast, true, by simp [hB], by rw [if_pos rfl, ← hB]; exact ht⟩
    · exact ⟨t, false, by simp [hB], by simp⟩
  simp only [hu] at h
  split at h
  · cases h
  rename_i suffix hsuf
  have hu' : u = u.dropLast ++ [suffix] := by
    have hne : u ≠ [] := by rintro rfl; simp at hsuf
    rw [List.getLast?_eq_some_getLast hne] at hsuf
    simp at hsuf
    rw [← hsuf]
    exact (List.dropLast_append_getLast hne).symm
  split at h
  · cases h
  rename_i factor hfac
  by_cases hbig : factor > 1
  · rw [if_pos hbig] at h
    split at h
    · rename_i hall
      split at h
      · cases h
      · rename_i hemp
        obtain ⟨f, hf⟩ : ∃ f, unitBytes (some suffix) = some f := by
          unfold unitFactor at hfac
          split at hfac
          · rename_i hx; subst hx; exact ⟨_, rfl⟩
          split at hfac
          · rename_i hx; subst hx; exact ⟨_, rfl⟩
          split at hfac
          · rename_i hx; subst hx; exact ⟨_, rfl⟩
          split at hfac
          · rename_i hx; subst hx; exact ⟨_, rfl⟩
          split at hfac
          · simp at hfac; omega
          · cases hfac
        refine ⟨u.dropLast, some suffix, b, f, ?_, by simpa using hemp, ?_, hf⟩
        · rw [hb]; congr 1
        · simpa using hall
    · cases h
  · rw [if_neg hbig] at h
    split at h
    · rename_i hall
      split at h
      · cases h
      · rename_i hemp
        exact ⟨u, none, b, 1, by simpa using hb, by simpa using hemp, by simpa using hall, rfl⟩
    · cases h

/-- **C10** is violated: the empty text, `B` and a bare unit are not rejected, reading them is
undefined behaviour; a product that does not fit is silently reduced modulo 2^64. -/
theorem C10_violated :
    readFromString [] = .ub ∧ readFromString ['B'] = .ub ∧ readFromString ['K'] = .ub ∧
    readFromString ['M', 'B'] = .ub ∧
    readFromString "16777216T".toList = .value 0 := by decide

example : Numeral ['1', '2'] 12 ∧ unitBytes (some 'G') = some (1024 ^ 3) ∧
    12 * 1024 ^ 3 < 2 ^ 64 :=
  ⟨.snoc 2 (by decide) (.digit 1 (by decide)), rfl, by decide⟩

end QDng.Memory
