import Verif.Lap.Spec

/-
Lemmas on requests for work arrays.
-/

namespace QDng.Lap

open QDng QDng.Memory

theorem szt_eq {k : Nat} (h : k < W) : szt (k : Int) = k := by
  unfold szt
  unfold W at h
  omega

/-- What a successful request gives: a state that can be reached, memory of the size rounded up to whole
blocks, all other memory as before, the pointer not among those held before. -/
theorem request_got {sys : Sys} (ho : Honest sys) {w w' : World} {p size : Nat}
    (hr : Reach sys.nd true w) (hs : size < W) (h : request sys w size = .got w' p) :
    Reach sys.nd true w' ∧ w'.owned = (p, size) :: w.owned ∧ (∀ n, (p, n) ∉ w.owned) ∧
      cap w' p = slotBytes sys.nd (numBlocks sys.nd size) := by
  have ha : Allowed sys.nd true w (.align size (sys.os w.pool size)) := ⟨hs, ho _ _⟩
  unfold request at h
  split at h
  · rename_i s q hal
    cases h
    have hstep : wstep sys.nd w (.align size (sys.os w.pool size)) =
        some { pool := s, owned := (p, size) :: w.owned } := by
      unfold wstep; simp only [hal]
    have hr' := Reach.step _ hr ha hstep
    refine ⟨hr', rfl, (C07_fresh_partial hr ha hal).1, ?_⟩
    obtain ⟨sl, h1, _, h3⟩ := (reach_careful hr').owned (p, size) List.mem_cons_self
    unfold cap
    rw [(reach_inv hr').find_heap]
    simp only at h1 h3 ⊢
    rw [h1, ← h3]; rfl
  · cases h
  · cases h

theorem request_threw {sys : Sys} (ho : Honest sys) {w w' : World} {size : Nat}
    (hr : Reach sys.nd true w) (h : request sys w size = .threw w') : w' = w := by
  unfold request at h
  rcases align_cases (reach_inv hr) size _ (ho w.pool size) with h1 | ⟨q, _, _, _, _, _, _, h7⟩ |
    ⟨q, sl, _, _, _, _, h5⟩
  · rw [h1] at h; cases h; rfl
  · rw [h7] at h; cases h
  · rw [h5] at h; cases h

theorem request_ub {sys : Sys} (ho : Honest sys) {w : World} {size : Nat}
    (hr : Reach sys.nd true w) : request sys w size ≠ .ub := by
  intro h
  unfold request at h
  rcases align_cases (reach_inv hr) size _ (ho w.pool size) with h1 | ⟨q, _, _, _, _, _, _, h7⟩ |
    ⟨q, sl, _, _, _, _, h5⟩
  · rw [h1] at h; cases h
  · rw [h7] at h; cases h
  · rw [h5] at h; cases h

/-- The two ways a request can go. -/
theorem withMem_cases {sys : Sys} (ho : Honest sys) {w : World} (hr : Reach sys.nd true w) {size : Nat}
    (hs : size < W) (calls : List Call) (k : World → Nat → Run) :
    (withMem sys w size calls k = ⟨calls, w, .threw⟩) ∨
    (∃ w' p, withMem sys w size calls k = k w' p ∧ Reach sys.nd true w' ∧
      w'.owned = (p, size) :: w.owned ∧ (∀ n, (p, n) ∉ w.owned) ∧
      cap w' p = slotBytes sys.nd (numBlocks sys.nd size)) := by
  unfold withMem
  cases h : request sys w size with
  | got w' p => right; exact ⟨w', p, rfl, request_got ho hr hs h⟩
  | threw w' => left; rw [request_threw ho hr h]
  | ub => exact absurd h (request_ub ho hr)

/-- Giving a pointer back that is held. -/
theorem release_eq {sys : Sys} {w : World} (hr : Reach sys.nd true w) {p n : Nat}
    (hp : (p, n) ∈ w.owned) (calls : List Call) (k : World → Run) :
    ∃ w', release sys w p calls k = k w' ∧ Reach sys.nd true w' ∧
      w'.owned = w.owned.filter (fun e => e.1 ≠ p) := by
  have ha : Allowed sys.nd true w (.free p) := fun _ => Or.inl ⟨n, hp⟩
  obtain ⟨w', h1, _⟩ := C06_step hr (.free p) ha
  refine ⟨w', ?_, Reach.step _ hr ha h1, ?_⟩
  · unfold release; rw [h1]
  · unfold wstep at h1
    rcases free_cases (reach_inv hr) p with ⟨_, h2⟩ | ⟨sl, _, _, h2⟩ | ⟨sl, _, _, _, h2⟩ <;>
    · simp only [h2, Option.some.injEq] at h1
      rw [← h1]

theorem filter_fresh {l : List (Nat × Nat)} {p : Nat} (h : ∀ n, (p, n) ∉ l) :
    l.filter (fun e => e.1 ≠ p) = l := by
  rw [List.filter_eq_self]
  rintro ⟨a, b⟩ he
  simp only [ne_eq, decide_not, Bool.not_eq_eq_eq_not, Bool.not_true, decide_eq_false_iff_not]
  rintro rfl
  exact h _ he

theorem filter_cons_fresh {l : List (Nat × Nat)} {p n : Nat} (h : ∀ n, (p, n) ∉ l) :
    ((p, n) :: l).filter (fun e => e.1 ≠ p) = l := by
  rw [List.filter_cons_of_neg (by simp)]
  exact filter_fresh h

/-- A request that fits in whole blocks. -/
theorem bytes_ge (nd : Bool) {size : Nat} (h : size + 4096 ≤ W) :
    size ≤ slotBytes nd (numBlocks nd size) := by
  apply numBlocks_bytes
  cases nd <;> simp [blockSize] <;> omega

/-- The blocks of a request, from above. -/
theorem bytes_le (nd : Bool) (size : Nat) :
    slotBytes nd (numBlocks nd size) < size + blockSize nd := by
  unfold slotBytes numBlocks
  have hb : 0 < blockSize nd := by cases nd <;> decide
  have hd := Nat.div_add_mod size (blockSize nd)
  refine Nat.lt_of_le_of_lt (Nat.mod_le _ _) ?_
  rw [Nat.mul_comm] at hd
  have := Nat.mod_lt size hb
  split
  · rw [Nat.add_mul, Nat.one_mul]; omega
  · rw [Nat.add_zero]; omega

/-- The bytes held are not more than those obtained from the system. -/
theorem sum_le_total (l : List (Nat × Nat)) (m : OMap Nat Nat) (hm : OMap.Sorted m)
    (hn : (l.map (fun e => e.1)).Nodup)
    (hb : ∀ e ∈ l, ∃ b, OMap.find e.1 m = some b ∧ e.2 ≤ b) :
    (l.map (fun e => e.2)).sum ≤ OMap.total m := by
  induction l generalizing m with
  | nil => simp
  | cons e l ih =>
    obtain ⟨b, h1, h2⟩ := hb e List.mem_cons_self
    have ht := OMap.total_erase h1
    rw [List.map_cons, List.nodup_cons] at hn
    have := ih (OMap.erase e.1 m) (OMap.sorted_erase hm) hn.2 (by
      intro e' he'
      obtain ⟨b', h3, h4⟩ := hb e' (List.mem_cons_of_mem _ he')
      refine ⟨b', ?_, h4⟩
      rw [OMap.find_erase hm, if_neg]
      · exact h3
      · rintro h
        exact hn.1 (h ▸ List.mem_map_of_mem he'))
    simp only [List.map_cons, List.sum_cons]
    omega

end QDng.Lap
