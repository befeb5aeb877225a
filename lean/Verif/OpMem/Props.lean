import Verif.Collector.Props
import Verif.OpMem.Model

/-!
Properties of the life of operator objects in memory.
-/

namespace QDng.OpMem

open QDng.Collector (Req run life)

/-- What a program does with operators whose `Operator` part is at the beginning. -/
inductive Step where
  | new (r : Nat)
  | del (r : Nat)

/-- The effect of a step. -/
def Step.apply (m : Mem) : Step → Mem
  | .new r => OpMem.new m r 0
  | .del r => OpMem.del m r 0

/-- New objects get memory that is not in use, only living objects are deleted. -/
def Step.Legal (m : Mem) : Step → Prop
  | .new r => r ≠ 0 ∧ m.live r = none
  | .del r => (m.live r).isSome = true

/-- The states programs reach that make and delete operators whose `Operator` part is at the beginning. -/
inductive Plain : Mem → Prop
  | empty : Plain Mem.empty
  | step {m : Mem} (s : Step) : Plain m → s.Legal m → Plain (s.apply m)

/-- The registry is in a state it can reach. -/
def Reached (m : Mem) : Prop := ∃ l : List Req, m.coll = run l

theorem run_reg (l : List Req) (p : Nat) : (run l).register p = run (l ++ [.register p]) := by
  unfold run
  rw [List.foldl_append]
  rfl

theorem run_del (l : List Req) (p : Nat) : (run l).delete p = run (l ++ [.delete p]) := by
  unfold run
  rw [List.foldl_append]
  rfl

theorem life_reg (l : List Req) (p q : Nat) :
    (life p (l ++ [.register q])).open_ = (life p l).open_ + (if q = p then 1 else 0)
      ∧ (life p (l ++ [.register q])).ended = (life p l).ended := by
  unfold life
  rw [List.foldl_append]
  show (Collector.Life.step p _ (.register q)).open_ = _ ∧ _
  by_cases h : q = p
  · subst h
    simp [Collector.Life.step]
  · simp [Collector.Life.step, h]

theorem life_del_one (l : List Req) (p : Nat) (h : (life p l).open_ = 1) :
    (life p (l ++ [.delete p])).open_ = 0 ∧ (life p (l ++ [.delete p])).ended = (life p l).ended + 1 := by
  unfold life at h ⊢
  rw [List.foldl_append]
  show (Collector.Life.step p _ (.delete p)).open_ = _ ∧ (Collector.Life.step p _ (.delete p)).ended = _
  simp [Collector.Life.step, h]

theorem life_del_two (l : List Req) (p : Nat) (h : (life p l).open_ = 2) :
    (life p (l ++ [.delete p])).open_ = 1 ∧ (life p (l ++ [.delete p])).ended = (life p l).ended := by
  unfold life at h ⊢
  rw [List.foldl_append]
  show (Collector.Life.step p _ (.delete p)).open_ = _ ∧ (Collector.Life.step p _ (.delete p)).ended = _
  simp [Collector.Life.step, h]

theorem life_del_other (l : List Req) (p q : Nat) (h : q ≠ p) : life p (l ++ [.delete q]) = life p l := by
  unfold life
  rw [List.foldl_append]
  show Collector.Life.step p _ (.delete q) = _
  simp [Collector.Life.step, h]

/-- Deleting the last registration changes the record of what was destroyed. -/
theorem destroyed_ne (l : List Req) (p : Nat) (hp : p ≠ 0) (h : (life p l).open_ = 1) :
    (run (l ++ [.delete p])).destroyed ≠ (run l).destroyed := by
  intro hc
  have h1 := (Collector.C11_refcount (l ++ [.delete p])).2.1 p hp
  have h2 := (Collector.C11_refcount l).2.1 p hp
  rw [hc, h2, (life_del_one l p h).2] at h1
  omega

/-- The registry counts one for every living object. -/
theorem plain_inv {m : Mem} (h : Plain m) :
    ∃ l : List Req, m.coll = run l
      ∧ ∀ p, p ≠ 0 → (life p l).open_ = if (m.live p).isSome = true then 1 else 0 := by
  induction h with
  | empty => exact ⟨[], rfl, fun p _ => rfl⟩
  | @step m s hm hl ih =>
    obtain ⟨l, h1, h2⟩ := ih
    cases s with
    | new r =>
      obtain ⟨hr, hn⟩ := hl
      refine ⟨l ++ [.register r], ?_, fun p hp => ?_⟩
      · show m.coll.register r = _
        rw [h1, run_reg]
      · show _ = if ((put m.live r (some 0)) p).isSome = true then 1 else 0
        rw [(life_reg l p r).1, h2 p hp]
        by_cases h : p = r
        · subst h
          simp [put, hn]
        · have h' : r ≠ p := fun e => h e.symm
          simp [put, h, h']
    | del r =>
      have hl' : (m.live r).isSome = true := hl
      by_cases hr : r = 0
      · subst hr
        refine ⟨l, ?_, fun p hp => ?_⟩
        · have hd : m.coll.delete (0 + 0) = m.coll := by
            rw [Collector.State.delete, if_pos rfl]
          show (OpMem.del m 0 0).coll = run l
          rw [OpMem.del, if_pos (by rw [hd]), hd]
          exact h1
        · have hd : m.coll.delete (0 + 0) = m.coll := by
            rw [Collector.State.delete, if_pos rfl]
          show _ = if ((OpMem.del m 0 0).live p).isSome = true then 1 else 0
          have hlv : (OpMem.del m 0 0).live = m.live := by
            unfold OpMem.del
            rw [if_pos (show (m.coll.delete (0 + 0)).destroyed = m.coll.destroyed by rw [hd])]
          rw [hlv]
          exact h2 p hp
      · have ho : (life r l).open_ = 1 := by rw [h2 r hr, if_pos hl']
        have hd : (m.coll.delete (r + 0)).destroyed ≠ m.coll.destroyed := by
          rw [h1, Nat.add_zero, run_del]
          exact destroyed_ne l r hr ho
        refine ⟨l ++ [.delete r], ?_, fun p hp => ?_⟩
        · show (OpMem.del m r 0).coll = _
          rw [OpMem.del, if_neg hd]
          show m.coll.delete (r + 0) = _
          rw [h1, Nat.add_zero, run_del]
        · show _ = if ((OpMem.del m r 0).live p).isSome = true then 1 else 0
          rw [OpMem.del, if_neg hd]
          show _ = if ((put m.live r none) p).isSome = true then 1 else 0
          by_cases h : p = r
          · subst h
            rw [(life_del_one l p ho).1]
            simp [put]
          · rw [life_del_other l p r (fun e => h e.symm), h2 p hp]
            simp [put, h]

/-- **C315 (part: the `Operator` part is at the beginning of all objects).**  The registry knows exactly the living
operators, and deleting a living one destroys it and no other. -/
theorem C315_partial (m : Mem) (h : Plain m) :
    (∀ r, r ≠ 0 → (m.coll.isAllocated r = true ↔ (m.live r).isSome = true))
      ∧ ∀ r, r ≠ 0 → (m.live r).isSome = true →
        (del m r 0).live r = none ∧ (del m r 0).coll.isAllocated r = false
          ∧ ∀ q, q ≠ r → (del m r 0).live q = m.live q := by
  have alloc : ∀ m : Mem, Plain m → ∀ r, r ≠ 0 → (m.coll.isAllocated r = true ↔ (m.live r).isSome = true) := by
    intro m h r hr
    obtain ⟨l, h1, h2⟩ := plain_inv h
    rw [h1, (Collector.C11_refcount l).1 r hr, h2 r hr]
    split
    · simp_all
    · simp_all
  refine ⟨alloc m h, fun r hr hl => ?_⟩
  obtain ⟨l, h1, h2⟩ := plain_inv h
  have ho : (life r l).open_ = 1 := by rw [h2 r hr, if_pos hl]
  have hd : (m.coll.delete (r + 0)).destroyed ≠ m.coll.destroyed := by
    rw [h1, Nat.add_zero, run_del]
    exact destroyed_ne l r hr ho
  have hlive : (del m r 0).live = put m.live r none := by rw [del, if_neg hd]
  have hp : Plain (del m r 0) := Plain.step (.del r) h hl
  refine ⟨by rw [hlive]; exact if_pos rfl, ?_, fun q hq => by rw [hlive]; exact if_neg hq⟩
  cases hc : (del m r 0).coll.isAllocated r with
  | false => rfl
  | true =>
    have h3 := (alloc _ hp r hr).1 hc
    rw [hlive] at h3
    simp [put] at h3

theorem alloc_iff {l : List Req} {p : Nat} (hp : p ≠ 0) :
    (run l).isAllocated p = false ↔ (life p l).open_ = 0 := by
  have h := (Collector.C11_refcount l).1 p hp
  cases hc : (run l).isAllocated p with
  | false =>
    rw [hc] at h
    constructor
    · intro _
      rcases Nat.eq_zero_or_pos (life p l).open_ with h2 | h2
      · exact h2
      · exact absurd (h.2 h2) (by decide)
    · intro _; rfl
  | true =>
    have h2 := h.1 hc
    constructor
    · intro h3; cases h3
    · intro h3; omega

/-- **C315 is false for operators whose `Operator` part is not at the beginning** (operators on grids, on matrices, and
with lasers in the usual layout): however often such an operator is deleted, it is not destroyed and the registry does not
change. -/
theorem C315_violated (m : Mem) (hm : Reached m) (r o : Nat) (ho : o ≠ 0) (hf : m.coll.isAllocated (r + o) = false)
    (k : Nat) : delTimes (new m r o) r o k = new m r o ∧ (new m r o).live r = some o := by
  obtain ⟨l, h1⟩ := hm
  have hro : r + o ≠ 0 := by omega
  have hc : (new m r o).coll = run (l ++ [.register r]) := by
    show m.coll.register r = _
    rw [h1, run_reg]
  have hn : (run (l ++ [.register r])).isAllocated (r + o) = false := by
    rw [h1, alloc_iff hro] at hf
    rw [alloc_iff hro, (life_reg l (r + o) r).1, hf, if_neg (by omega)]
  have hd : (new m r o).coll.delete (r + o) = (new m r o).coll := by
    rw [hc]
    exact Collector.C11_delete_unregistered _ _ hn
  have hdel : del (new m r o) r o = new m r o := by
    rw [del, if_pos (by rw [hd]), hd]
  refine ⟨?_, if_pos rfl⟩
  induction k with
  | zero => rfl
  | succ k ih => rw [delTimes, hdel, ih]

/-- The state of the registry after a matrix operator was made and deleted. -/
theorem matrix_life (m : Mem) (l : List Req) (h1 : m.coll = run l) (r o : Nat) (hr : r ≠ 0) (ho : o ≠ 0)
    (hf : m.coll.isAllocated r = false) (hf2 : m.coll.isAllocated (r + o) = false) :
    ∃ l', (del (newMatrix m r o) r o).coll = run l' ∧ (life r l').open_ = 1
      ∧ (del (newMatrix m r o) r o).live = put (newMatrix m r o).live r none := by
  have hro : r + o ≠ 0 := by omega
  have hc : (newMatrix m r o).coll = run (l ++ [.register r] ++ [.register (r + o)]) := by
    show (m.coll.register r).register (r + o) = _
    rw [h1, run_reg, run_reg]
  rw [h1, alloc_iff hr] at hf
  rw [h1, alloc_iff hro] at hf2
  have o1 : (life (r + o) (l ++ [.register r] ++ [.register (r + o)])).open_ = 1 := by
    rw [(life_reg _ _ _).1, (life_reg _ _ _).1, hf2, if_neg (by omega), if_pos rfl]
  have o2 : (life r (l ++ [.register r] ++ [.register (r + o)])).open_ = 1 := by
    rw [(life_reg _ _ _).1, (life_reg _ _ _).1, hf, if_pos rfl, if_neg (by omega)]
  have hd : ((newMatrix m r o).coll.delete (r + o)).destroyed ≠ (newMatrix m r o).coll.destroyed := by
    rw [hc, run_del]
    exact destroyed_ne _ _ hro o1
  refine ⟨l ++ [.register r] ++ [.register (r + o)] ++ [.delete (r + o)], ?_, ?_, ?_⟩
  · rw [del, if_neg hd]
    show (newMatrix m r o).coll.delete (r + o) = _
    rw [hc, run_del]
  · rw [life_del_other _ _ _ (by omega), o2]
  · rw [del, if_neg hd]

/-- **C315 is false for matrix operators made by `NewInstance`** in the usual layout: one deletion destroys the operator,
but the registry still counts its memory as an operator, so destroying everything destroys it a second time, and an operator
that gets the same memory later is not destroyed when it is deleted. -/
theorem C315_violated_matrix (m : Mem) (hm : Reached m) (r o : Nat) (hr : r ≠ 0) (ho : o ≠ 0)
    (hf : m.coll.isAllocated r = false) (hf2 : m.coll.isAllocated (r + o) = false) :
    (newMatrix m r o).live r = some o ∧ (del (newMatrix m r o) r o).live r = none
      ∧ (del (newMatrix m r o) r o).coll.isAllocated r = true
      ∧ r ∈ ((del (newMatrix m r o) r o).coll.deleteAll).destroyed.take
          (((del (newMatrix m r o) r o).coll.deleteAll).destroyed.length
            - (del (newMatrix m r o) r o).coll.destroyed.length)
      ∧ (del (new (del (newMatrix m r o) r o) r 0) r 0).live r = some 0 := by
  obtain ⟨l, h1⟩ := hm
  obtain ⟨l', h2, h3, h4⟩ := matrix_life m l h1 r o hr ho hf hf2
  have hal : (run l').isAllocated r = true := ((Collector.C11_refcount l').1 r hr).2 (by omega)
  refine ⟨if_pos rfl, ?_, ?_, ?_, ?_⟩
  · rw [h4]; exact if_pos rfl
  · rw [h2]; exact hal
  · rw [h2]
    have hfold : ∀ (es : List Collector.Entry) (d : List Nat),
        es.foldl (fun d e => e.p :: d) d = (es.map (·.p)).reverse ++ d := by
      intro es
      induction es with
      | nil => intro d; rfl
      | cons e es ih => intro d; simp [ih]
    have hmem : r ∈ ((run l').refs.filter (fun e => e.refcount > 0)).map (·.p) := by
      have ha := Collector.agree_run l'
      obtain ⟨e, he, hep⟩ := List.mem_map.1 (ha.alive r hr (by show 0 < (life r l').open_; omega))
      refine List.mem_map.2 ⟨e, List.mem_filter.2 ⟨he, ?_⟩, hep⟩
      have h5 := ha.mem e he
      have h6 := h5.2.1
      have h7 := h5.2.2
      simp only [gt_iff_lt, decide_eq_true_eq]
      omega
    show r ∈ List.take _ (List.foldl _ _ _)
    simp only [Collector.State.deleteAll]
    rw [hfold]
    simp only [List.length_append, Nat.add_sub_cancel, List.take_left]
    exact List.mem_reverse.2 hmem
  · have hc : (new (del (newMatrix m r o) r o) r 0).coll = run (l' ++ [.register r]) := by
      show (del (newMatrix m r o) r o).coll.register r = _
      rw [h2, run_reg]
    have ho2 : (life r (l' ++ [.register r])).open_ = 2 := by
      rw [(life_reg _ _ _).1, h3, if_pos rfl]
    by_cases hd : ((new (del (newMatrix m r o) r o) r 0).coll.delete (r + 0)).destroyed
        = (new (del (newMatrix m r o) r o) r 0).coll.destroyed
    · rw [del, if_pos hd]
      exact if_pos rfl
    · exfalso
      apply hd
      rw [hc, Nat.add_zero]
      have hent : (run (l' ++ [.register r])).isAllocated r = true :=
        ((Collector.C11_refcount _).1 r hr).2 (by omega)
      rw [Collector.State.delete, if_neg hr]
      cases hfi : Collector.find r (run (l' ++ [.register r])).refs with
      | none => rfl
      | some i =>
        have ha := Collector.agree_run (l' ++ [.register r])
        obtain ⟨a, e, b, hab, hlen, hep, -⟩ := Collector.find_some hfi
        have hcnt : e.refcount = 2 := by
          have h5 := (ha.mem e (by rw [hab]; simp)).2.1
          rw [hep] at h5
          have h6 : (life r (l' ++ [.register r])).open_ = 2 := ho2
          rw [h5]
          exact_mod_cast h6
        have hget : ((run (l' ++ [.register r])).refs.modify i
            (fun e => { e with refcount := e.refcount - 1 }))[i]? = some { e with refcount := e.refcount - 1 } := by
          rw [List.getElem?_modify_eq, hab, List.getElem?_append_right (by omega)]
          simp [hlen]
        simp only [hget, hcnt]
        rfl

/-! ### The hypotheses are met -/

example : Plain ((Step.new 16).apply Mem.empty) ∧ (((Step.new 16).apply Mem.empty).live 16).isSome = true :=
  ⟨Plain.step (.new 16) Plain.empty ⟨by decide, rfl⟩, rfl⟩

example : Reached Mem.empty ∧ Mem.empty.coll.isAllocated 16 = false ∧ Mem.empty.coll.isAllocated (16 + 24) = false :=
  ⟨⟨[], rfl⟩, rfl, rfl⟩

example : (delTimes (new Mem.empty 16 24) 16 24 3).live 16 = some 24
    ∧ (del (newMatrix Mem.empty 16 24) 16 24).live 16 = none
    ∧ (del (newMatrix Mem.empty 16 24) 16 24).coll.isAllocated 16 = true
    ∧ (del (new Mem.empty 16 0) 16 0).live 16 = none := by decide

end QDng.OpMem
