import Verif.Buffer.Model

/-
Properties of the wave function buffer: C50, C75.
-/

namespace QDng.Buffer

open QDng.Common

variable {V : Type}

/-! ### Specification -/

/-- The calls a program makes on a buffer. -/
inductive Op (V : Type) where
  | init
  | set (pos : Nat) (v : V)
  | add (v : V)
  | get (pos : Nat)
  | lock (pos : Nat)
  | unlock (pos : Nat)
  | autoLock (n : Nat)
  | resize (n : Nat)
  | clear
  | assign (pos : Nat) (v : V)

/-- An ideal buffer: what was stored last at a position, if anything. -/
abbrev Ideal (V : Type) := Nat → Option V

/-- What a call does to the ideal buffer; `n` is the number of positions before the call. -/
def Op.ideal (o : Op V) (n : Nat) (m : Ideal V) : Ideal V :=
  match o with
  | .set pos v => fun i => if i = pos then some v else m i
  | .add v => fun i => if i = n then some v else m i
  | .assign pos v => fun i => if i = pos then some v else m i
  | .resize k => fun i => if i < k then m i else none
  | .clear => fun _ => none
  | _ => m

/-- What a call does to the buffer of the program; `blank` is the content of new wave functions. -/
def Op.run (blank : V) (o : Op V) (b : Buf V) : Out (Buf V) :=
  match o with
  | .init => b.init blank
  | .set pos v => b.set pos v
  | .add v => b.add v
  | .get pos => match b.get pos blank with
    | .ok b _ => .ok b
    | .threw b => .threw b
    | .ub => .ub
  | .lock pos => b.lock pos
  | .unlock pos => b.unlock pos
  | .autoLock n => .ok (b.autoLock n)
  | .resize n => b.resize n
  | .clear => .ok b.clear
  | .assign pos v => b.assign pos v

/-- Reachable pairs of ideal buffer and buffer from an empty one; `exc` tells if calls that end with an exception
are part of the history (`Set` and `Add` store before they throw). -/
inductive Reach (blank : V) (maxBuf size : Nat) (exc : Bool) : Ideal V → Buf V → Prop
  | new : Reach blank maxBuf size exc (fun _ => none) (Buf.new maxBuf size)
  | ok (m b o b') : Reach blank maxBuf size exc m b → Op.run blank o b = .ok b' →
      Reach blank maxBuf size exc (o.ideal b.slots.length m) b'
  | threw (m b o b') : exc = true → Reach blank maxBuf size exc m b → Op.run blank o b = .threw b' →
      Reach blank maxBuf size exc (o.ideal b.slots.length m) b'

/-! ### The parts -/

theorem victim_some (b : Buf V) : ∀ n i, b.victim n = some i →
    1 ≤ i ∧ i ≤ n ∧ ∃ s, b.slots[i]? = some s ∧ s.psi.isSome = true ∧ s.locked = false := by
  intro n
  induction n with
  | zero => intro i h; simp [Buf.victim] at h
  | succ n ih =>
    intro i h
    unfold Buf.victim at h
    split at h
    · rename_i s hs
      split at h
      · rename_i hc
        cases h
        simp at hc
        exact ⟨by omega, by omega, s, hs, hc.1, hc.2⟩
      · obtain ⟨h1, h2, h3⟩ := ih i h
        exact ⟨h1, by omega, h3⟩
    · obtain ⟨h1, h2, h3⟩ := ih i h
      exact ⟨h1, by omega, h3⟩

/-- What `_MoveToDisk` does: nothing, or it moves the content of an unlocked slot other than the first one to its
file. -/
theorem moveToDisk_cases (b : Buf V) : b.moveToDisk = b ∨
    ∃ i s v, 1 ≤ i ∧ b.slots[i]? = some s ∧ s.psi = some v ∧ s.locked = false ∧
      b.moveToDisk = { b with
        disk := fun j => if j = i then some v else b.disk j
        slots := b.slots.set i { s with ondisk := true, psi := none } } := by
  unfold Buf.moveToDisk
  cases h : b.victim (b.slots.length - 1) with
  | none => exact Or.inl rfl
  | some i =>
    obtain ⟨h1, _, s, h3, h4, h5⟩ := victim_some b _ i h
    obtain ⟨v, hv⟩ := Option.isSome_iff_exists.mp h4
    right
    refine ⟨i, s, v, h1, h3, hv, h5, ?_⟩
    simp only [h3, hv]

/-- The buffer agrees with the ideal one. -/
def Agrees (m : Ideal V) (b : Buf V) : Prop :=
  ∀ i v, m i = some v → ∃ s, b.slots[i]? = some s ∧
    (s.psi = some v ∨ (s.psi = none ∧ s.ondisk = true ∧ b.disk i = some v))

theorem agrees_moveToDisk (m : Ideal V) (b : Buf V) (h : Agrees m b) : Agrees m b.moveToDisk := by
  rcases moveToDisk_cases b with e | ⟨i, s, v, _, h2, h3, _, e⟩
  · rw [e]; exact h
  · rw [e]
    intro j w hw
    obtain ⟨s', g1, g2⟩ := h j w hw
    dsimp only
    by_cases hj : j = i
    · subst hj
      rw [h2] at g1
      cases g1
      have hvw : v = w := by
        rcases g2 with g | g
        · rw [h3] at g; exact Option.some.inj g
        · rw [h3] at g; simp at g
      have hlt : j < b.slots.length := (List.getElem?_eq_some_iff.mp h2).1
      refine ⟨_, by rw [List.getElem?_set_self hlt], Or.inr ⟨rfl, rfl, ?_⟩⟩
      rw [if_pos rfl, hvw]
    · refine ⟨s', by rw [List.getElem?_set_ne (Ne.symm hj)]; exact g1, ?_⟩
      rw [if_neg hj]
      exact g2

theorem agrees_makeRoom (m : Ideal V) (b : Buf V) (h : Agrees m b) : Agrees m b.makeRoom := by
  unfold Buf.makeRoom
  split
  · exact agrees_moveToDisk m b h
  · exact h

theorem update_get (b : Buf V) (pos : Nat) (f : Slot V → Slot V) (i : Nat) :
    (b.update pos f).slots[i]? = (b.slots[i]?).map (fun s => if i = pos then f s else s) := by
  unfold Buf.update
  rw [List.getElem?_modify]
  congr 1
  funext s
  by_cases h : pos = i
  · simp [h]
  · rw [if_neg h, if_neg (Ne.symm h)]

/-- Changes of the lock flag do not matter. -/
theorem agrees_lockflag (m : Ideal V) (b : Buf V) (h : Agrees m b) (pos : Nat) (f : Slot V → Slot V)
    (hf : ∀ s, (f s).psi = s.psi ∧ (f s).ondisk = s.ondisk) : Agrees m (b.update pos f) := by
  intro i v hv
  obtain ⟨s, g1, g2⟩ := h i v hv
  refine ⟨if i = pos then f s else s, by rw [update_get, g1]; rfl, ?_⟩
  split
  · rw [(hf s).1, (hf s).2]; exact g2
  · exact g2

/-- Storing a content. -/
theorem agrees_store (m : Ideal V) (b : Buf V) (h : Agrees m b) (pos : Nat) (hp : pos < b.slots.length) (v : V) :
    Agrees (fun i => if i = pos then some v else m i) (b.update pos fun s => { s with psi := some v }) := by
  intro i w hw
  by_cases hi : i = pos
  · subst hi
    simp only [if_true] at hw
    cases hw
    refine ⟨{ b.slots[i] with psi := some v }, ?_, Or.inl rfl⟩
    rw [update_get, List.getElem?_eq_getElem hp]
    simp
  · simp only [if_neg hi] at hw
    obtain ⟨s, g1, g2⟩ := h i w hw
    refine ⟨s, ?_, g2⟩
    rw [update_get, g1]
    simp [hi]

theorem agrees_enlarge (m : Ideal V) (b : Buf V) (h : Agrees m b) (n : Nat) : Agrees m (b.enlarge n) := by
  intro i v hv
  obtain ⟨s, g1, g2⟩ := h i v hv
  refine ⟨s, ?_, g2⟩
  unfold Buf.enlarge
  dsimp only
  rw [List.getElem?_append_left (List.getElem?_eq_some_iff.mp g1).1]
  exact g1

theorem moveToDisk_length (b : Buf V) : b.moveToDisk.slots.length = b.slots.length := by
  rcases moveToDisk_cases b with e | ⟨i, s, v, _, _, _, _, e⟩ <;> rw [e]
  simp

theorem makeRoom_length (b : Buf V) : b.makeRoom.slots.length = b.slots.length := by
  unfold Buf.makeRoom
  split
  · exact moveToDisk_length b
  · rfl

theorem update_length (b : Buf V) (pos : Nat) (f : Slot V → Slot V) :
    (b.update pos f).slots.length = b.slots.length := by
  simp [Buf.update]

theorem agrees_last (m : Ideal V) (b : Buf V) (h : Agrees m b) (l : List Nat) : Agrees m { b with last := l } := h

theorem remember_agrees (m : Ideal V) (b : Buf V) (h : Agrees m b) (pos : Nat) : Agrees m (b.remember pos) := by
  unfold Buf.remember
  split
  · exact h
  · exact h

theorem forget_agrees (m : Ideal V) (b : Buf V) (h : Agrees m b) : Agrees m b.forget := by
  unfold Buf.forget
  split
  · split
    · exact agrees_lockflag m b h _ (fun s => { s with locked := false }) (fun s => ⟨rfl, rfl⟩)
    · exact h
  · exact h

theorem touch_agrees (m : Ideal V) (b : Buf V) (h : Agrees m b) (pos : Nat) : Agrees m (b.touch pos) :=
  forget_agrees m _ (remember_agrees m _
    (agrees_lockflag m b h pos (fun s => { s with locked := true }) (fun s => ⟨rfl, rfl⟩)) pos)

theorem remember_length (b : Buf V) (pos : Nat) : (b.remember pos).slots.length = b.slots.length := by
  unfold Buf.remember
  split <;> rfl

theorem forget_length (b : Buf V) : b.forget.slots.length = b.slots.length := by
  unfold Buf.forget
  split
  · split
    · exact update_length b _ _
    · rfl
  · rfl

theorem touch_length (b : Buf V) (pos : Nat) : (b.touch pos).slots.length = b.slots.length := by
  unfold Buf.touch
  rw [forget_length, remember_length, update_length]

/-! ### One call -/

theorem check_cases (b b' : Buf V) (h : b.check = .ok b' ∨ b.check = .threw b') : b' = b := by
  unfold Buf.check at h
  split at h <;> simp at h <;> exact h.symm

theorem set_agrees (m : Ideal V) (b b' : Buf V) (h : Agrees m b) (pos : Nat) (v : V)
    (hr : b.set pos v = .ok b' ∨ b.set pos v = .threw b') :
    Agrees (fun i => if i = pos then some v else m i) b' := by
  rw [check_cases _ _ hr]
  unfold Buf.store
  apply agrees_makeRoom
  apply agrees_store
  · apply agrees_makeRoom
    split
    · exact agrees_enlarge m b h _
    · exact h
  · rw [makeRoom_length]
    split
    · simp [Buf.enlarge]; omega
    · omega

/-- The content a slot receives from its file is the stored one. -/
theorem fetch_agrees (m : Ideal V) (b0 b : Buf V) (h : Agrees m b) (pos : Nat) (blank : V) (s : Slot V)
    (hs0 : b0.slots[pos]? = some s) (hpsi : s.psi = none)
    (hslot : ∀ s', b.slots[pos]? = some s' → s' = s) (hp : pos < b.slots.length) :
    Agrees m (b.update pos fun s' => { s' with psi := some (b.fetch pos blank s) }) := by
  intro i w hw
  obtain ⟨t, g1, g2⟩ := h i w hw
  by_cases hi : i = pos
  · subst hi
    have ht := hslot t g1
    subst ht
    rw [update_get, g1]
    refine ⟨{ t with psi := some (b.fetch i blank t) }, by simp, Or.inl ?_⟩
    rcases g2 with g | ⟨_, g3, g4⟩
    · rw [hpsi] at g; cases g
    · dsimp only
      unfold Buf.fetch
      simp [g3, g4]
  · rw [update_get, g1]
    exact ⟨t, by simp [hi], g2⟩

theorem makeRoom_slot (b : Buf V) (pos : Nat) (s : Slot V) (h : b.slots[pos]? = some s) (hn : s.psi = none) :
    b.makeRoom.slots[pos]? = some s := by
  unfold Buf.makeRoom
  split
  · rcases moveToDisk_cases b with e | ⟨i, t, v, _, h2, h3, _, e⟩
    · rw [e]; exact h
    · rw [e]
      have : pos ≠ i := by
        intro hc
        subst hc
        rw [h] at h2
        cases h2
        rw [hn] at h3
        cases h3
      dsimp only
      rw [List.getElem?_set_ne (Ne.symm this)]
      exact h
  · exact h

/-- Outcomes of `Get` that satisfy `P` when it returns and `Q` when it throws. -/
def Got.Sat (P : Buf V → Option V → Prop) (Q : Buf V → Prop) : Got V → Prop
  | .ok b p => P b p
  | .threw b => Q b
  | .ub => True

theorem answer_sat (b : Buf V) (pos : Nat) (P : Buf V → Option V → Prop) (Q : Buf V → Prop)
    (hP : b.bytes ≤ b.maxBuf → P b ((b.slots[pos]?).bind fun s => s.psi)) (hQ : Q b) : (b.answer pos).Sat P Q := by
  unfold Buf.answer Buf.check
  by_cases h : b.bytes > b.maxBuf
  · rw [if_pos h]; exact hQ
  · rw [if_neg h]; exact hP (by omega)

theorem get_agrees (m : Ideal V) (b : Buf V) (h : Agrees m b) (pos : Nat) (blank : V) :
    (b.get pos blank).Sat (fun b' p => Agrees m b' ∧ ∀ v, m pos = some v → p = some v ∨ p = none)
      (fun b' => Agrees m b') := by
  unfold Buf.get
  split
  · exact h
  · rename_i hp
    have ht := touch_agrees m b h pos
    have hl := touch_length b pos
    unfold Buf.getTouched
    cases hs : (b.touch pos).slots[pos]? with
    | none => trivial
    | some s =>
      dsimp only
      cases hpsi : s.psi with
      | some v =>
        refine ⟨ht, ?_⟩
        intro w hw
        obtain ⟨t, g1, g2⟩ := ht pos w hw
        rw [hs] at g1
        cases g1
        rcases g2 with g | g
        · left; rw [← hpsi]; exact g
        · rw [hpsi] at g; simp at g
      | none =>
        have hmr := agrees_makeRoom m _ ht
        dsimp only
        split
        · trivial
        · have hsl := makeRoom_slot (b.touch pos) pos s hs hpsi
          have hf := fetch_agrees m (b.touch pos) (b.touch pos).makeRoom hmr pos blank s hs hpsi
            (fun s' h' => by rw [hsl] at h'; exact (Option.some.inj h').symm)
            (by rw [makeRoom_length, hl]; omega)
          have hfin := agrees_makeRoom m _ hf
          apply answer_sat
          · intro _
            refine ⟨hfin, ?_⟩
            intro w hw
            obtain ⟨t, g1, g2⟩ := hfin pos w hw
            unfold Buf.load
            rw [g1]
            rcases g2 with g | g
            · left; simpa using g
            · right; simpa using g.1
          · exact hfin

theorem lock_agrees (m : Ideal V) (b b' : Buf V) (h : Agrees m b) (pos : Nat)
    (hr : b.lock pos = .ok b' ∨ b.lock pos = .threw b') : Agrees m b' := by
  unfold Buf.lock at hr
  cases hs : b.slots[pos]? with
  | none => rw [hs] at hr; simp at hr
  | some s =>
    rw [hs] at hr
    dsimp only at hr
    have key : Agrees m (b.lockRoom pos s.locked) := by
      unfold Buf.lockRoom
      split
      · refine agrees_lockflag m _ (agrees_moveToDisk m _ (agrees_lockflag m b h pos
          (fun s => { s with locked := true }) ?_)) pos (fun t => { t with locked := s.locked }) ?_
        · intro s; exact ⟨rfl, rfl⟩
        · intro s; exact ⟨rfl, rfl⟩
      · exact h
    unfold Buf.check at hr
    split at hr
    · rcases hr with e | e <;> cases e
      exact key
    · rcases hr with e | e <;> cases e
      exact agrees_lockflag m _ key pos (fun t => { t with locked := true }) (fun s => ⟨rfl, rfl⟩)

theorem run_agrees (blank : V) (m : Ideal V) (b b' : Buf V) (h : Agrees m b) (o : Op V)
    (hr : Op.run blank o b = .ok b' ∨ Op.run blank o b = .threw b') : Agrees (o.ideal b.slots.length m) b' := by
  cases o with
  | init =>
    unfold Op.run Buf.init at hr
    dsimp only at hr
    show Agrees m b'
    split at hr
    · rcases hr with e | e <;> cases e
      exact h
    · split at hr
      · rename_i hlen
        rcases hr with e | e <;> cases e
        intro i v hv
        obtain ⟨s, g1, _⟩ := h i v hv
        have := (List.getElem?_eq_some_iff.mp g1).1
        omega
      · rcases hr with e | e <;> cases e
        exact h
  | set pos v => exact set_agrees m b b' h pos v hr
  | add v => exact set_agrees m b b' h b.slots.length v hr
  | get pos =>
    have := get_agrees m b h pos blank
    unfold Op.run at hr
    dsimp only at hr
    show Agrees m b'
    cases hg : b.get pos blank with
    | ok b1 p =>
      rw [hg] at hr this
      rcases hr with e | e <;> cases e
      exact this.1
    | threw b1 =>
      rw [hg] at hr this
      rcases hr with e | e <;> cases e
      exact this
    | ub => rw [hg] at hr; rcases hr with e | e <;> cases e
  | lock pos => exact lock_agrees m b b' h pos hr
  | unlock pos =>
    unfold Op.run Buf.unlock at hr
    dsimp only at hr
    split at hr
    · rcases hr with e | e <;> cases e
    · rcases hr with e | e <;> cases e
      exact agrees_lockflag m b h pos (fun t => { t with locked := false }) (fun s => ⟨rfl, rfl⟩)
  | autoLock n =>
    rcases hr with e | e <;> cases e
    exact h
  | resize n =>
    unfold Op.run Buf.resize at hr
    dsimp only at hr
    split at hr
    · split at hr
      · rcases hr with e | e <;> cases e
      · rcases hr with e | e <;> cases e
        intro i v hv
        dsimp only [Op.ideal] at hv
        split at hv
        · rename_i hi
          obtain ⟨s, g1, g2⟩ := h i v hv
          refine ⟨s, ?_, ?_⟩
          · dsimp only
            rw [List.getElem?_take, if_pos hi]
            exact g1
          · dsimp only
            rw [if_neg (by omega)]
            exact g2
        · cases hv
    · have hm : ∀ i v, (Op.ideal (.resize n) b.slots.length m) i = some v → m i = some v := by
        intro i v hv
        dsimp only [Op.ideal] at hv
        split at hv
        · exact hv
        · cases hv
      split at hr
      · rcases hr with e | e <;> cases e
        intro i v hv
        exact agrees_enlarge m b h n i v (hm i v hv)
      · rcases hr with e | e <;> cases e
        intro i v hv
        exact h i v (hm i v hv)
  | clear =>
    intro i v hv
    cases hv
  | assign pos v =>
    unfold Op.run Buf.assign at hr
    dsimp only at hr
    split at hr
    · rename_i s hs
      split at hr
      · rcases hr with e | e <;> cases e
        exact agrees_store m b h pos (List.getElem?_eq_some_iff.mp hs).1 v
      · rcases hr with e | e <;> cases e
    · rcases hr with e | e <;> cases e

theorem reach_agrees (blank : V) (maxBuf size : Nat) (exc : Bool) (m : Ideal V) (b : Buf V)
    (h : Reach blank maxBuf size exc m b) : Agrees m b := by
  induction h with
  | new => intro i v hv; cases hv
  | ok m b o b' _ hr ih => exact run_agrees blank m b b' ih o (Or.inl hr)
  | threw m b o b' _ _ hr ih => exact run_agrees blank m b b' ih o (Or.inr hr)

/-! ### C50: contents -/

/-- C50, contents: after every history of calls, including those that ended with an exception, reading a position
gives what was last stored there, or a null pointer.  Missing: that the pointer is not null, see
`C50_not_null_partial` and `C50_violated_null`. -/
theorem C50_read_partial (blank : V) (maxBuf size : Nat) (m : Ideal V) (b b' : Buf V) (p : Option V) (pos : Nat) (v : V)
    (hreach : Reach blank maxBuf size true m b) (hv : m pos = some v) (hg : b.get pos blank = .ok b' p) :
    p = some v ∨ p = none := by
  have := get_agrees m b (reach_agrees blank maxBuf size true m b hreach) pos blank
  rw [hg] at this
  exact this.2 v hv

/-! ### Locks -/

theorem update_slot (b : Buf V) (pos : Nat) (f : Slot V → Slot V) (i : Nat) (s : Slot V) (h : b.slots[i]? = some s) :
    (b.update pos f).slots[i]? = some (if i = pos then f s else s) := by
  rw [update_get, h]; rfl

theorem moveToDisk_locked (b : Buf V) (i : Nat) (s : Slot V) (h : b.slots[i]? = some s)
    (hl : s.locked = true ∨ i = 0) : b.moveToDisk.slots[i]? = some s := by
  rcases moveToDisk_cases b with e | ⟨j, t, v, h1, h2, _, h4, e⟩
  · rw [e]; exact h
  · rw [e]
    have : i ≠ j := by
      intro hc
      subst hc
      rcases hl with hl | hl
      · rw [h] at h2
        cases h2
        rw [hl] at h4
        cases h4
      · omega
    dsimp only
    rw [List.getElem?_set_ne (Ne.symm this)]
    exact h

theorem makeRoom_locked (b : Buf V) (i : Nat) (s : Slot V) (h : b.slots[i]? = some s)
    (hl : s.locked = true ∨ i = 0) : b.makeRoom.slots[i]? = some s := by
  unfold Buf.makeRoom
  split
  · exact moveToDisk_locked b i s h hl
  · exact h

theorem enlarge_slot (b : Buf V) (n i : Nat) (s : Slot V) (h : b.slots[i]? = some s) :
    (b.enlarge n).slots[i]? = some s := by
  unfold Buf.enlarge
  dsimp only
  rw [List.getElem?_append_left (List.getElem?_eq_some_iff.mp h).1]
  exact h

theorem remember_slots (b : Buf V) (pos : Nat) : (b.remember pos).slots = b.slots := by
  unfold Buf.remember
  split <;> rfl

/-- The position forgotten by a `Get` is the oldest one noted. -/
theorem forget_slot (b : Buf V) (pos i : Nat) (s : Slot V) (h : b.slots[i]? = some s)
    (hne : b.last.getLast? ≠ some i) : (b.remember pos).forget.slots[i]? = some s := by
  have hs : (b.remember pos).slots[i]? = some s := by rw [remember_slots]; exact h
  unfold Buf.forget
  split
  · rename_i hlen
    cases hq : (b.remember pos).last.getLast? with
    | none => exact hs
    | some q =>
      have hqi : i ≠ q := by
        intro hc
        subst hc
        apply hne
        unfold Buf.remember at hq hlen
        split at hq
        · rename_i h0
          rw [if_pos h0] at hlen
          cases hl : b.last with
          | nil =>
            rw [hl] at hlen
            dsimp only at hlen
            simp at hlen
            omega
          | cons a l =>
            rw [hl] at hq
            dsimp only at hq
            rw [List.getLast?_cons_cons] at hq
            exact hq
        · exact hq
      dsimp only
      have := update_slot (b.remember pos) q (fun s => { s with locked := false }) i s hs
      rw [if_neg hqi] at this
      exact this
  · exact hs

/-- A slot that is not the one forgotten keeps its content, the slot asked for is locked. -/
theorem touch_slot (b : Buf V) (pos i : Nat) (s : Slot V) (h : b.slots[i]? = some s)
    (hne : b.last.getLast? ≠ some i) :
    (b.touch pos).slots[i]? = some (if i = pos then { s with locked := true } else s) := by
  unfold Buf.touch
  apply forget_slot
  · exact update_slot b pos _ i s h
  · exact hne

/-- Every slot keeps its content in the book keeping. -/
theorem forget_psi (b : Buf V) (i : Nat) (s : Slot V) (h : b.slots[i]? = some s) :
    ∃ s', b.forget.slots[i]? = some s' ∧ s'.psi = s.psi ∧ s'.ondisk = s.ondisk := by
  unfold Buf.forget
  split
  · cases b.last.getLast? with
    | none => exact ⟨s, h, rfl, rfl⟩
    | some q =>
      refine ⟨_, update_slot b q (fun s => { s with locked := false }) i s h, ?_⟩
      split <;> exact ⟨rfl, rfl⟩
  · exact ⟨s, h, rfl, rfl⟩

theorem touch_psi (b : Buf V) (pos i : Nat) (s : Slot V) (h : b.slots[i]? = some s) :
    ∃ s', (b.touch pos).slots[i]? = some s' ∧ s'.psi = s.psi ∧ s'.ondisk = s.ondisk := by
  have h1 := update_slot b pos (fun s => { s with locked := true }) i s h
  have h2 : ((b.update pos fun s => { s with locked := true }).remember pos).slots[i]? =
      some (if i = pos then { s with locked := true } else s) := by rw [remember_slots]; exact h1
  obtain ⟨s', g1, g2, g3⟩ := forget_psi _ i _ h2
  refine ⟨s', g1, ?_, ?_⟩
  · rw [g2]; split <;> rfl
  · rw [g3]; split <;> rfl

/-- C50, no null pointer: a `Get` that returns, for a position that is not the oldest one noted, returns a pointer
to a wave function. -/
theorem C50_not_null_partial (blank : V) (b b' : Buf V) (p : Option V) (pos : Nat)
    (hne : b.last.getLast? ≠ some pos) (hg : b.get pos blank = .ok b' p) :
    p.isSome = true ∧ ∃ s, b'.slots[pos]? = some s ∧ s.psi = p ∧ s.locked = true := by
  suffices h : (b.get pos blank).Sat
      (fun b' p => p.isSome = true ∧ ∃ s, b'.slots[pos]? = some s ∧ s.psi = p ∧ s.locked = true) (fun _ => True) by
    rw [hg] at h; exact h
  unfold Buf.get
  split
  · trivial
  · rename_i hp
    obtain ⟨⟨tp, tl, td⟩, hs⟩ : ∃ t, b.slots[pos]? = some t := ⟨_, List.getElem?_eq_getElem (by omega)⟩
    have ht := touch_slot b pos pos _ hs hne
    rw [if_pos rfl] at ht
    dsimp only at ht
    unfold Buf.getTouched
    rw [ht]
    dsimp only
    cases tp with
    | some v => exact ⟨rfl, _, ht, rfl, rfl⟩
    | none =>
      dsimp only
      split
      · trivial
      · have hm := makeRoom_locked _ pos _ ht (Or.inl rfl)
        have hu := update_slot (b.touch pos).makeRoom pos
          (fun s' => { s' with psi := some ((b.touch pos).makeRoom.fetch pos blank ⟨none, true, td⟩) })
          pos _ hm
        rw [if_pos rfl] at hu
        have hm2 := makeRoom_locked _ pos _ hu (Or.inl rfl)
        apply answer_sat
        · intro _
          unfold Buf.load
          rw [hm2]
          exact ⟨rfl, _, rfl, rfl, rfl⟩
        · trivial

/-- C75: a locked wave function in memory stays in memory through every call, except through `UnLock` of the
position, `ResizeBuffer` and `Clear`, and except through a `Get` for which the position is the oldest one noted.
Missing: that an explicit lock survives such a `Get`, see `C75_violated_explicit`. -/
theorem C75_locked_partial (blank : V) (b b' : Buf V) (o : Op V) (i : Nat) (s : Slot V) (hs : b.slots[i]? = some s)
    (hl : s.locked = true) (hm : s.psi.isSome = true) (h1 : o ≠ .unlock i) (h2 : o ≠ .clear)
    (h3 : ∀ n, o ≠ .resize n) (h4 : ∀ j, o = .get j → b.last.getLast? ≠ some i)
    (hr : Op.run blank o b = .ok b' ∨ Op.run blank o b = .threw b') :
    ∃ s', b'.slots[i]? = some s' ∧ s'.locked = true ∧ s'.psi.isSome = true := by
  have hlt := (List.getElem?_eq_some_iff.mp hs).1
  have hset : ∀ pos v, b.set pos v = .ok b' ∨ b.set pos v = .threw b' →
      ∃ s', b'.slots[i]? = some s' ∧ s'.locked = true ∧ s'.psi.isSome = true := by
    intro pos v hr
    rw [check_cases _ _ hr]
    unfold Buf.store
    have e1 : (if pos ≥ b.slots.length then b.enlarge (pos + 1) else b).slots[i]? = some s := by
      split
      · exact enlarge_slot b _ i s hs
      · exact hs
    have e2 := makeRoom_locked _ i s e1 (Or.inl hl)
    have e3 := update_slot _ pos (fun s => { s with psi := some v }) i s e2
    have e4 := makeRoom_locked _ i _ e3 (Or.inl (by split <;> exact hl))
    refine ⟨_, e4, ?_, ?_⟩
    · split <;> exact hl
    · split
      · rfl
      · exact hm
  cases o with
  | init =>
    unfold Op.run Buf.init at hr
    dsimp only at hr
    split at hr
    · rcases hr with e | e <;> cases e
      exact ⟨s, hs, hl, hm⟩
    · split at hr
      · omega
      · rcases hr with e | e <;> cases e
        exact ⟨s, hs, hl, hm⟩
  | set pos v => exact hset pos v hr
  | add v => exact hset _ v hr
  | get pos =>
    have hne := h4 pos rfl
    have key : (b.get pos blank).Sat
        (fun b' _ => ∃ s', b'.slots[i]? = some s' ∧ s'.locked = true ∧ s'.psi.isSome = true)
        (fun b' => ∃ s', b'.slots[i]? = some s' ∧ s'.locked = true ∧ s'.psi.isSome = true) := by
      unfold Buf.get
      split
      · exact ⟨s, hs, hl, hm⟩
      · have ht := touch_slot b pos i s hs hne
        have htl : (if i = pos then { s with locked := true } else s).locked = true := by
          split
          · rfl
          · exact hl
        have htm : (if i = pos then { s with locked := true } else s).psi.isSome = true := by
          split <;> exact hm
        unfold Buf.getTouched
        split
        · trivial
        · rename_i t _
          split
          · exact ⟨_, ht, htl, htm⟩
          · split
            · trivial
            · have e1 := makeRoom_locked _ i _ ht (Or.inl htl)
              have e2 := update_slot (b.touch pos).makeRoom pos
                (fun s' => { s' with psi := some ((b.touch pos).makeRoom.fetch pos blank t) }) i _ e1
              have e3 := makeRoom_locked _ i _ e2 (Or.inl (by
                by_cases hip : i = pos
                · simp [hip]
                · simpa [hip] using hl))
              have fin : ∃ s', ((b.touch pos).makeRoom.load pos blank t).slots[i]? = some s' ∧
                  s'.locked = true ∧ s'.psi.isSome = true := by
                refine ⟨_, e3, ?_, ?_⟩
                · by_cases hip : i = pos
                  · simp [hip]
                  · simpa [hip] using hl
                · by_cases hip : i = pos
                  · simp [hip]
                  · simpa [hip] using hm
              apply answer_sat
              · intro _; exact fin
              · exact fin
    unfold Op.run at hr
    dsimp only at hr
    cases hg : b.get pos blank with
    | ok b1 p =>
      rw [hg] at hr key
      rcases hr with e | e <;> cases e
      exact key
    | threw b1 =>
      rw [hg] at hr key
      rcases hr with e | e <;> cases e
      exact key
    | ub => rw [hg] at hr; rcases hr with e | e <;> cases e
  | lock pos =>
    unfold Op.run Buf.lock at hr
    dsimp only at hr
    cases ht : b.slots[pos]? with
    | none => rw [ht] at hr; simp at hr
    | some t =>
      rw [ht] at hr
      dsimp only at hr
      have key : (b.lockRoom pos t.locked).slots[i]? = some s := by
        unfold Buf.lockRoom
        split
        · have e1 := update_slot b pos (fun s => { s with locked := true }) i s hs
          have e2 := moveToDisk_locked _ i _ e1 (Or.inl (by split; rfl; exact hl))
          have e3 := update_slot _ pos (fun s => { s with locked := t.locked }) i _ e2
          rw [e3]
          by_cases hip : i = pos
          · subst hip
            rw [hs] at ht
            cases ht
            simp
          · simp [hip]
        · exact hs
      unfold Buf.check at hr
      split at hr
      · rcases hr with e | e <;> cases e
        exact ⟨s, key, hl, hm⟩
      · rcases hr with e | e <;> cases e
        refine ⟨_, update_slot _ pos (fun s => { s with locked := true }) i s key, ?_, ?_⟩
        · split
          · rfl
          · exact hl
        · split <;> exact hm
  | unlock pos =>
    unfold Op.run Buf.unlock at hr
    dsimp only at hr
    split at hr
    · rcases hr with e | e <;> cases e
    · rcases hr with e | e <;> cases e
      have hip : i ≠ pos := fun hc => h1 (by rw [hc])
      refine ⟨_, update_slot b pos (fun s => { s with locked := false }) i s hs, ?_, ?_⟩
      · rw [if_neg hip]; exact hl
      · rw [if_neg hip]; exact hm
  | autoLock n =>
    rcases hr with e | e <;> cases e
    exact ⟨s, hs, hl, hm⟩
  | resize n => exact absurd rfl (h3 n)
  | clear => exact absurd rfl h2
  | assign pos v =>
    unfold Op.run Buf.assign at hr
    dsimp only at hr
    split at hr
    · split at hr
      · rcases hr with e | e <;> cases e
        refine ⟨_, update_slot b pos (fun s => { s with psi := some v }) i s hs, ?_, ?_⟩
        · split <;> exact hl
        · split
          · rfl
          · exact hm
      · rcases hr with e | e <;> cases e
    · rcases hr with e | e <;> cases e

/-! ### Budget -/

/-- Specification: the number of wave functions in memory. -/
def inMemory (b : Buf V) : Nat := b.slots.countP fun s => s.psi.isSome

theorem bytes_eq (b : Buf V) : b.bytes = b.size * inMemory b := by
  have key : ∀ (l : List (Slot V)) (z : Nat),
      l.foldl (fun n s => match s.psi with | some _ => n + b.size | none => n) z =
        z + b.size * l.countP (fun s => s.psi.isSome) := by
    intro l
    induction l with
    | nil => intro z; simp
    | cons s l ih =>
      intro z
      rw [List.foldl_cons, List.countP_cons, ih]
      cases h : s.psi with
      | none => simp
      | some v => simp [Nat.mul_add]; omega
  have h := key b.slots 0
  rw [Nat.zero_add] at h
  exact h

theorem inMemory_congr (b b' : Buf V)
    (h : ∀ i : Nat, (b'.slots[i]?).map (fun s => s.psi.isSome) = (b.slots[i]?).map (fun s => s.psi.isSome)) :
    inMemory b' = inMemory b := by
  have e : b'.slots.map (fun s => s.psi.isSome) = b.slots.map (fun s => s.psi.isSome) := by
    apply List.ext_getElem?
    intro i
    rw [List.getElem?_map, List.getElem?_map]
    exact h i
  unfold inMemory
  have c : ∀ l : List (Slot V), l.countP (fun s => s.psi.isSome) = (l.map fun s => s.psi.isSome).countP id := by
    intro l; rw [List.countP_map]; rfl
  rw [c, c, e]

theorem inMemory_flag (b : Buf V) (pos : Nat) (f : Slot V → Slot V) (hf : ∀ s, (f s).psi.isSome = s.psi.isSome) :
    inMemory (b.update pos f) = inMemory b := by
  apply inMemory_congr
  intro i
  rw [update_get]
  cases b.slots[i]? with
  | none => rfl
  | some s =>
    dsimp only [Option.map]
    split
    · rw [hf]
    · rfl

theorem inMemory_moveToDisk (b : Buf V) : inMemory b.moveToDisk ≤ inMemory b := by
  rcases moveToDisk_cases b with e | ⟨i, s, v, _, h2, h3, _, e⟩
  · rw [e]; exact Nat.le_refl _
  · rw [e]
    unfold inMemory
    dsimp only
    have hlt := (List.getElem?_eq_some_iff.mp h2).1
    rw [List.countP_set hlt]
    simp

theorem inMemory_touch (b : Buf V) (pos : Nat) : inMemory (b.touch pos) = inMemory b := by
  apply inMemory_congr
  intro i
  cases h : b.slots[i]? with
  | none =>
    have : (b.touch pos).slots[i]? = none := by
      rw [List.getElem?_eq_none_iff] at h ⊢
      rw [touch_length]
      exact h
    rw [this]
  | some s =>
    obtain ⟨s', g1, g2, _⟩ := touch_psi b pos i s h
    rw [g1]
    simp [g2]

/-- The limits of a buffer. -/
def Limits (b : Buf V) (maxBuf size : Nat) : Prop := b.maxBuf = maxBuf ∧ b.size = size

theorem limits_moveToDisk (b : Buf V) (x y : Nat) (h : Limits b x y) : Limits b.moveToDisk x y := by
  rcases moveToDisk_cases b with e | ⟨i, s, v, _, _, _, _, e⟩ <;> rw [e] <;> exact h

theorem limits_makeRoom (b : Buf V) (x y : Nat) (h : Limits b x y) : Limits b.makeRoom x y := by
  unfold Buf.makeRoom
  split
  · exact limits_moveToDisk b x y h
  · exact h

theorem limits_update (b : Buf V) (x y : Nat) (h : Limits b x y) (pos : Nat) (f : Slot V → Slot V) :
    Limits (b.update pos f) x y := h

theorem limits_touch (b : Buf V) (x y : Nat) (h : Limits b x y) (pos : Nat) : Limits (b.touch pos) x y := by
  have h1 : Limits ((b.update pos fun s => { s with locked := true }).remember pos) x y := by
    unfold Buf.remember
    split <;> exact h
  unfold Buf.touch Buf.forget
  split
  · split <;> exact h1
  · exact h1

theorem limits_load (b : Buf V) (x y : Nat) (h : Limits b x y) (pos : Nat) (blank : V) (s : Slot V) :
    Limits (b.load pos blank s) x y := limits_makeRoom _ x y h

theorem check_ok (b b' : Buf V) (h : b.check = .ok b') : b' = b ∧ b.bytes ≤ b.maxBuf := by
  unfold Buf.check at h
  split at h
  · cases h
  · cases h; exact ⟨rfl, by omega⟩

/-- One call that returns keeps the budget. -/
theorem run_budget (blank : V) (maxBuf size : Nat) (hmax : 0 < maxBuf) (o : Op V) (b b' : Buf V)
    (hlim : Limits b maxBuf size) (hb : b.size * inMemory b ≤ maxBuf) (hr : Op.run blank o b = .ok b') :
    Limits b' maxBuf size ∧ b'.size * inMemory b' ≤ maxBuf := by
  have of_check : ∀ c : Buf V, Limits c maxBuf size → c.check = .ok b' →
      Limits b' maxBuf size ∧ b'.size * inMemory b' ≤ maxBuf := by
    intro c hc h
    obtain ⟨e, h2⟩ := check_ok c b' h
    rw [e]
    refine ⟨hc, ?_⟩
    rw [bytes_eq] at h2
    rw [← hc.1]
    exact h2
  have hset : ∀ pos v, b.set pos v = .ok b' → Limits b' maxBuf size ∧ b'.size * inMemory b' ≤ maxBuf := by
    intro pos v h
    refine of_check _ ?_ h
    unfold Buf.store
    apply limits_makeRoom
    apply limits_update
    apply limits_makeRoom
    split <;> exact hlim
  cases o with
  | init =>
    unfold Op.run Buf.init at hr
    dsimp only at hr
    split at hr
    · cases hr
    · rename_i hn
      split at hr
      · cases hr
        refine ⟨hlim, ?_⟩
        simp only [inMemory, List.countP_cons, List.countP_nil, Option.isSome_some, if_true]
        have := hlim.1
        have := hlim.2
        omega
      · cases hr; exact ⟨hlim, hb⟩
  | set pos v => exact hset pos v hr
  | add v => exact hset _ v hr
  | get pos =>
    have key : (b.get pos blank).Sat
        (fun b' _ => Limits b' maxBuf size ∧ b'.size * inMemory b' ≤ maxBuf) (fun _ => True) := by
      unfold Buf.get
      split
      · trivial
      · have ht := limits_touch b maxBuf size hlim pos
        have hb' : (b.touch pos).size * inMemory (b.touch pos) ≤ maxBuf := by
          rw [inMemory_touch, ht.2, ← hlim.2]; exact hb
        unfold Buf.getTouched
        split
        · trivial
        · split
          · exact ⟨ht, hb'⟩
          · split
            · trivial
            · rename_i t _ _ _ _
              have hl := limits_load (b.touch pos).makeRoom maxBuf size (limits_makeRoom _ _ _ ht) pos blank t
              apply answer_sat
              · intro h
                refine ⟨hl, ?_⟩
                rw [bytes_eq] at h
                rw [← hl.1]
                exact h
              · trivial
    unfold Op.run at hr
    dsimp only at hr
    cases hg : b.get pos blank with
    | ok b1 p => rw [hg] at hr key; cases hr; exact key
    | threw b1 => rw [hg] at hr; cases hr
    | ub => rw [hg] at hr; cases hr
  | lock pos =>
    unfold Op.run Buf.lock at hr
    dsimp only at hr
    split at hr
    · cases hr
    · rename_i t _
      have hl : Limits (b.lockRoom pos t.locked) maxBuf size := by
        unfold Buf.lockRoom
        split
        · exact limits_update _ _ _ (limits_moveToDisk _ _ _ (limits_update _ _ _ hlim _ _)) _ _
        · exact hlim
      unfold Buf.check at hr
      split at hr
      · cases hr
      · rename_i hc
        cases hr
        refine ⟨hl, ?_⟩
        rw [inMemory_flag _ pos (fun s => { s with locked := true }) (fun s => rfl)]
        rw [bytes_eq] at hc
        have h1 := hl.1
        show (b.lockRoom pos t.locked).size * _ ≤ maxBuf
        omega
  | unlock pos =>
    unfold Op.run Buf.unlock at hr
    dsimp only at hr
    split at hr
    · cases hr
    · cases hr
      refine ⟨hlim, ?_⟩
      rw [inMemory_flag _ pos (fun s => { s with locked := false }) (fun s => rfl)]
      exact hb
  | autoLock n => cases hr; exact ⟨hlim, hb⟩
  | resize n =>
    unfold Op.run Buf.resize at hr
    dsimp only at hr
    split at hr
    · split at hr
      · cases hr
      · cases hr
        refine ⟨hlim, Nat.le_trans (Nat.mul_le_mul_left _ ?_) hb⟩
        exact List.Sublist.countP_le (List.take_sublist _ _)
    · split at hr
      · cases hr
        refine ⟨hlim, Nat.le_trans (Nat.le_of_eq ?_) hb⟩
        congr 1
        unfold inMemory Buf.enlarge
        dsimp only
        rw [List.countP_append]
        simp [List.countP_replicate, Slot.new]
      · cases hr; exact ⟨hlim, hb⟩
  | clear => cases hr; exact ⟨hlim, by simp [inMemory, Buf.clear]⟩
  | assign pos v =>
    unfold Op.run Buf.assign at hr
    dsimp only at hr
    split at hr
    · rename_i s hs
      split at hr
      · rename_i hm
        cases hr
        refine ⟨hlim, ?_⟩
        rw [inMemory_congr b]
        · exact hb
        · intro i
          rw [update_get]
          cases hi : b.slots[i]? with
          | none => rfl
          | some t =>
            dsimp only [Option.map]
            split
            · rename_i hip
              subst hip
              rw [hs] at hi
              cases hi
              rw [hm]
              rfl
            · rfl
      · cases hr
    · cases hr

/-- C50, budget: after every history of calls that returned, the wave functions in memory fit into the budget.
Missing: histories with calls that ended with an exception, see `C50_violated_budget`. -/
theorem C50_budget_partial (blank : V) (maxBuf size : Nat) (hmax : 0 < maxBuf) (m : Ideal V) (b : Buf V)
    (h : Reach blank maxBuf size false m b) : size * inMemory b ≤ maxBuf := by
  have key : Limits b maxBuf size ∧ b.size * inMemory b ≤ maxBuf := by
    induction h with
    | new => exact ⟨⟨rfl, rfl⟩, by simp [inMemory, Buf.new]⟩
    | ok m b o b' _ hr ih => exact run_budget blank maxBuf size hmax o b b' ih.1 ih.2 hr
    | threw m b o b' he => cases he
  rw [key.1.2] at key
  exact key.2

/-! ### Definedness -/

/-- The first position is in memory. -/
def FirstInMemory (b : Buf V) : Prop := ∃ s, b.slots[0]? = some s ∧ s.psi.isSome = true

theorem first_valid (b : Buf V) (h : FirstInMemory b) : b.validEntry = true := by
  obtain ⟨s, h1, h2⟩ := h
  unfold Buf.validEntry
  rw [List.any_eq_true]
  exact ⟨s, List.mem_of_getElem? h1, h2⟩

theorem first_moveToDisk (b : Buf V) (h : FirstInMemory b) : FirstInMemory b.moveToDisk := by
  obtain ⟨s, h1, h2⟩ := h
  exact ⟨s, moveToDisk_locked b 0 s h1 (Or.inr rfl), h2⟩

theorem first_makeRoom (b : Buf V) (h : FirstInMemory b) : FirstInMemory b.makeRoom := by
  unfold Buf.makeRoom
  split
  · exact first_moveToDisk b h
  · exact h

theorem first_update (b : Buf V) (h : FirstInMemory b) (pos : Nat) (f : Slot V → Slot V)
    (hf : ∀ s, s.psi.isSome = true → (f s).psi.isSome = true) : FirstInMemory (b.update pos f) := by
  obtain ⟨s, h1, h2⟩ := h
  refine ⟨_, update_slot b pos f 0 s h1, ?_⟩
  split
  · exact hf s h2
  · exact h2

theorem first_touch (b : Buf V) (h : FirstInMemory b) (pos : Nat) : FirstInMemory (b.touch pos) := by
  obtain ⟨s, h1, h2⟩ := h
  obtain ⟨s', g1, g2, _⟩ := touch_psi b pos 0 s h1
  exact ⟨s', g1, by rw [g2]; exact h2⟩

/-- Calls with positions inside of the buffer; assignments through valid pointers; no `Clear`. -/
def Op.Proper (o : Op V) (b : Buf V) : Prop :=
  match o with
  | .lock pos => pos < b.slots.length
  | .unlock pos => pos < b.slots.length
  | .resize n => 0 < n
  | .clear => False
  | .assign pos _ => ∃ s, b.slots[pos]? = some s ∧ s.psi.isSome = true
  | _ => True

/-- C50, definedness: `Init` on an empty buffer puts a wave function at the first position, and from then on no
proper call is undefined and the first position stays in memory. -/
theorem C50_defined_partial (blank : V) :
    (∀ (maxBuf size : Nat) (b' : Buf V), Op.run blank .init (Buf.new maxBuf size) = .ok b' → FirstInMemory b') ∧
    ∀ (b : Buf V) (o : Op V), FirstInMemory b → o.Proper b →
      Op.run blank o b ≠ .ub ∧
        ∀ b', Op.run blank o b = .ok b' ∨ Op.run blank o b = .threw b' → FirstInMemory b' := by
  constructor
  · intro maxBuf size b' h
    unfold Op.run Buf.init at h
    dsimp only at h
    split at h
    · cases h
    · rw [if_pos (show (Buf.new (V := V) maxBuf size).slots.length = 0 from rfl)] at h
      cases h
      exact ⟨_, rfl, rfl⟩
  · intro b o hf hp
    have hset : ∀ pos v, b.set pos v ≠ .ub ∧
        ∀ b', b.set pos v = .ok b' ∨ b.set pos v = .threw b' → FirstInMemory b' := by
      intro pos v
      constructor
      · unfold Buf.set Buf.check
        split <;> simp
      · intro b' h
        rw [check_cases _ _ h]
        unfold Buf.store
        apply first_makeRoom
        refine first_update _ ?_ _ _ (fun s _ => rfl)
        apply first_makeRoom
        split
        · obtain ⟨s, h1, h2⟩ := hf
          exact ⟨s, enlarge_slot b _ 0 s h1, h2⟩
        · exact hf
    cases o with
    | init =>
      unfold Op.run Buf.init
      dsimp only
      obtain ⟨s, h1, h2⟩ := hf
      have hlt := (List.getElem?_eq_some_iff.mp h1).1
      rw [if_neg (show ¬ b.slots.length = 0 by omega)]
      constructor
      · split <;> simp
      · intro b' h
        split at h <;> rcases h with e | e <;> cases e <;> exact ⟨s, h1, h2⟩
    | set pos v => exact hset pos v
    | add v => exact hset _ v
    | get pos =>
      have key : b.get pos blank ≠ .ub ∧ (b.get pos blank).Sat (fun b' _ => FirstInMemory b') FirstInMemory := by
        unfold Buf.get
        split
        · exact ⟨by simp, hf⟩
        · rename_i hlt
          have ht := first_touch b hf pos
          have hv := first_valid _ (first_makeRoom _ ht)
          obtain ⟨s, hs⟩ : ∃ s, (b.touch pos).slots[pos]? = some s :=
            ⟨_, List.getElem?_eq_getElem (by rw [touch_length]; omega)⟩
          unfold Buf.getTouched
          rw [hs]
          dsimp only
          split
          · exact ⟨by simp, ht⟩
          · rw [hv]
            simp only [Bool.not_true, Bool.false_eq_true, if_false]
            have hl : FirstInMemory ((b.touch pos).makeRoom.load pos blank s) := by
              unfold Buf.load
              apply first_makeRoom
              exact first_update _ (first_makeRoom _ ht) _ _ (fun s _ => rfl)
            refine ⟨?_, answer_sat _ _ _ _ (fun _ => hl) hl⟩
            unfold Buf.answer Buf.check
            split
            · simp
            · simp
            · rename_i h
              split at h <;> cases h
      unfold Op.run
      dsimp only
      cases hg : b.get pos blank with
      | ok b1 p =>
        rw [hg] at key
        refine ⟨by simp, fun b' h => ?_⟩
        rcases h with e | e <;> cases e
        exact key.2
      | threw b1 =>
        rw [hg] at key
        refine ⟨by simp, fun b' h => ?_⟩
        rcases h with e | e <;> cases e
        exact key.2
      | ub => exact absurd hg key.1
    | lock pos =>
      have hp' : pos < b.slots.length := hp
      unfold Op.run Buf.lock
      dsimp only
      rw [List.getElem?_eq_getElem hp']
      dsimp only
      have hl : FirstInMemory (b.lockRoom pos b.slots[pos].locked) := by
        unfold Buf.lockRoom
        split
        · refine first_update _ (first_moveToDisk _ (first_update _ hf _ _ ?_)) _ _ ?_
          · exact fun s h => h
          · exact fun s h => h
        · exact hf
      unfold Buf.check
      split
      · refine ⟨by simp [Out.bind], fun b' h => ?_⟩
        rcases h with e | e <;> cases e
        exact hl
      · refine ⟨by simp [Out.bind], fun b' h => ?_⟩
        rcases h with e | e <;> cases e
        exact first_update _ hl _ _ (fun s h => h)
    | unlock pos =>
      have hp' : pos < b.slots.length := hp
      unfold Op.run Buf.unlock
      dsimp only
      rw [List.getElem?_eq_getElem hp']
      refine ⟨by simp, fun b' h => ?_⟩
      rcases h with e | e <;> cases e
      exact first_update _ hf _ _ (fun s h => h)
    | autoLock n =>
      refine ⟨by simp [Op.run], fun b' h => ?_⟩
      rcases h with e | e <;> cases e
      exact hf
    | resize n =>
      have hp' : 0 < n := hp
      obtain ⟨s, h1, h2⟩ := hf
      unfold Op.run Buf.resize
      dsimp only
      rw [if_neg (show ¬ n = 0 by omega)]
      constructor
      · split
        · simp
        · split <;> simp
      · intro b' h
        split at h
        · rcases h with e | e <;> cases e
          refine ⟨s, ?_, h2⟩
          dsimp only
          rw [List.getElem?_take, if_pos hp']
          exact h1
        · split at h
          · rcases h with e | e <;> cases e
            exact ⟨s, enlarge_slot b _ 0 s h1, h2⟩
          · rcases h with e | e <;> cases e
            exact ⟨s, h1, h2⟩
    | clear => exact absurd hp id
    | assign pos v =>
      obtain ⟨t, h1, h2⟩ := hp
      unfold Op.run Buf.assign
      dsimp only
      rw [h1]
      dsimp only
      rw [if_pos h2]
      refine ⟨by simp, fun b' h => ?_⟩
      rcases h with e | e <;> cases e
      exact first_update _ hf _ _ (fun s _ => rfl)

/-- The hypotheses of `C50_defined_partial` are met: `Init` works, and `Lock(0)` is then proper. -/
example : ∃ b' : Buf Nat, Op.run 0 .init (Buf.new 2 1) = .ok b' ∧ (Op.lock 0 : Op Nat).Proper b' :=
  ⟨_, rfl, by show 0 < 1; decide⟩

/-! ### Histories that show defects -/

/-- A list of calls that all return. -/
def runAll (blank : V) : List (Op V) → Ideal V × Buf V → Option (Ideal V × Buf V)
  | [], x => some x
  | o :: l, (m, b) =>
    match Op.run blank o b with
    | .ok b' => runAll blank l (o.ideal b.slots.length m, b')
    | _ => none

theorem runAll_reach (blank : V) (maxBuf size : Nat) (exc : Bool) : ∀ (l : List (Op V)) (x y : Ideal V × Buf V),
    Reach blank maxBuf size exc x.1 x.2 → runAll blank l x = some y → Reach blank maxBuf size exc y.1 y.2 := by
  intro l
  induction l with
  | nil => intro x y h e; cases e; exact h
  | cons o l ih =>
    intro x y h e
    obtain ⟨m, b⟩ := x
    unfold runAll at e
    split at e
    · rename_i b' hb
      exact ih _ y (.ok m b o b' h hb) e
    · cases e

/-- C50 is violated: with room for two wave functions, after storing at 1 and 2, reading 1 three times and
storing at 2 again, reading 1 returns a null pointer. -/
theorem C50_violated_null : ∃ (m : Ideal Nat) (b b' : Buf Nat), Reach 0 2 1 false m b ∧ m 1 = some 5 ∧
    b.get 1 0 = .ok b' none := by
  obtain ⟨y, b', h, h1, h2⟩ : ∃ (y : Ideal Nat × Buf Nat) (b' : Buf Nat),
      runAll 0 [.init, .set 1 5, .set 2 6, .get 1, .get 1, .get 1, .set 2 7] (fun _ => none, Buf.new 2 1) = some y ∧
        y.1 1 = some 5 ∧ y.2.get 1 0 = .ok b' none := ⟨_, _, rfl, rfl, rfl⟩
  exact ⟨_, _, b', runAll_reach 0 2 1 false _ _ y .new h, h1, h2⟩

/-- C50 is violated without `Init`: with room for one wave function, reading the only position ever stored uses a
null pointer. -/
theorem C50_violated_no_init : ∃ (m : Ideal Nat) (b : Buf Nat), Reach 0 1 1 false m b ∧ m 5 = some 9 ∧
    b.get 5 0 = .ub := by
  obtain ⟨y, h, h1, h2⟩ : ∃ y : Ideal Nat × Buf Nat,
      runAll 0 [.set 5 9] (fun _ => none, Buf.new 1 1) = some y ∧ y.1 5 = some 9 ∧ y.2.get 5 0 = .ub :=
    ⟨_, rfl, rfl, rfl⟩
  exact ⟨_, _, runAll_reach 0 1 1 false _ _ y .new h, h1, h2⟩

/-- C50 is violated by an exception: `Get` throws when the budget is exceeded but leaves it exceeded. -/
theorem C50_violated_budget : ∃ (m : Ideal Nat) (b : Buf Nat), Reach 0 1 1 true m b ∧ 1 < 1 * inMemory b := by
  obtain ⟨y, b', h, h1, h2⟩ : ∃ (y : Ideal Nat × Buf Nat) (b' : Buf Nat),
      runAll 0 [.init, .set 1 5] (fun _ => none, Buf.new 1 1) = some y ∧ Op.run 0 (.get 1) y.2 = .threw b' ∧
        inMemory b' = 2 := ⟨_, _, rfl, rfl, rfl⟩
  exact ⟨_, _, .threw _ _ (.get 1) b' rfl (runAll_reach 0 1 1 true _ _ y .new h) h1, by rw [h2]; decide⟩

/-- C50 is violated by `ResizeBuffer(0)`: an unsigned loop counter runs past zero. -/
theorem C50_violated_resize (b : Buf V) (h : 0 < b.slots.length) : b.resize 0 = .ub := by
  unfold Buf.resize
  rw [if_pos h, if_pos rfl]

/-- C75 is violated: an explicitly locked position is unlocked by reading other positions, and then moved to
disk by the next call. -/
theorem C75_violated_explicit : ∃ (m : Ideal Nat) (b b' : Buf Nat),
    runAll 0 [.init, .set 1 5, .get 1, .lock 1] (fun _ => none, Buf.new 2 1) = some (m, b) ∧
    (b.slots[1]?).map (fun s => (s.locked, s.psi)) = some (true, some 5) ∧
    ∃ m', runAll 0 [.get 0, .get 0, .set 2 6] (m, b) = some (m', b') ∧ (b'.slots[1]?).bind (fun s => s.psi) = none :=
  ⟨_, _, _, rfl, rfl, _, rfl, rfl⟩

/-- C75 is violated: the position read last (three times) is moved to disk by the next call although the last two
positions read should stay in memory. -/
theorem C75_violated_recent : ∃ (m : Ideal Nat) (b b' : Buf Nat),
    runAll 0 [.init, .set 1 5, .get 1, .get 1, .get 1] (fun _ => none, Buf.new 2 1) = some (m, b) ∧
    b.lastLocks = 2 ∧ ∃ m', runAll 0 [.set 2 6] (m, b) = some (m', b') ∧ (b'.slots[1]?).bind (fun s => s.psi) = none :=
  ⟨_, _, _, rfl, rfl, _, rfl, rfl⟩

/-- The hypotheses of `C50_read_partial` and `C50_not_null_partial` are met by a wave function that was moved to
disk and is read again. -/
example : ∃ (m : Ideal Nat) (b b' : Buf Nat), Reach 0 2 1 true m b ∧ m 1 = some 5 ∧
    (b.slots[1]?).bind (fun s => s.psi) = none ∧ b.last.getLast? ≠ some 1 ∧ b.get 1 0 = .ok b' (some 5) := by
  obtain ⟨y, b', h, h1, h2, h3, h4⟩ : ∃ (y : Ideal Nat × Buf Nat) (b' : Buf Nat),
      runAll 0 [.init, .set 1 5, .set 2 6, .get 2, .unlock 2] (fun _ => none, Buf.new 2 1) = some y ∧
        y.1 1 = some 5 ∧ (y.2.slots[1]?).bind (fun s => s.psi) = none ∧ y.2.last.getLast? = some 2 ∧
        y.2.get 1 0 = .ok b' (some 5) := ⟨_, _, rfl, rfl, rfl, rfl, rfl⟩
  exact ⟨_, _, b', runAll_reach 0 2 1 true _ _ y .new h, h1, h2, by rw [h3]; decide, h4⟩

/-- The hypotheses of `C75_locked_partial` are met. -/
example : ∃ (m : Ideal Nat) (b : Buf Nat) (s : Slot Nat), Reach 0 2 1 true m b ∧ b.slots[1]? = some s ∧
    s.locked = true ∧ s.psi.isSome = true := by
  obtain ⟨y, s, h, h1, h2, h3⟩ : ∃ (y : Ideal Nat × Buf Nat) (s : Slot Nat),
      runAll 0 [.init, .set 1 5, .get 1] (fun _ => none, Buf.new 2 1) = some y ∧ y.2.slots[1]? = some s ∧
        s.locked = true ∧ s.psi.isSome = true := ⟨_, _, rfl, rfl, rfl, rfl⟩
  exact ⟨_, _, s, runAll_reach 0 2 1 true _ _ y .new h, h1, h2, h3⟩

end QDng.Buffer
