import Verif.Store.Build

/-
Sequences of calls for a multistate wave function.
-/

namespace QDng.Store

variable {V : Type} {E : Env} {me : Nat} {states : List Nat} {lo ss : Nat} {w : World V} {c : Conf} {mv : Vec}
  {K : Bool}

/-- The world is as the user sees it. -/
def Sim (E : Env) (f : Nat → Nat → V) (m : Multi) (ss : Nat) (a : View V) (w : World V) : Prop :=
  ∃ c mv, Inv E m.self m.states 0 ss w c mv a.k ∧ Link m.states ss mv ∧ Weak m.states c mv ∧
    (∀ j, j < m.states.length → c.k j = a.k) ∧
    (a.active = true → Strong m.states c mv ∧ ∀ j, j < m.states.length →
      (∃ k, c.ptr j false = .blk k) ∧ (c.buf j ≠ none → ∃ k, c.ptr j true = .blk k)) ∧
    (∀ j i x, j < m.states.length → a.cur j i = some x → ∃ k, c.ptr j false = .blk k ∧ w.mem k i = x) ∧
    (∀ j i x, j < m.states.length → a.oth j i = some x → ∃ k, c.ptr j true = .blk k ∧ w.mem k i = x) ∧
    ∀ k, E.blocks k → w.mem k = f k

/-- After an exception. -/
def Sound (E : Env) (f : Nat → Nat → V) (m : Multi) (ss : Nat) (w : World V) : Prop :=
  ∃ c mv K, Inv E m.self m.states 0 ss w c mv K ∧ Link m.states ss mv ∧ Weak m.states c mv ∧
    ∀ k, E.blocks k → w.mem k = f k

theorem Sim.sound {f : Nat → Nat → V} {m : Multi} {a : View V} (h : Sim E f m ss a w) : Sound E f m ss w := by
  obtain ⟨c, mv, h1, h2, h3, -, -, -, -, h4⟩ := h
  exact ⟨c, mv, _, h1, h2, h3, h4⟩

theorem Safe.sound {f g : Nat → Nat → V} {m : Multi} (h : Safe E m.self m.states ss g w)
    (hf : ∀ k, E.blocks k → g k = f k) : Sound E f m ss w := by
  obtain ⟨c, mv, K, h1, h2, h3, h4⟩ := h
  exact ⟨c, mv, K, h1, h3, h4, fun k hk => by rw [h2]; exact hf k hk⟩

/-- Writing to a stride that is there. -/
theorem Sim.write {f : Nat → Nat → V} {m : Multi} {a : View V} (h : Sim E f m ss a w) (hact : a.active = true)
    {s i : Nat} (hs : s < m.states.length) (hi : i < ss) (x : V) (o t : Nat) (v : Vec) (hv : w.vecs o = some v)
    (hp : ∀ c mv, Inv E m.self m.states 0 ss w c mv a.k → Link m.states ss mv → Strong m.states c mv →
      v.ptrs[t]? = some (c.ptr s false)) :
    ∃ w', writeAt o t i x w = .ok w' () ∧ Sim E f m ss { a with cur := tab a.cur s i x } w' := by
  obtain ⟨c, mv, h1, hl, hw, hk, ha, hcur, hoth, hE⟩ := h
  obtain ⟨hst, hb⟩ := ha hact
  obtain ⟨⟨k, hkp⟩, -⟩ := hb s hs
  have hp' := hp c mv h1 hl hst
  rw [hkp] at hp'
  obtain ⟨l1, l2, l3⟩ := h1.blk s false k (Nat.zero_le _) hs hkp
  refine ⟨{ w with mem := upd w.mem k (upd (w.mem k) i x) }, ?_, c, mv, h1.setMem _, hl, hw, hk, ha, ?_, ?_, ?_⟩
  · unfold writeAt
    rw [hv]
    simp only [hp']
    exact if_pos ⟨l1, by rw [l2]; exact hi⟩
  · intro j i' y hj hy
    have hy' : (if j = s ∧ i' = i then some x else a.cur j i') = some y := hy
    by_cases e : j = s ∧ i' = i
    · rw [if_pos e] at hy'
      obtain ⟨rfl, rfl⟩ := e
      refine ⟨k, hkp, ?_⟩
      show upd w.mem k (upd (w.mem k) i' x) k i' = y
      rw [upd_same, upd_same]
      exact Option.some.inj hy'
    · rw [if_neg e] at hy'
      obtain ⟨k', q1, q2⟩ := hcur j i' y hj hy'
      refine ⟨k', q1, ?_⟩
      show upd w.mem k (upd (w.mem k) i x) k' i' = y
      by_cases e' : k' = k
      · subst e'
        obtain ⟨rfl, -⟩ := h1.inj j false s false k' (Nat.zero_le _) hj (Nat.zero_le _) hs q1 hkp
        have : i' ≠ i := fun e2 => e ⟨rfl, e2⟩
        rw [upd_same, upd_other _ _ _ _ this]
        exact q2
      · rw [upd_other _ _ _ _ e']
        exact q2
  · intro j i' y hj hy
    obtain ⟨k', q1, q2⟩ := hoth j i' y hj hy
    refine ⟨k', q1, ?_⟩
    have e' : k' ≠ k := by
      rintro rfl
      have := (h1.inj j true s false k' (Nat.zero_le _) hj (Nat.zero_le _) hs q1 hkp).2
      exact absurd this (by simp)
    show upd w.mem k (upd (w.mem k) i x) k' i' = y
    rw [upd_other _ _ _ _ e']
    exact q2
  · intro k' hk'
    have e' : k' ≠ k := by
      rintro rfl
      exact (h1.oth k' hk').2.2 s false (Nat.zero_le _) hs hkp
    show upd w.mem k (upd (w.mem k) i x) k' = f k'
    rw [upd_other _ _ _ _ e']
    exact hE k' hk'

/-- One call. -/
theorem Sim.perform {f : Nat → Nat → V} {m : Multi} {a : View V} (h : Sim E f m ss a w) (hss : ss ≠ 0) (t : Act V)
    (ht : t.allowed m.states.length ss a) :
    Good (perform m t w) (fun w' _ => Sim E f m ss (a.step t) w') (Sound E f m ss) := by
  cases t with
  | retire =>
    obtain ⟨c, mv, h1, hl, hw, hk, ha, hcur, hoth, hE⟩ := h
    refine Good.mono (h1.multiRetire hl) ?_ (fun _ x => x.elim)
    rintro w' - ⟨c', mv', h1', m', hl', -, k', -, hs'⟩
    refine ⟨c', mv', h1', hl', hs'.weak, fun j hj => by rw [k']; exact hk j hj, fun e => ?_, fun j i x _ e => ?_,
      fun j i x _ e => ?_, fun k hk => by rw [m']; exact hE k hk⟩
    · exact absurd e (by simp [View.step])
    · exact absurd e (by simp [View.step])
    · exact absurd e (by simp [View.step])
  | reaquire =>
    obtain ⟨c, mv, h1, hl, hw, hk, ha, hcur, hoth, hE⟩ := h
    refine Good.mono (h1.multiReaquire hl hw) ?_ (fun w' x => x.sound hE)
    rintro w' - ⟨c', mv', h1', m', hl', g', b', hs'⟩
    refine ⟨c', mv', h1', hl', hs'.weak, fun j hj => by rw [g'.k]; exact hk j hj, fun _ => ⟨hs', fun j hj =>
      ⟨b' j false hj (.inl rfl), fun e => b' j true hj (.inr (by rw [← g'.buf]; exact e))⟩⟩, fun j i x hj e => ?_,
      fun j i x hj e => ?_, fun k hk => by rw [m']; exact hE k hk⟩
    · obtain ⟨k, q1, q2⟩ := hcur j i x hj e
      exact ⟨k, g'.keeps q1, by rw [m']; exact q2⟩
    · obtain ⟨k, q1, q2⟩ := hoth j i x hj e
      exact ⟨k, g'.keeps q1, by rw [m']; exact q2⟩
  | kspace b =>
    obtain ⟨c, mv, h1, hl, hw, hk, ha, hcur, hoth, hE⟩ := h
    refine Good.mono (h1.multiKspace hl hw hss b) ?_ (fun w' x => x.sound hE)
    rintro w' - ⟨c', mv', h1', m', hl', hw', r⟩
    by_cases e : a.k = b
    · rw [if_pos e] at r
      obtain ⟨rfl, rfl⟩ := r
      have es : a.step (.kspace b) = a := if_pos e
      show Sim E f m ss (a.step (.kspace b)) w'
      rw [es]
      rw [← e] at h1'
      exact ⟨c', mv', h1', hl', hw', hk, ha, fun j i x hj q => by rw [m']; exact hcur j i x hj q,
        fun j i x hj q => by rw [m']; exact hoth j i x hj q, fun k hk => by rw [m']; exact hE k hk⟩
    · rw [if_neg e] at r
      have es : a.step (.kspace b) = { a with k := b, cur := a.oth, oth := a.cur } := if_neg e
      show Sim E f m ss (a.step (.kspace b)) w'
      rw [es]
      -- the slots of every state
      have slots : ∀ j, j < m.states.length → c'.buf j ≠ none ∧ c'.ptr j true = c.ptr j false ∧
          (c.buf j ≠ none → c'.ptr j false = c.ptr j true) ∧ (c.buf j = none → ∃ k, c'.ptr j false = .blk k) := by
        intro j hj
        obtain ⟨c0, c1, ⟨e1, e2, e3⟩, sw, e4, -, e5, -⟩ := r j hj
        obtain ⟨x1, x2, x3⟩ := sw.change (by rw [e2, hk j hj]; exact e)
        refine ⟨by rw [e4]; exact sw.buf, by rw [e5, x1, e3], fun hb => ?_, fun hb => ?_⟩
        · rw [e5, x2 (by rw [e1]; exact hb), e3]
        · rw [e5]
          exact x3 (by rw [e1]; exact hb)
      refine ⟨c', mv', h1', hl', hw', fun j hj => ?_, fun hact => ⟨fun j hj => ?_, fun j hj => ?_⟩,
        fun j i x hj q => ?_, fun j i x hj q => ?_, fun k hk => by rw [m']; exact hE k hk⟩
      · obtain ⟨_, _, _, _, _, p, _, _⟩ := r j hj
        exact p
      · obtain ⟨_, _, _, _, _, _, _, p⟩ := r j hj
        exact p
      · obtain ⟨-, hb⟩ := ha hact
        obtain ⟨y1, y2, y3, y4⟩ := slots j hj
        refine ⟨?_, fun _ => by rw [y2]; exact (hb j hj).1⟩
        cases hbuf : c.buf j with
        | none => exact y4 hbuf
        | some z =>
          have hne : c.buf j ≠ none := by rw [hbuf]; simp
          rw [y3 hne]
          exact (hb j hj).2 hne
      · obtain ⟨k, q1, q2⟩ := hoth j i x hj q
        obtain ⟨y1, y2, y3, y4⟩ := slots j hj
        have hne : c.buf j ≠ none := by
          intro hbuf
          rw [h1.nobuf j (Nat.zero_le _) hj hbuf] at q1
          exact absurd q1 (by simp)
        exact ⟨k, by rw [y3 hne]; exact q1, by rw [m']; exact q2⟩
      · obtain ⟨k, q1, q2⟩ := hcur j i x hj q
        obtain ⟨y1, y2, y3, y4⟩ := slots j hj
        exact ⟨k, by rw [y2]; exact q1, by rw [m']; exact q2⟩
  | writeState s i x =>
    obtain ⟨hact, hs, hi⟩ := ht
    obtain ⟨b, hb⟩ := exists_state hs
    have h' := h
    obtain ⟨c, mv, h1, -⟩ := h'
    obtain ⟨w', e1, e2⟩ := h.write hact hs hi x b 0 _ (h1.vec s b (Nat.zero_le _) hb) (fun c2 mv2 h2 _ _ => by
      have e := (h1.vec s b (Nat.zero_le _) hb).symm.trans (h2.vec s b (Nat.zero_le _) hb)
      rw [Option.some.inj e]
      rfl)
    show Good (match m.states[s]? with | none => .ub | some a => writeAt a 0 i x w) _ _
    simp only [hb]
    rw [e1]
    exact e2
  | writeMulti s i x =>
    obtain ⟨hact, hs, hi⟩ := ht
    have h' := h
    obtain ⟨c, mv, h1, -⟩ := h'
    obtain ⟨w', e1, e2⟩ := h.write hact hs hi x m.self s _ h1.mvec (fun c2 mv2 h2 _ h3 => by
      have e := h1.mvec.symm.trans h2.mvec
      rw [Option.some.inj e]
      exact h3 s hs)
    show Good (writeAt m.self s i x w) _ _
    rw [e1]
    exact e2

/-- A sequence of calls. -/
theorem Sim.performAll {f : Nat → Nat → V} {m : Multi} (hss : ss ≠ 0) :
    ∀ (ts : List (Act V)) (a : View V) (w : World V), Sim E f m ss a w → AllAllowed m.states.length ss a ts →
      Good (performAll m ts w) (fun w' _ => Sim E f m ss (a.run ts) w') (Sound E f m ss)
  | [], a, w, h, _ => good_ok h
  | t :: ts, a, w, h, ht =>
    Good.bind (h.perform hss t ht.1) fun w' _ h' => Sim.performAll hss ts (a.step t) w' h' ht.2

/-- Calls that do not write values. -/
def Act.manages : Act V → Prop
  | .writeState _ _ _ => False
  | .writeMulti _ _ _ => False
  | _ => True

/-- One call in any state. -/
theorem Sound.perform {f : Nat → Nat → V} {m : Multi} (h : Sound E f m ss w) (hss : ss ≠ 0) (t : Act V)
    (ht : t.manages) : Good (perform m t w) (fun w' _ => Sound E f m ss w') (Sound E f m ss) := by
  obtain ⟨c, mv, K, h1, hl, hw, hE⟩ := h
  cases t with
  | retire =>
    refine Good.mono (h1.multiRetire hl) ?_ (fun _ x => x.elim)
    rintro w' - ⟨c', mv', h1', m', hl', -, -, -, hs'⟩
    exact ⟨c', mv', _, h1', hl', hs'.weak, fun k hk => by rw [m']; exact hE k hk⟩
  | reaquire =>
    refine Good.mono (h1.multiReaquire hl hw) ?_ (fun w' x => x.sound hE)
    rintro w' - ⟨c', mv', h1', m', hl', -, -, hs'⟩
    exact ⟨c', mv', _, h1', hl', hs'.weak, fun k hk => by rw [m']; exact hE k hk⟩
  | kspace b =>
    refine Good.mono (h1.multiKspace hl hw hss b) ?_ (fun w' x => x.sound hE)
    rintro w' - ⟨c', mv', h1', m', hl', hw', -⟩
    exact ⟨c', mv', _, h1', hl', hw', fun k hk => by rw [m']; exact hE k hk⟩
  | writeState s i x => exact ht.elim
  | writeMulti s i x => exact ht.elim

/-- A sequence of calls whose exceptions are caught. -/
theorem Sound.performCatching {f : Nat → Nat → V} {m : Multi} (hss : ss ≠ 0) :
    ∀ (ts : List (Act V)) (w : World V), Sound E f m ss w → (∀ t ∈ ts, t.manages) →
      ∃ w', performCatching m ts w = .ok w' () ∧ Sound E f m ss w'
  | [], w, h, _ => ⟨w, rfl, h⟩
  | t :: ts, w, h, ht => by
    have hp := h.perform hss t (ht t (List.mem_cons_self ..))
    unfold QDng.Store.performCatching
    cases e : QDng.Store.perform m t w with
    | ok w1 u =>
      rw [e] at hp
      exact Sound.performCatching hss ts w1 hp fun x hx => ht x (List.mem_cons_of_mem _ hx)
    | threw w1 =>
      rw [e] at hp
      exact Sound.performCatching hss ts w1 hp fun x hx => ht x (List.mem_cons_of_mem _ hx)
    | ub =>
      rw [e] at hp
      exact hp.elim

/-! ### Without failing requests for memory there are no exceptions -/

/-- No exception, and the requests that fail stay the same. -/
def Calm (o : Nat → Bool) {A : Type} (r : Res V A) : Prop :=
  match r with
  | .ok w _ => w.oom = o
  | .threw _ => False
  | .ub => True

theorem Calm.bind {o : Nat → Bool} {A B : Type} {r : Res V A} {f : World V → A → Res V B} (h : Calm o r)
    (hf : ∀ w a, w.oom = o → Calm o (f w a)) : Calm o (r.bind f) := by
  cases r with
  | ok w a => exact hf w a h
  | threw w => exact h
  | ub => trivial

section
variable {o : Nat → Bool} (ho : ∀ k, o k = false)
include ho

theorem calm_free (w : World V) (p : Ptr) (h : w.oom = o) : Calm o (w.free p) := by
  cases p with
  | null => exact h
  | junk => trivial
  | blk k =>
    unfold World.free
    by_cases e : w.live k = true
    · simp only [e, if_true]; exact h
    · simp only [e, Bool.false_eq_true, if_false]; trivial

theorem calm_freeAll : ∀ (l : List Ptr) (w : World V), w.oom = o → Calm o (freeAll l w)
  | [], _, h => h
  | p :: ps, w, h => (calm_free ho w p h).bind fun w _ h => calm_freeAll ps w h

theorem calm_destroy (x : Nat) (w : World V) (h : w.oom = o) : Calm o (destroyVec x w) := by
  unfold destroyVec
  cases w.vecs x with
  | none => trivial
  | some v =>
    refine Calm.bind ?_ fun w _ h => h
    by_cases e : v.isRef = true
    · rw [if_pos e]; exact h
    · rw [if_neg e]; exact calm_freeAll ho _ w h

theorem calm_allocStrides (n : Nat) : ∀ (k : Nat) (w : World V), w.oom = o →
    (allocStrides n k w).2.2 = false ∧ (allocStrides n k w).1.oom = o
  | 0, w, h => ⟨rfl, h⟩
  | k + 1, w, h => by
    unfold allocStrides
    by_cases e : n = 0
    · rw [if_pos e]
      exact calm_allocStrides n k w h
    · rw [if_neg e]
      unfold World.alloc
      rw [if_neg (by rw [h, ho]; simp)]
      exact calm_allocStrides n k _ h

theorem calm_init (x n s : Nat) (w : World V) (h : w.oom = o) : Calm o (initVec x n s w) := by
  unfold initVec
  by_cases e : s = 0
  · rw [if_pos e]; trivial
  · rw [if_neg e]
    obtain ⟨e1, e2⟩ := calm_allocStrides ho (n / s) s w h
    simp only [e1, Bool.false_eq_true, if_false]
    exact e2

theorem calm_newsize (x n s : Nat) (w : World V) (h : w.oom = o) : Calm o (newsize x n s w) := by
  unfold newsize
  cases w.vecs x with
  | none => trivial
  | some v =>
    by_cases e : v.size = n ∧ v.ptrs.length = s
    · simp only [e, and_self, if_true]; exact h
    · simp only [e, if_false]
      exact (calm_destroy ho x w h).bind fun w _ h => calm_init ho x n s w h

theorem calm_newVec (n s : Nat) (w : World V) (h : w.oom = o) : Calm o (newVec n s w) := by
  have := calm_init ho w.nextV n s { w with nextV := w.nextV + 1 } h
  unfold newVec
  cases e : initVec w.nextV n s { w with nextV := w.nextV + 1 } with
  | ok w' u => rw [e] at this; exact this
  | threw w' => rw [e] at this; exact this.elim
  | ub => trivial

theorem calm_setPtr (x s : Nat) (p : Ptr) (w : World V) (h : w.oom = o) : Calm o (setPtr x s p w) := by
  unfold setPtr
  cases w.vecs x with
  | none => trivial
  | some v =>
    by_cases e : s < v.ptrs.length
    · simp only [e, if_true]; exact h
    · simp only [e, if_false]; trivial

theorem calm_forUpTo (f : Nat → World V → Res V Unit) (hf : ∀ s w, w.oom = o → Calm o (f s w)) :
    ∀ n s w, w.oom = o → Calm o (forUpTo f s n w)
  | 0, _, _, h => h
  | n + 1, s, w, h => (hf s w h).bind fun w _ h => calm_forUpTo f hf n (s + 1) w h

theorem calm_retire : ∀ (d x : Nat) (w : World V), w.oom = o → Calm o (retire d x w)
  | 0, _, _, _ => trivial
  | d + 1, x, w, h => by
    unfold retire
    cases w.vecs x with
    | none => trivial
    | some v =>
      cases hl : v.locked with
      | true => simp only [hl, if_true]; exact h
      | false =>
        simp only [hl, Bool.false_eq_true, if_false]
        refine calm_forUpTo ho _ ?_ _ _ w h
        intro s w h
        unfold retireStep
        cases w.vecs x with
        | none => trivial
        | some v =>
          simp only
          split
          · exact (calm_free ho w _ h).bind fun w _ h => calm_setPtr ho x s _ w h
          · exact (calm_retire d _ w h).bind fun w _ h => calm_setPtr ho x s _ w h
          · trivial

theorem calm_reaquire : ∀ (d x : Nat) (w : World V), w.oom = o → Calm o (reaquire d x w)
  | 0, _, _, _ => trivial
  | d + 1, x, w, h => by
    unfold reaquire
    cases w.vecs x with
    | none => trivial
    | some v =>
      cases hl : v.locked with
      | true => simp only [hl, if_true]; exact h
      | false =>
        simp only [hl, Bool.false_eq_true, if_false]
        refine calm_forUpTo ho _ ?_ _ _ w h
        intro s w h
        unfold reaquireStep
        cases w.vecs x with
        | none => trivial
        | some v =>
          simp only
          split
          · exact h
          · unfold World.alloc
            rw [if_neg (by rw [h, ho]; simp)]
            exact calm_setPtr ho x s _ _ h
          · refine (calm_reaquire d _ w h).bind fun w _ h => ?_
            split
            · trivial
            · split
              · trivial
              · exact calm_setPtr ho x s _ w h
          · trivial

theorem calm_forStates (f : Nat → World V → Res V Unit) (hf : ∀ a w, w.oom = o → Calm o (f a w)) :
    ∀ l w, w.oom = o → Calm o (forStates f l w)
  | [], _, h => h
  | a :: as, w, h => (hf a w h).bind fun w _ h => calm_forStates f hf as w h

theorem calm_wfRetire (a : Nat) (w : World V) (h : w.oom = o) : Calm o (wfRetire a w) := by
  unfold wfRetire
  split
  · trivial
  · refine (calm_retire ho _ a w h).bind fun w _ h => ?_
    split
    · exact h
    · exact calm_retire ho _ _ w h

theorem calm_wfReaquire (a : Nat) (w : World V) (h : w.oom = o) : Calm o (wfReaquire a w) := by
  unfold wfReaquire
  split
  · trivial
  · refine (calm_reaquire ho _ a w h).bind fun w _ h => ?_
    split
    · exact h
    · exact calm_reaquire ho _ _ w h

theorem calm_swap (x y : Nat) (w : World V) (h : w.oom = o) : Calm o (swapVec x y w) := by
  unfold swapVec
  split
  · split
    · exact h
    · split
      · trivial
      · exact h
  · trivial

theorem calm_wfKspace (a : Nat) (b : Bool) (w : World V) (h : w.oom = o) : Calm o (wfKspace a b w) := by
  unfold wfKspace
  refine Calm.bind (o := o) ?_ fun w q h => ?_
  · unfold getBuf
    split
    · split
      · exact h
      · exact (calm_newVec ho _ _ w h).bind fun w _ h => h
    · trivial
  · split
    · refine Calm.bind ?_ fun w _ h => ?_
      · split
        · exact calm_newsize ho _ _ _ w h
        · exact h
      · split
        · trivial
        · split
          · exact h
          · exact (calm_swap ho a q w h).bind fun w _ h => h
    · trivial

theorem calm_kspaceLoop (me : Nat) (b : Bool) : ∀ (l : List Nat) (i : Nat) (w : World V), w.oom = o →
    Calm o (kspaceLoop me b i l w)
  | [], _, _, h => h
  | a :: as, i, w, h => by
    unfold kspaceLoop
    refine (calm_wfKspace ho a b w h).bind fun w _ h => ?_
    split
    · trivial
    · split
      · trivial
      · exact (calm_setPtr ho me i _ w h).bind fun w _ h => calm_kspaceLoop me b as (i + 1) w h

theorem calm_write (x s i : Nat) (y : V) (w : World V) (h : w.oom = o) : Calm o (writeAt x s i y w) := by
  unfold writeAt
  split
  · trivial
  · split
    · split
      · exact h
      · trivial
    · trivial

theorem calm_perform (m : Multi) (t : Act V) (w : World V) (h : w.oom = o) : Calm o (perform m t w) := by
  cases t with
  | retire =>
    exact (calm_forStates ho _ (fun a w h => calm_wfRetire ho a w h) _ w h).bind fun w _ h => calm_retire ho _ _ w h
  | reaquire =>
    exact (calm_forStates ho _ (fun a w h => calm_wfReaquire ho a w h) _ w h).bind fun w _ h => calm_reaquire ho _ _ w h
  | kspace b =>
    show Calm o (multiKspace m b w)
    unfold multiKspace
    split
    · trivial
    · split
      · exact h
      · refine (calm_kspaceLoop ho _ b _ 0 w h).bind fun w _ h => ?_
        split
        · trivial
        · exact h
  | writeState s i x =>
    show Calm o (match m.states[s]? with | none => .ub | some a => writeAt a 0 i x w)
    split
    · trivial
    · exact calm_write ho _ _ _ _ w h
  | writeMulti s i x => exact calm_write ho _ _ _ _ w h

theorem calm_performAll (m : Multi) : ∀ (ts : List (Act V)) (w : World V), w.oom = o → Calm o (performAll m ts w)
  | [], _, h => h
  | t :: ts, w, h => (calm_perform ho m t w h).bind fun w _ h => calm_performAll m ts w h
end

end QDng.Store
