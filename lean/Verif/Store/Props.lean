import Verif.Store.Session

/-
Properties of the storage of vectors and of multistate wave functions.
-/

namespace QDng.Store

variable {V : Type}

/-- The start of every session. -/
theorem Sim.build {w w1 : World V} {m : Multi} {n ss : Nat} (hw : Sane w) (hn : n ≠ 0) (hss : ss ≠ 0)
    (hb : build n ss w = .ok w1 m) :
    m.states.length = n ∧ w1.oom = w.oom ∧
      Sim ⟨fun k => w.live k = true, w.vecs⟩ w.mem m ss (View.new V) w1 := by
  have h := build_good w hw n ss hn hss
  rw [hb] at h
  obtain ⟨hl, c, mv, h1, hm, hl', hst, hbk⟩ := h
  refine ⟨hl, hm.2, c, mv, h1, hl', hst.weak, fun j hj => (hbk j (hl ▸ hj)).2.1, fun _ => ⟨hst, fun j hj => ?_⟩,
    fun j i x hj e => ?_, fun j i x hj e => ?_, fun k _ => by rw [hm.1]⟩
  · obtain ⟨p, q, r⟩ := hbk j (hl ▸ hj)
    exact ⟨r, fun e => absurd p e⟩
  · exact absurd e (by simp [View.new])
  · exact absurd e (by simp [View.new])

/-! ### C229: the states and the multistate wave function show the same values -/

/-- Any sequence of calls to a multistate wave function of `n` states with `ss` elements, values written through the
states or through the multistate wave function, storage given back and taken again, representation changed back and
forth: there is no undefined behaviour.  If there is no exception and the storage is there, every value can be read
through the multistate wave function and through its state, both are the same, and it is the value last written in
this representation. -/
theorem C229_session (w w1 : World V) (hw : Sane w) (n ss : Nat) (hn : n ≠ 0) (hss : ss ≠ 0) (m : Multi)
    (hb : build n ss w = .ok w1 m) (ts : List (Act V)) (ht : AllAllowed n ss (View.new V) ts) :
    performAll m ts w1 ≠ .ub ∧
    ∀ w2, performAll m ts w1 = .ok w2 () → ((View.new V).run ts).active = true →
      ∀ s a i, m.states[s]? = some a → i < ss → ∃ x, readAt m.self s i w2 = .ok w2 x ∧ readAt a 0 i w2 = .ok w2 x ∧
        ∀ y, ((View.new V).run ts).cur s i = some y → x = y := by
  obtain ⟨hl, -, hs⟩ := Sim.build hw hn hss hb
  have h := Sim.performAll hss ts _ w1 hs (by rw [hl]; exact ht)
  refine ⟨fun e => by rw [e] at h; exact h, fun w2 e hact s a i ha hi => ?_⟩
  rw [e] at h
  obtain ⟨c, mv, h1, hl', -, -, hA, hcur, -, -⟩ := h
  obtain ⟨hst, hbk⟩ := hA hact
  have hs' := lt_of_getElem? ha
  obtain ⟨⟨k, hk⟩, -⟩ := hbk s hs'
  obtain ⟨l1, l2, -⟩ := h1.blk s false k (Nat.zero_le _) hs' hk
  have hcond : w2.live k = true ∧ i < w2.cap k := ⟨l1, by rw [l2]; exact hi⟩
  refine ⟨w2.mem k i, ?_, ?_, fun y hy => ?_⟩
  · unfold readAt
    rw [h1.mvec]
    simp only [hst s hs', hk]
    exact if_pos hcond
  · unfold readAt
    rw [h1.vec s a (Nat.zero_le _) ha]
    simp only [single, List.getElem?_cons_zero, hk]
    exact if_pos hcond
  · obtain ⟨k', q1, q2⟩ := hcur s i y hs' hy
    rw [hk] at q1
    injection q1 with q1
    rw [q1]
    exact q2

/-- If no request for memory fails, making the wave function and all calls return. -/
theorem C229_returns (w : World V) (hw : Sane w) (ho : ∀ k, w.oom k = false) (n ss : Nat) (hn : n ≠ 0) (hss : ss ≠ 0) :
    ∃ w1 m, build n ss w = .ok w1 m ∧ m.states.length = n ∧
      ∀ ts, AllAllowed n ss (View.new V) ts → ∃ w2, performAll m ts w1 = .ok w2 () := by
  have h := build_good w hw n ss hn hss
  cases e : QDng.Store.build n ss w with
  | ub => rw [e] at h; exact h.elim
  | threw w' =>
    rw [e] at h
    obtain ⟨⟨k, hk⟩, -⟩ := h
    exact absurd hk (by rw [ho]; simp)
  | ok w1 m =>
    obtain ⟨hl, hoo, hs⟩ := Sim.build hw hn hss e
    refine ⟨w1, m, rfl, hl, fun ts ht => ?_⟩
    have hp := Sim.performAll hss ts _ w1 hs (by rw [hl]; exact ht)
    have hc := calm_performAll (o := w.oom) ho m ts w1 hoo
    cases e2 : performAll m ts w1 with
    | ub => rw [e2] at hp; exact hp.elim
    | threw w' => rw [e2] at hc; exact hc.elim
    | ok w2 u => exact ⟨w2, rfl⟩

/-! ### C230: no leaks, no use after free, also with failing requests -/

/-- What is left in memory after the wave function is deleted: exactly what was there before it was made. -/
def CleanedUp (w : World V) (m : Multi) (w3 : World V) : Prop :=
  (∀ k, w3.live k = true ↔ w.live k = true) ∧ (∀ k, w.live k = true → w3.mem k = w.mem k) ∧
    (∀ x v, w.vecs x = some v → w3.vecs x = some v) ∧
    w3.vecs m.self = none ∧ ∀ a ∈ m.states, w3.vecs a = none

theorem Sound.delete {w w2 : World V} {m : Multi} {ss : Nat}
    (h : Sound ⟨fun k => w.live k = true, w.vecs⟩ w.mem m ss w2) :
    ∃ w3, multiDelete m w2 = .ok w3 () ∧ CleanedUp w m w3 := by
  obtain ⟨c, mv, K, h1, hl, hw, hE⟩ := h
  have hd := h1.multiDelete hl
  cases e : multiDelete m w2 with
  | ub => rw [e] at hd; exact hd.elim
  | threw w' => rw [e] at hd; exact hd.elim
  | ok w3 u =>
    rw [e] at hd
    obtain ⟨p1, p2, p3, p4, p5, p6, p7⟩ := hd
    exact ⟨w3, rfl, p1, fun k hk => by rw [p2]; exact hE k hk, p3, p4, fun a ha => (p6 a ha).1⟩

/-- After a session, whether it ended with an exception or not, deleting the wave function gives back all its memory and
leaves the rest of the memory as it was before the wave function was made. -/
theorem C230_delete (w w1 : World V) (hw : Sane w) (n ss : Nat) (hn : n ≠ 0) (hss : ss ≠ 0) (m : Multi)
    (hb : build n ss w = .ok w1 m) (ts : List (Act V)) (ht : AllAllowed n ss (View.new V) ts) (w2 : World V)
    (h2 : performAll m ts w1 = .ok w2 () ∨ performAll m ts w1 = .threw w2) :
    ∃ w3, multiDelete m w2 = .ok w3 () ∧ CleanedUp w m w3 := by
  obtain ⟨hl, -, hs⟩ := Sim.build hw hn hss hb
  have h := Sim.performAll hss ts _ w1 hs (by rw [hl]; exact ht)
  rcases h2 with e | e
  · rw [e] at h
    exact (Sim.sound h).delete
  · rw [e] at h
    exact Sound.delete h

/-- A program that catches exceptions may go on: whichever requests for memory fail, no sequence of `Retire`, `Reaquire`
and `IsKspace` leads to undefined behaviour; once `Reaquire` returns, every value can be read and written through the
state and through the multistate wave function, which share their memory; and deleting gives everything back. -/
theorem C230_catching (w w1 : World V) (hw : Sane w) (n ss : Nat) (hn : n ≠ 0) (hss : ss ≠ 0) (m : Multi)
    (hb : build n ss w = .ok w1 m) (ts : List (Act V)) (ht : ∀ t ∈ ts, t.manages) :
    ∃ w2, performCatching m ts w1 = .ok w2 () ∧ (∃ w3, multiDelete m w2 = .ok w3 () ∧ CleanedUp w m w3) ∧
      ∀ w3, multiReaquire m w2 = .ok w3 () → ∀ s a i x, m.states[s]? = some a → i < ss →
        ∃ w4, writeAt m.self s i x w3 = .ok w4 () ∧ writeAt a 0 i x w3 = .ok w4 () ∧
          readAt m.self s i w4 = .ok w4 x ∧ readAt a 0 i w4 = .ok w4 x := by
  obtain ⟨hl, -, hs⟩ := Sim.build hw hn hss hb
  obtain ⟨w2, e2, h2⟩ := Sound.performCatching hss ts w1 hs.sound ht
  refine ⟨w2, e2, h2.delete, fun w3 e3 s a i x ha hi => ?_⟩
  obtain ⟨c, mv, K, h1, hl', hwk, -⟩ := h2
  have h3 := h1.multiReaquire hl' hwk
  rw [e3] at h3
  obtain ⟨c', mv', h1', -, hl3, -, b', hs'⟩ := h3
  have hlt := lt_of_getElem? ha
  obtain ⟨k, hk⟩ := b' s false hlt (.inl rfl)
  obtain ⟨l1, l2, -⟩ := h1'.blk s false k (Nat.zero_le _) hlt hk
  have hcond : w3.live k = true ∧ i < w3.cap k := ⟨l1, by rw [l2]; exact hi⟩
  have hm : mv'.ptrs[s]? = some (.blk k) := by rw [hs' s hlt, hk]
  have hv := h1'.vec s a (Nat.zero_le _) ha
  rw [hk] at hv
  refine ⟨{ w3 with mem := upd w3.mem k (upd (w3.mem k) i x) }, ?_, ?_, ?_, ?_⟩
  · unfold writeAt
    rw [h1'.mvec]
    simp only [hm]
    exact if_pos hcond
  · unfold writeAt
    rw [hv]
    exact if_pos hcond
  · unfold readAt
    simp only [h1'.mvec, hm]
    refine (if_pos hcond).trans ?_
    rw [upd_same, upd_same]
  · unfold readAt
    simp only [hv]
    refine (if_pos hcond).trans ?_
    rw [upd_same, upd_same]

/-- After `Retire`, in whatever state the wave function was, it holds no memory at all, and the memory of others is
untouched. -/
theorem C230_retired (w w1 : World V) (hw : Sane w) (n ss : Nat) (hn : n ≠ 0) (hss : ss ≠ 0) (m : Multi)
    (hb : build n ss w = .ok w1 m) (ts : List (Act V)) (ht : AllAllowed n ss (View.new V) ts) (w2 : World V)
    (h2 : performAll m ts w1 = .ok w2 () ∨ performAll m ts w1 = .threw w2) :
    ∃ w3, multiRetire m w2 = .ok w3 () ∧ (∀ k, w3.live k = true ↔ w.live k = true) ∧
      ∀ k, w.live k = true → w3.mem k = w.mem k := by
  obtain ⟨hl, -, hs⟩ := Sim.build hw hn hss hb
  have h := Sim.performAll hss ts _ w1 hs (by rw [hl]; exact ht)
  have hS : Sound ⟨fun k => w.live k = true, w.vecs⟩ w.mem m ss w2 := by
    rcases h2 with e | e
    · rw [e] at h
      exact Sim.sound h
    · rw [e] at h
      exact h
  obtain ⟨c, mv, K, h1, hl', hwk, hE⟩ := hS
  have hr := h1.multiRetire hl'
  cases e : QDng.Store.multiRetire m w2 with
  | ub => rw [show (⟨m.self, m.states⟩ : Multi) = m from rfl, e] at hr; exact hr.elim
  | threw w' => rw [show (⟨m.self, m.states⟩ : Multi) = m from rfl, e] at hr; exact hr.elim
  | ok w3 u =>
    rw [show (⟨m.self, m.states⟩ : Multi) = m from rfl, e] at hr
    obtain ⟨c', mv', h1', m', -, -, -, hnull, -⟩ := hr
    refine ⟨w3, rfl, fun k => ⟨fun hk => ?_, fun hk => (h1'.oth k hk).1⟩, fun k hk => by rw [m']; exact hE k hk⟩
    rcases h1'.all k hk with p | ⟨i, s, -, hi, hp⟩
    · exact p
    · rw [hnull i s hi] at hp
      exact absurd hp (by simp)

/-- If making the wave function ends with an exception, the memory of others is as it was. -/
theorem C230_build (w w1 : World V) (hw : Sane w) (n ss : Nat) (hn : n ≠ 0) (hss : ss ≠ 0) :
    build n ss w ≠ .ub ∧ (build n ss w = .threw w1 → (∃ k, w.oom k = true) ∧
      (∀ k, w.live k = true → w1.live k = true ∧ w1.mem k = w.mem k) ∧ ∀ x v, w.vecs x = some v → w1.vecs x = some v) := by
  have h := build_good w hw n ss hn hss
  refine ⟨fun e => by rw [e] at h; exact h, fun e => ?_⟩
  rw [e] at h
  obtain ⟨h1, h2, h3, h4⟩ := h
  exact ⟨h1, fun k hk => ⟨h2 k hk, by rw [h3]⟩, h4⟩

/-! ### C231: the representation of the states is the one of the multistate wave function -/

/-- After any session without exception `IsKspace()` of the multistate wave function and of all its states is what was
last set. -/
theorem C231_kspace_partial (w w1 : World V) (hw : Sane w) (n ss : Nat) (hn : n ≠ 0) (hss : ss ≠ 0) (m : Multi)
    (hb : build n ss w = .ok w1 m) (ts : List (Act V)) (ht : AllAllowed n ss (View.new V) ts) (w2 : World V)
    (h2 : performAll m ts w1 = .ok w2 ()) :
    (w2.wfs m.self).map Wf.kspace = some ((View.new V).run ts).k ∧
      ∀ a ∈ m.states, (w2.wfs a).map Wf.kspace = some ((View.new V).run ts).k := by
  obtain ⟨hl, -, hs⟩ := Sim.build hw hn hss hb
  have h := Sim.performAll hss ts _ w1 hs (by rw [hl]; exact ht)
  rw [h2] at h
  obtain ⟨c, mv, h1, -, -, hk, -⟩ := h
  refine ⟨by rw [h1.mwf]; rfl, fun a ha => ?_⟩
  obtain ⟨i, hi⟩ := List.getElem?_of_mem ha
  rw [h1.wf i a (Nat.zero_le _) hi]
  show some (c.k i) = _
  rw [hk i (lt_of_getElem? hi)]

/-- After an exception in `IsKspace(b)`, calling it once more brings the wave function into order if the call returns. -/
theorem C231_retry (w w1 : World V) (hw : Sane w) (n ss : Nat) (hn : n ≠ 0) (hss : ss ≠ 0) (m : Multi)
    (hb : build n ss w = .ok w1 m) (ts : List (Act V)) (ht : ∀ t ∈ ts, t.manages) (b : Bool) (w2 w3 : World V)
    (h2 : performCatching m ts w1 = .ok w2 ()) (hk : (w2.wfs m.self).map Wf.kspace = some (!b))
    (h3 : multiKspace m b w2 = .ok w3 ()) :
    (w3.wfs m.self).map Wf.kspace = some b ∧ ∀ a ∈ m.states, (w3.wfs a).map Wf.kspace = some b := by
  obtain ⟨hl, -, hs⟩ := Sim.build hw hn hss hb
  obtain ⟨w2', e2, hS⟩ := Sound.performCatching hss ts w1 hs.sound ht
  rw [h2] at e2
  injection e2 with e2
  subst e2
  obtain ⟨c, mv, K, h1, hl', hwk, -⟩ := hS
  have hg := h1.multiKspace hl' hwk hss b
  rw [h3] at hg
  obtain ⟨c', mv', h1', -, -, -, r⟩ := hg
  rw [h1.mwf] at hk
  have hK : K ≠ b := by
    have hk' : some K = some (!b) := hk
    rw [Option.some.inj hk']
    cases b <;> simp
  rw [if_neg hK] at r
  refine ⟨by rw [h1'.mwf]; rfl, fun a ha => ?_⟩
  obtain ⟨i, hi⟩ := List.getElem?_of_mem ha
  rw [h1'.wf i a (Nat.zero_le _) hi]
  obtain ⟨_, _, _, _, _, p, _, _⟩ := r i (lt_of_getElem? hi)
  show some (c'.k i) = _
  rw [p]

end QDng.Store
