import Verif.Store.Model

/-
Invariant of a multistate wave function and its states in memory.
-/

namespace QDng.Store

variable {V : Type}

theorem upd_same {A : Type} (f : Nat → A) (k : Nat) (x : A) : upd f k x k = x := if_pos rfl

theorem upd_other {A : Type} (f : Nat → A) (k j : Nat) (x : A) (h : j ≠ k) : upd f k x j = f j := if_neg h

theorem upd_upd {A : Type} (f : Nat → A) (k : Nat) (x y : A) : upd (upd f k x) k y = upd f k y := by
  funext j
  by_cases h : j = k <;> simp [upd, h]

theorem upd_self {A : Type} (f : Nat → A) (k : Nat) (x : A) (h : f k = x) : upd f k x = f := by
  funext j
  by_cases hj : j = k
  · subst hj; rw [upd_same]; exact h.symm
  · exact upd_other f k j x hj

/-- The outcome is as described: after a return `P`, after an exception `Q`, never undefined behaviour. -/
def Good {A : Type} (r : Res V A) (P : World V → A → Prop) (Q : World V → Prop) : Prop :=
  match r with
  | .ok w a => P w a
  | .threw w => Q w
  | .ub => False

theorem Good.bind {A B : Type} {r : Res V A} {f : World V → A → Res V B} {P : World V → A → Prop}
    {P' : World V → B → Prop} {Q : World V → Prop} (h : Good r P Q) (hf : ∀ w a, P w a → Good (f w a) P' Q) :
    Good (r.bind f) P' Q := by
  cases r with
  | ok w a => exact hf w a h
  | threw w => exact h
  | ub => exact h

theorem Good.mono {A : Type} {r : Res V A} {P P' : World V → A → Prop} {Q Q' : World V → Prop} (h : Good r P Q)
    (hP : ∀ w a, P w a → P' w a) (hQ : ∀ w, Q w → Q' w) : Good r P' Q' := by
  cases r with
  | ok w a => exact hP w a h
  | threw w => exact hQ w h
  | ub => exact h

theorem good_ok {A : Type} {P : World V → A → Prop} {Q : World V → Prop} {w : World V} {a : A} (h : P w a) :
    Good (.ok w a) P Q := h

/-- A vector with one stride of its own. -/
def single (ss : Nat) (p : Ptr) : Vec := ⟨ss, ss, [p], [.own], false, false⟩

theorem retire_single_null (d x ss : Nat) (w : World V) (h : w.vecs x = some (single ss .null)) :
    retire (d + 1) x w = .ok w () := by
  have e : w.setVec x (some (single ss .null)) = w := by
    show { w with vecs := upd w.vecs x _ } = w
    rw [upd_self _ _ _ h]
  simp only [retire, h, single, List.length_singleton, forUpTo, retireStep, List.getElem?_cons_zero, World.free,
    Res.bind, setPtr, Nat.zero_lt_one, if_true, List.set_cons_zero, Bool.false_eq_true, if_false]
  exact congrArg (fun z => Res.ok z ()) e

theorem retire_single_blk (d x ss k : Nat) (w : World V) (h : w.vecs x = some (single ss (.blk k)))
    (hl : w.live k = true) :
    retire (d + 1) x w =
      .ok (({ w with live := upd w.live k false } : World V).setVec x (some (single ss .null))) () := by
  simp only [retire, h, single, List.length_singleton, forUpTo, retireStep, List.getElem?_cons_zero, World.free, hl,
    Res.bind, setPtr, Nat.zero_lt_one, if_true, List.set_cons_zero, Bool.false_eq_true, if_false]

theorem reaquire_single_blk (d x ss k : Nat) (w : World V) (h : w.vecs x = some (single ss (.blk k))) :
    reaquire (d + 1) x w = .ok w () := by
  simp only [reaquire, h, single, List.length_singleton, forUpTo, reaquireStep, List.getElem?_cons_zero,
    Res.bind, Bool.false_eq_true, if_false]

theorem reaquire_single_null (d x ss : Nat) (w : World V) (h : w.vecs x = some (single ss .null)) :
    reaquire (d + 1) x w =
      if w.oom w.nextB then .threw { w with nextB := w.nextB + 1 }
      else .ok (({ w with live := upd w.live w.nextB true, cap := upd w.cap w.nextB ss, nextB := w.nextB + 1 }
        : World V).setVec x (some (single ss (.blk w.nextB)))) () := by
  simp only [reaquire, h, single, List.length_singleton, forUpTo, reaquireStep, List.getElem?_cons_zero, World.alloc,
    Bool.false_eq_true, if_false]
  cases w.oom w.nextB with
  | true => rfl
  | false =>
    simp only [Bool.false_eq_true, if_false, setPtr, h, single, List.length_singleton, Nat.zero_lt_one, if_true,
      List.set_cons_zero, Res.bind]

/-- Where the states keep their values: number of the second buffer, pointers of the vector (`false`) and of the second
buffer (`true`), representation. -/
structure Conf where
  buf : Nat → Option Nat
  ptr : Nat → Bool → Ptr
  k : Nat → Bool

def Conf.setPtr (c : Conf) (i : Nat) (s : Bool) (p : Ptr) : Conf :=
  { c with ptr := fun j t => if j = i ∧ t = s then p else c.ptr j t }

theorem setPtr_same (c : Conf) (i : Nat) (s : Bool) (p : Ptr) : (c.setPtr i s p).ptr i s = p :=
  if_pos ⟨rfl, rfl⟩

theorem setPtr_other (c : Conf) (i : Nat) (s : Bool) (p : Ptr) (j : Nat) (t : Bool) (h : ¬ (j = i ∧ t = s)) :
    (c.setPtr i s p).ptr j t = c.ptr j t := if_neg h

/-- What else is in memory: blocks and vectors of others. -/
structure Env where
  blocks : Nat → Prop
  vecs : Nat → Option Vec

/-- The states with numbers from `lo` on are in memory as `c` says, every block in use belongs to exactly one of them
or to others, and the vector `me` of the multistate wave function is `mv`. -/
structure Inv (E : Env) (me : Nat) (states : List Nat) (lo ss : Nat) (w : World V) (c : Conf) (mv : Vec) (K : Bool) :
    Prop where
  wf : ∀ i a, lo ≤ i → states[i]? = some a → w.wfs a = some ⟨c.buf i, c.k i⟩
  vec : ∀ i a, lo ≤ i → states[i]? = some a → w.vecs a = some (single ss (c.ptr i false))
  bvec : ∀ i b, lo ≤ i → i < states.length → c.buf i = some b → w.vecs b = some (single ss (c.ptr i true))
  nobuf : ∀ i, lo ≤ i → i < states.length → c.buf i = none → c.ptr i true = .null
  nodup : states.Nodup
  selfNot : me ∉ states
  bufNot : ∀ i b, lo ≤ i → i < states.length → c.buf i = some b → b ∉ states ∧ b ≠ me
  bufInj : ∀ i j b, lo ≤ i → i < states.length → lo ≤ j → j < states.length → c.buf i = some b → c.buf j = some b → i = j
  stLt : ∀ a ∈ states, a < w.nextV
  selfLt : me < w.nextV
  bufLt : ∀ i b, lo ≤ i → i < states.length → c.buf i = some b → b < w.nextV
  noJunk : ∀ i s, lo ≤ i → i < states.length → c.ptr i s ≠ .junk
  blk : ∀ i s k, lo ≤ i → i < states.length → c.ptr i s = .blk k → w.live k = true ∧ w.cap k = ss ∧ k < w.nextB
  inj : ∀ i s j t k, lo ≤ i → i < states.length → lo ≤ j → j < states.length → c.ptr i s = .blk k → c.ptr j t = .blk k →
    i = j ∧ s = t
  oth : ∀ k, E.blocks k → w.live k = true ∧ k < w.nextB ∧ ∀ i s, lo ≤ i → i < states.length → c.ptr i s ≠ .blk k
  all : ∀ k, w.live k = true → E.blocks k ∨ ∃ i s, lo ≤ i ∧ i < states.length ∧ c.ptr i s = .blk k
  mwf : w.wfs me = some ⟨none, K⟩
  mvec : w.vecs me = some mv
  frame : ∀ x v, E.vecs x = some v → w.vecs x = some v ∧ x < w.nextV ∧ x ∉ states ∧ x ≠ me ∧
    ∀ i, lo ≤ i → i < states.length → c.buf i ≠ some x

section
variable {E : Env} {me : Nat} {states : List Nat} {lo ss : Nat} {w : World V} {c : Conf} {mv : Vec} {K : Bool}

theorem mem_of_getElem? {i a : Nat} (h : states[i]? = some a) : a ∈ states := List.mem_of_getElem? h

theorem lt_of_getElem? {i a : Nat} (h : states[i]? = some a) : i < states.length :=
  (List.getElem?_eq_some_iff.mp h).1

theorem idx_unique (hn : states.Nodup) {i j a : Nat} (hi : states[i]? = some a) (hj : states[j]? = some a) : i = j := by
  have h1 := List.getElem?_eq_some_iff.mp hi
  have h2 := List.getElem?_eq_some_iff.mp hj
  obtain ⟨a1, b1⟩ := h1
  obtain ⟨a2, b2⟩ := h2
  exact (List.getElem_inj hn).mp (b1.trans b2.symm)

/-- The number of the vector in a slot. -/
def slotId (states : List Nat) (c : Conf) (i : Nat) : Bool → Option Nat
  | false => states[i]?
  | true => c.buf i

theorem Inv.slotVec (h : Inv E me states lo ss w c mv K) {i x : Nat} {s : Bool} (h0 : lo ≤ i) (hi : i < states.length)
    (hx : slotId states c i s = some x) : w.vecs x = some (single ss (c.ptr i s)) := by
  cases s with
  | false => exact h.vec i x h0 hx
  | true => exact h.bvec i x h0 hi hx

/-- Different slots are different vectors. -/
theorem Inv.slotInj (h : Inv E me states lo ss w c mv K) {i j x : Nat} {s t : Bool} (h0 : lo ≤ i)
    (hi : i < states.length) (h0' : lo ≤ j) (hj : j < states.length) (hx : slotId states c i s = some x)
    (hy : slotId states c j t = some x) : j = i ∧ t = s := by
  cases s <;> cases t
  · exact ⟨idx_unique h.nodup hy hx, rfl⟩
  · exact absurd (mem_of_getElem? hx) (h.bufNot j x h0' hj hy).1
  · exact absurd (mem_of_getElem? hy) (h.bufNot i x h0 hi hx).1
  · exact ⟨h.bufInj j i x h0' hj h0 hi hy hx, rfl⟩

/-- One slot gets another pointer. -/
theorem Inv.slot (h : Inv E me states lo ss w c mv K) {i x : Nat} {s : Bool} {p : Ptr} {w' : World V} (h0 : lo ≤ i)
    (hi : i < states.length) (hx : slotId states c i s = some x)
    (hv : w'.vecs = upd w.vecs x (some (single ss p))) (hw : w'.wfs = w.wfs) (hV : w'.nextV = w.nextV)
    (hB : w.nextB ≤ w'.nextB) (hj : p ≠ .junk)
    (hp : ∀ k, p = .blk k → w'.live k = true ∧ w'.cap k = ss ∧ k < w'.nextB ∧ ¬ E.blocks k ∧
      ∀ j t, lo ≤ j → j < states.length → ¬ (j = i ∧ t = s) → c.ptr j t ≠ .blk k)
    (hk : ∀ k, (E.blocks k ∨ ∃ j t, lo ≤ j ∧ j < states.length ∧ ¬ (j = i ∧ t = s) ∧ c.ptr j t = .blk k) →
      w'.live k = w.live k ∧ w'.cap k = w.cap k)
    (hl : ∀ k, w'.live k = true → E.blocks k ∨
      (∃ j t, lo ≤ j ∧ j < states.length ∧ ¬ (j = i ∧ t = s) ∧ c.ptr j t = .blk k) ∨ p = .blk k) :
    Inv E me states lo ss w' (c.setPtr i s p) mv K where
  wf := fun j a hj ha => by rw [hw]; exact h.wf j a hj ha
  vec := fun j a hj ha => by
    rw [hv]
    by_cases e : j = i ∧ false = s
    · obtain ⟨rfl, rfl⟩ := e
      have : a = x := Option.some.inj (ha.symm.trans hx)
      subst this
      rw [upd_same, setPtr_same]
    · have hne : a ≠ x := by
        rintro rfl
        exact e (h.slotInj h0 hi hj (lt_of_getElem? ha) hx (t := false) ha)
      rw [upd_other _ _ _ _ hne, setPtr_other _ _ _ _ _ _ e]
      exact h.vec j a hj ha
  bvec := fun j b hj hjn hb => by
    rw [hv]
    by_cases e : j = i ∧ true = s
    · obtain ⟨rfl, rfl⟩ := e
      have : b = x := Option.some.inj (hb.symm.trans hx)
      subst this
      rw [upd_same, setPtr_same]
    · have hne : b ≠ x := by
        rintro rfl
        exact e (h.slotInj h0 hi hj hjn hx (t := true) hb)
      rw [upd_other _ _ _ _ hne, setPtr_other _ _ _ _ _ _ e]
      exact h.bvec j b hj hjn hb
  nobuf := fun j hj hjn hb => by
    by_cases e : j = i ∧ true = s
    · obtain ⟨rfl, rfl⟩ := e
      have hb' : c.buf j = none := hb
      have hx' : c.buf j = some x := hx
      rw [hb'] at hx'
      exact absurd hx' (by simp)
    · rw [setPtr_other _ _ _ _ _ _ e]
      exact h.nobuf j hj hjn hb
  nodup := h.nodup
  selfNot := h.selfNot
  bufNot := h.bufNot
  bufInj := h.bufInj
  stLt := by rw [hV]; exact h.stLt
  selfLt := by rw [hV]; exact h.selfLt
  bufLt := by rw [hV]; exact h.bufLt
  noJunk := fun j t h1 h2 => by
    by_cases e : j = i ∧ t = s
    · obtain ⟨rfl, rfl⟩ := e
      rw [setPtr_same]; exact hj
    · rw [setPtr_other _ _ _ _ _ _ e]; exact h.noJunk j t h1 h2
  blk := fun j t k h1 h2 h3 => by
    by_cases e : j = i ∧ t = s
    · obtain ⟨rfl, rfl⟩ := e
      rw [setPtr_same] at h3
      obtain ⟨a, b, d, -⟩ := hp k h3
      exact ⟨a, b, d⟩
    · rw [setPtr_other _ _ _ _ _ _ e] at h3
      obtain ⟨a, b, d⟩ := h.blk j t k h1 h2 h3
      obtain ⟨e1, e2⟩ := hk k (.inr ⟨j, t, h1, h2, e, h3⟩)
      exact ⟨e1.trans a, e2.trans b, Nat.lt_of_lt_of_le d hB⟩
  inj := fun j t j' t' k h1 h2 h1' h2' h3 h4 => by
    by_cases e : j = i ∧ t = s <;> by_cases e' : j' = i ∧ t' = s
    · exact ⟨e.1.trans e'.1.symm, e.2.trans e'.2.symm⟩
    · obtain ⟨rfl, rfl⟩ := e
      rw [setPtr_same] at h3
      rw [setPtr_other _ _ _ _ _ _ e'] at h4
      exact absurd h4 ((hp k h3).2.2.2.2 j' t' h1' h2' e')
    · obtain ⟨rfl, rfl⟩ := e'
      rw [setPtr_same] at h4
      rw [setPtr_other _ _ _ _ _ _ e] at h3
      exact absurd h3 ((hp k h4).2.2.2.2 j t h1 h2 e)
    · rw [setPtr_other _ _ _ _ _ _ e] at h3
      rw [setPtr_other _ _ _ _ _ _ e'] at h4
      exact h.inj j t j' t' k h1 h2 h1' h2' h3 h4
  oth := fun k hE => by
    obtain ⟨a, b, d⟩ := h.oth k hE
    obtain ⟨e1, e2⟩ := hk k (.inl hE)
    refine ⟨e1.trans a, Nat.lt_of_lt_of_le b hB, fun j t h1 h2 => ?_⟩
    by_cases e : j = i ∧ t = s
    · obtain ⟨rfl, rfl⟩ := e
      rw [setPtr_same]
      intro hpk
      exact (hp k hpk).2.2.2.1 hE
    · rw [setPtr_other _ _ _ _ _ _ e]; exact d j t h1 h2
  all := fun k hk' => by
    rcases hl k hk' with a | ⟨j, t, h1, h2, h3, h4⟩ | a
    · exact .inl a
    · exact .inr ⟨j, t, h1, h2, by rw [setPtr_other _ _ _ _ _ _ h3]; exact h4⟩
    · exact .inr ⟨i, s, h0, hi, by rw [setPtr_same]; exact a⟩
  mwf := by rw [hw]; exact h.mwf
  mvec := by
    have hne : me ≠ x := by
      rintro rfl
      cases s with
      | false => exact h.selfNot (mem_of_getElem? hx)
      | true => exact (h.bufNot i me h0 hi hx).2 rfl
    rw [hv, upd_other _ _ _ _ hne]
    exact h.mvec
  frame := fun y v hy => by
    obtain ⟨a, b, d, e, f⟩ := h.frame y v hy
    have hne : y ≠ x := by
      rintro rfl
      cases s with
      | false => exact d (mem_of_getElem? hx)
      | true => exact f i h0 hi hx
    rw [hv, upd_other _ _ _ _ hne, hV]
    exact ⟨a, b, d, e, f⟩

/-- Giving back the block of a slot. -/
theorem Inv.free (h : Inv E me states lo ss w c mv K) {i x k : Nat} {s : Bool} (h0 : lo ≤ i)
    (hi : i < states.length) (hx : slotId states c i s = some x) (hk : c.ptr i s = .blk k) :
    Inv E me states lo ss (({ w with live := upd w.live k false } : World V).setVec x (some (single ss .null)))
      (c.setPtr i s .null) mv K := by
  refine h.slot h0 hi hx rfl rfl rfl (Nat.le_refl _) (by simp) (fun _ hc => by simp at hc) ?_ ?_
  · rintro k' (hE | ⟨j, t, h1, h2, h3, h4⟩)
    · have : k' ≠ k := by rintro rfl; exact (h.oth k' hE).2.2 i s h0 hi hk
      exact ⟨upd_other _ _ _ _ this, rfl⟩
    · have : k' ≠ k := by rintro rfl; exact h3 (h.inj j t i s k' h1 h2 h0 hi h4 hk)
      exact ⟨upd_other _ _ _ _ this, rfl⟩
  · intro k' hl
    have hl' : upd w.live k false k' = true := hl
    have hne : k' ≠ k := by rintro rfl; rw [upd_same] at hl'; exact absurd hl' (by simp)
    rw [upd_other _ _ _ _ hne] at hl'
    rcases h.all k' hl' with a | ⟨j, t, h1, h2, h3⟩
    · exact .inl a
    · refine .inr (.inl ⟨j, t, h1, h2, ?_, h3⟩)
      rintro ⟨rfl, rfl⟩
      rw [hk] at h3
      injection h3 with h3
      exact hne h3.symm

/-- A new block for an empty slot. -/
theorem Inv.take (h : Inv E me states lo ss w c mv K) {i x : Nat} {s : Bool} (h0 : lo ≤ i)
    (hi : i < states.length) (hx : slotId states c i s = some x) (hk : c.ptr i s = .null) :
    Inv E me states lo ss (({ w with live := upd w.live w.nextB true, cap := upd w.cap w.nextB ss,
                                       nextB := w.nextB + 1 } : World V).setVec x (some (single ss (.blk w.nextB))))
      (c.setPtr i s (.blk w.nextB)) mv K := by
  refine h.slot h0 hi hx rfl rfl rfl (Nat.le_succ _) (by simp) ?_ ?_ ?_
  · intro k hk
    injection hk with hk
    subst hk
    refine ⟨upd_same _ _ _, upd_same _ _ _, Nat.lt_succ_self _, ?_, ?_⟩
    · intro hE
      exact absurd (h.oth _ hE).2.1 (Nat.lt_irrefl _)
    · intro j t h1 h2 _ h4
      exact absurd (h.blk j t _ h1 h2 h4).2.2 (Nat.lt_irrefl _)
  · rintro k (hE | ⟨j, t, h1, h2, _, h4⟩)
    · have : k ≠ w.nextB := Nat.ne_of_lt (h.oth k hE).2.1
      exact ⟨upd_other _ _ _ _ this, upd_other _ _ _ _ this⟩
    · have : k ≠ w.nextB := Nat.ne_of_lt (h.blk j t k h1 h2 h4).2.2
      exact ⟨upd_other _ _ _ _ this, upd_other _ _ _ _ this⟩
  · intro k hl
    by_cases e : k = w.nextB
    · exact .inr (.inr (by rw [e]))
    · have hl' : upd w.live w.nextB true k = true := hl
      rw [upd_other _ _ _ _ e] at hl'
      rcases h.all k hl' with a | ⟨j, t, h1, h2, h3⟩
      · exact .inl a
      · refine .inr (.inl ⟨j, t, h1, h2, ?_, h3⟩)
        rintro ⟨rfl, rfl⟩
        rw [hk] at h3
        exact absurd h3 (by simp)

/-- A failed request changes nothing that matters. -/
theorem Inv.failed (h : Inv E me states lo ss w c mv K) (n : Nat) (hn : w.nextB ≤ n) :
    Inv E me states lo ss { w with nextB := n } c mv K where
  wf := h.wf
  vec := h.vec
  bvec := h.bvec
  nobuf := h.nobuf
  nodup := h.nodup
  selfNot := h.selfNot
  bufNot := h.bufNot
  bufInj := h.bufInj
  stLt := h.stLt
  selfLt := h.selfLt
  bufLt := h.bufLt
  noJunk := h.noJunk
  blk := fun i s k a b d => let ⟨x, y, z⟩ := h.blk i s k a b d; ⟨x, y, Nat.lt_of_lt_of_le z hn⟩
  inj := h.inj
  oth := fun k hE => let ⟨x, y, z⟩ := h.oth k hE; ⟨x, Nat.lt_of_lt_of_le y hn, z⟩
  all := h.all
  mwf := h.mwf
  mvec := h.mvec
  frame := h.frame

/-- `RetireStorage` of a slot. -/
theorem Inv.retireSlot (h : Inv E me states lo ss w c mv K) {i x : Nat} {s : Bool} (d : Nat) (h0 : lo ≤ i)
    (hi : i < states.length) (hx : slotId states c i s = some x) :
    Good (retire (d + 1) x w)
      (fun w' _ => Inv E me states lo ss w' (c.setPtr i s .null) mv K ∧ w'.mem = w.mem) (fun _ => False) := by
  have hv := h.slotVec h0 hi hx
  cases hp : c.ptr i s with
  | null =>
    rw [hp] at hv
    rw [retire_single_null d x ss w hv]
    have e : c.setPtr i s .null = c := by
      have : (fun j t => if j = i ∧ t = s then Ptr.null else c.ptr j t) = c.ptr := by
        funext j t
        by_cases e : j = i ∧ t = s
        · rw [if_pos e, e.1, e.2, hp]
        · rw [if_neg e]
      show ({ c with ptr := fun j t => if j = i ∧ t = s then Ptr.null else c.ptr j t } : Conf) = c
      rw [this]
    exact ⟨by rw [e]; exact h, rfl⟩
  | blk k =>
    rw [hp] at hv
    rw [retire_single_blk d x ss k w hv (h.blk i s k h0 hi hp).1]
    exact ⟨h.free h0 hi hx hp, rfl⟩
  | junk => exact absurd hp (h.noJunk i s h0 hi)

/-- `ReaquireStorage` of a slot. -/
theorem Inv.reaquireSlot (h : Inv E me states lo ss w c mv K) {i x : Nat} {s : Bool} (d : Nat) (h0 : lo ≤ i)
    (hi : i < states.length) (hx : slotId states c i s = some x) :
    Good (reaquire (d + 1) x w)
      (fun w' _ => ∃ k, Inv E me states lo ss w' (c.setPtr i s (.blk k)) mv K ∧ w'.mem = w.mem ∧
        (∀ k', c.ptr i s = .blk k' → k = k'))
      (fun w' => Inv E me states lo ss w' c mv K ∧ w'.mem = w.mem) := by
  have hv := h.slotVec h0 hi hx
  cases hp : c.ptr i s with
  | null =>
    rw [hp] at hv
    rw [reaquire_single_null d x ss w hv]
    by_cases ho : w.oom w.nextB = true
    · rw [if_pos ho]
      exact ⟨h.failed _ (Nat.le_succ _), rfl⟩
    · rw [if_neg ho]
      exact ⟨w.nextB, h.take h0 hi hx hp, rfl, fun k' hk => by simp at hk⟩
  | blk k =>
    rw [hp] at hv
    rw [reaquire_single_blk d x ss k w hv]
    have e : c.setPtr i s (.blk k) = c := by
      have : (fun j t => if j = i ∧ t = s then Ptr.blk k else c.ptr j t) = c.ptr := by
        funext j t
        by_cases e : j = i ∧ t = s
        · rw [if_pos e, e.1, e.2, hp]
        · rw [if_neg e]
      show ({ c with ptr := fun j t => if j = i ∧ t = s then Ptr.blk k else c.ptr j t } : Conf) = c
      rw [this]
    exact ⟨k, by rw [e]; exact h, rfl, fun k' hk => by injection hk⟩
  | junk => exact absurd hp (h.noJunk i s h0 hi)

end

end QDng.Store
