import Verif.Store.Loops
import Verif.Store.Spec

/-
Making a multistate wave function.
-/

namespace QDng.Store

variable {V : Type} {E : Env} {me : Nat} {states : List Nat} {lo ss : Nat} {w : World V} {c : Conf} {mv : Vec}
  {K : Bool}

/-- One more state. -/
def Conf.add (c : Conf) (n k : Nat) : Conf :=
  ⟨upd c.buf n none, fun j t => if j = n then (if t then .null else .blk k) else c.ptr j t, upd c.k n false⟩

theorem add_old (c : Conf) (n k j : Nat) (t : Bool) (h : j ≠ n) : (c.add n k).ptr j t = c.ptr j t := if_neg h

theorem add_new (c : Conf) (n k : Nat) : (c.add n k).ptr n false = .blk k := if_pos rfl

theorem add_new' (c : Conf) (n k : Nat) : (c.add n k).ptr n true = .null := if_pos rfl

theorem getElem?_add {i a x : Nat} (h : (states ++ [x])[i]? = some a) :
    (i < states.length ∧ states[i]? = some a) ∨ (i = states.length ∧ a = x) := by
  rw [List.getElem?_append] at h
  by_cases e : i < states.length
  · rw [if_pos e] at h; exact .inl ⟨e, h⟩
  · rw [if_neg e] at h
    have := lt_of_getElem? h
    simp at this
    have e' : i = states.length := by omega
    subst e'
    simp at h
    exact .inr ⟨rfl, h.symm⟩

theorem Inv.addState (h : Inv E me states 0 ss w c mv K) :
    Inv E me (states ++ [w.nextV]) 0 ss
      (({ w with nextB := w.nextB + 1, nextV := w.nextV + 1, live := upd w.live w.nextB true,
                 cap := upd w.cap w.nextB ss, vecs := upd w.vecs w.nextV (some (single ss (.blk w.nextB))) }
        : World V).setWf w.nextV (some ⟨none, false⟩))
      (c.add states.length w.nextB) mv K := by
  have z : ∀ i, 0 ≤ i := fun i => Nat.zero_le i
  have split : ∀ {i}, i < (states ++ [w.nextV]).length → i < states.length ∨ i = states.length := by
    intro i hi
    simp at hi
    omega
  have oldbuf : ∀ {i b}, (c.add states.length w.nextB).buf i = some b → i ≠ states.length ∧ c.buf i = some b := by
    intro i b hb
    have hb' : upd c.buf states.length none i = some b := hb
    by_cases e : i = states.length
    · rw [e, upd_same] at hb'; exact absurd hb' (by simp)
    · rw [upd_other _ _ _ _ e] at hb'
      exact ⟨e, hb'⟩
  have oldblk : ∀ {i s k}, (c.add states.length w.nextB).ptr i s = .blk k → i < (states ++ [w.nextV]).length →
      (i < states.length ∧ c.ptr i s = .blk k) ∨ (i = states.length ∧ s = false ∧ k = w.nextB) := by
    intro i s k hk hi
    rcases split hi with e | e
    · rw [add_old _ _ _ _ _ (by omega)] at hk
      exact .inl ⟨e, hk⟩
    · subst e
      cases s with
      | false =>
        rw [add_new] at hk
        injection hk with hk
        exact .inr ⟨rfl, rfl, hk.symm⟩
      | true =>
        rw [add_new'] at hk
        exact absurd hk (by simp)
  have fresh : ∀ a, a ∈ states ++ [w.nextV] → a ∈ states ∨ a = w.nextV := by
    intro a ha
    simpa using ha
  exact {
    wf := fun i a _ ha => by
      show upd w.wfs w.nextV _ a = some ⟨upd c.buf states.length none i, upd c.k states.length false i⟩
      rcases getElem?_add ha with ⟨e, ha'⟩ | ⟨rfl, rfl⟩
      · rw [upd_other _ _ _ _ (Nat.ne_of_lt (h.stLt a (mem_of_getElem? ha'))), upd_other _ _ _ _ (Nat.ne_of_lt e),
          upd_other _ _ _ _ (Nat.ne_of_lt e)]
        exact h.wf i a (z _) ha'
      · rw [upd_same, upd_same, upd_same]
    vec := fun i a _ ha => by
      show upd w.vecs w.nextV _ a = _
      rcases getElem?_add ha with ⟨e, ha'⟩ | ⟨rfl, rfl⟩
      · rw [upd_other _ _ _ _ (Nat.ne_of_lt (h.stLt a (mem_of_getElem? ha'))), add_old _ _ _ _ _ (Nat.ne_of_lt e)]
        exact h.vec i a (z _) ha'
      · rw [upd_same, add_new]
    bvec := fun i b _ hi hb => by
      obtain ⟨e, hb'⟩ := oldbuf hb
      have hi' : i < states.length := (split hi).resolve_right e
      show upd w.vecs w.nextV _ b = _
      rw [upd_other _ _ _ _ (Nat.ne_of_lt (h.bufLt i b (z _) hi' hb')), add_old _ _ _ _ _ e]
      exact h.bvec i b (z _) hi' hb'
    nobuf := fun i _ hi hb => by
      rcases split hi with e | e
      · rw [add_old _ _ _ _ _ (by omega)]
        have hb' : upd c.buf states.length none i = none := hb
        rw [upd_other _ _ _ _ (by omega)] at hb'
        exact h.nobuf i (z _) e hb'
      · rw [e, add_new']
    nodup := by
      rw [List.nodup_append]
      refine ⟨h.nodup, by simp, fun a ha b hb => ?_⟩
      simp at hb
      rw [hb]
      exact Nat.ne_of_lt (h.stLt a ha)
    selfNot := fun hm => by
      rcases fresh me hm with e | e
      · exact h.selfNot e
      · exact absurd h.selfLt (by rw [e]; exact Nat.lt_irrefl _)
    bufNot := fun i b _ hi hb => by
      obtain ⟨e, hb'⟩ := oldbuf hb
      have hi' : i < states.length := (split hi).resolve_right e
      refine ⟨fun hm => ?_, (h.bufNot i b (z _) hi' hb').2⟩
      rcases fresh b hm with e | e
      · exact (h.bufNot i b (z _) hi' hb').1 e
      · exact absurd (h.bufLt i b (z _) hi' hb') (by rw [e]; exact Nat.lt_irrefl _)
    bufInj := fun i j b _ hi _ hj hb hb2 => by
      obtain ⟨e, hb'⟩ := oldbuf hb
      obtain ⟨e2, hb2'⟩ := oldbuf hb2
      exact h.bufInj i j b (z _) ((split hi).resolve_right e) (z _) ((split hj).resolve_right e2) hb' hb2'
    stLt := fun a ha => by
      show a < w.nextV + 1
      rcases fresh a ha with e | e
      · exact Nat.lt_succ_of_lt (h.stLt a e)
      · rw [e]; exact Nat.lt_succ_self _
    selfLt := Nat.lt_succ_of_lt h.selfLt
    bufLt := fun i b _ hi hb => by
      obtain ⟨e, hb'⟩ := oldbuf hb
      exact Nat.lt_succ_of_lt (h.bufLt i b (z _) ((split hi).resolve_right e) hb')
    noJunk := fun i s _ hi => by
      rcases split hi with e | e
      · rw [add_old _ _ _ _ _ (by omega)]
        exact h.noJunk i s (z _) e
      · subst e
        cases s with
        | false => rw [add_new]; simp
        | true => rw [add_new']; simp
    blk := fun i s k _ hi hk => by
      show upd w.live w.nextB true k = true ∧ upd w.cap w.nextB ss k = ss ∧ k < w.nextB + 1
      rcases oldblk hk hi with ⟨e, hk'⟩ | ⟨rfl, rfl, rfl⟩
      · obtain ⟨p, q, r⟩ := h.blk i s k (z _) e hk'
        rw [upd_other _ _ _ _ (Nat.ne_of_lt r), upd_other _ _ _ _ (Nat.ne_of_lt r)]
        exact ⟨p, q, Nat.lt_succ_of_lt r⟩
      · rw [upd_same, upd_same]
        exact ⟨rfl, rfl, Nat.lt_succ_self _⟩
    inj := fun i s j t k _ hi _ hj hk hk2 => by
      rcases oldblk hk hi with ⟨e, hk'⟩ | ⟨rfl, rfl, rfl⟩
      · rcases oldblk hk2 hj with ⟨e2, hk2'⟩ | ⟨rfl, rfl, rfl⟩
        · exact h.inj i s j t k (z _) e (z _) e2 hk' hk2'
        · exact absurd (h.blk i s _ (z _) e hk').2.2 (Nat.lt_irrefl _)
      · rcases oldblk hk2 hj with ⟨e2, hk2'⟩ | ⟨rfl, rfl, -⟩
        · exact absurd (h.blk j t _ (z _) e2 hk2').2.2 (Nat.lt_irrefl _)
        · exact ⟨rfl, rfl⟩
    oth := fun k hE => by
      obtain ⟨p, q, r⟩ := h.oth k hE
      refine ⟨(upd_other _ _ _ _ (Nat.ne_of_lt q)).trans p, Nat.lt_succ_of_lt q, fun i s _ hi hk => ?_⟩
      rcases oldblk hk hi with ⟨e, hk'⟩ | ⟨rfl, rfl, rfl⟩
      · exact r i s (z _) e hk'
      · exact absurd q (Nat.lt_irrefl _)
    all := fun k hk => by
      have hk' : upd w.live w.nextB true k = true := hk
      by_cases e : k = w.nextB
      · exact .inr ⟨states.length, false, z _, by simp, by rw [add_new, e]⟩
      · rw [upd_other _ _ _ _ e] at hk'
        rcases h.all k hk' with p | ⟨i, s, -, hi, hp⟩
        · exact .inl p
        · exact .inr ⟨i, s, z _, by simp; omega, by rw [add_old _ _ _ _ _ (Nat.ne_of_lt hi)]; exact hp⟩
    mwf := (upd_other _ _ _ _ (Nat.ne_of_lt h.selfLt)).trans h.mwf
    mvec := (upd_other _ _ _ _ (Nat.ne_of_lt h.selfLt)).trans h.mvec
    frame := fun x v hx => by
      obtain ⟨p, q, r, s, t⟩ := h.frame x v hx
      refine ⟨(upd_other _ _ _ _ (Nat.ne_of_lt q)).trans p, Nat.lt_succ_of_lt q, fun hm => ?_, s, fun i _ hi hb => ?_⟩
      · rcases fresh x hm with e | e
        · exact r e
        · exact absurd q (by rw [e]; exact Nat.lt_irrefl _)
      · obtain ⟨e, hb'⟩ := oldbuf hb
        exact t i (z _) ((split hi).resolve_right e) hb' }

/-- What is kept if making the wave function ends with an exception. -/
def Kept (E : Env) (f : Nat → Nat → V) (o : Nat → Bool) (w : World V) : Prop :=
  (∃ k, o k = true) ∧ (∀ k, E.blocks k → w.live k = true) ∧ w.mem = f ∧ ∀ x v, E.vecs x = some v → w.vecs x = some v

/-- New states. -/
theorem Inv.newStates (h : Inv E me [] 0 ss w c mv K) (hss : ss ≠ 0) :
    ∀ n, Good (newStates ss n w)
      (fun w' l => l.length = n ∧ ∃ c', Inv E me l 0 ss w' c' mv K ∧ (w'.mem = w.mem ∧ w'.oom = w.oom) ∧
        ∀ i, i < n → c'.buf i = none ∧ c'.k i = false ∧ ∃ k, c'.ptr i false = .blk k)
      (Kept E w.mem w.oom)
  | 0 => good_ok ⟨rfl, c, h, ⟨rfl, rfl⟩, fun i hi => absurd hi (Nat.not_lt_zero _)⟩
  | n + 1 => by
    unfold QDng.Store.newStates
    refine Good.bind (Inv.newStates h hss n) ?_
    rintro w1 l ⟨hl, c1, h1, m1, n1⟩
    unfold newWf
    rw [newVec_one w1 ss hss]
    by_cases ho : w1.oom w1.nextB = true
    · rw [if_pos ho]
      exact ⟨⟨_, by rw [← m1.2]; exact ho⟩, fun k hk => (h1.oth k hk).1, m1.1, fun x v hx => by
        obtain ⟨p, q, -⟩ := h1.frame x v hx
        exact (upd_other _ _ _ _ (Nat.ne_of_lt q)).trans p⟩
    · rw [if_neg ho]
      refine good_ok ⟨by simp [hl], _, h1.addState, m1, fun i hi => ?_⟩
      by_cases e : i = l.length
      · subst e
        exact ⟨upd_same _ _ _, upd_same _ _ _, _, add_new _ _ _⟩
      · obtain ⟨p, q, k, r⟩ := n1 i (by omega)
        exact ⟨(upd_other _ _ _ _ e).trans p, (upd_other _ _ _ _ e).trans q, k, (add_old _ _ _ _ _ e).trans r⟩

/-- The vector of a multistate wave function before its states are linked. -/
def nullVec (n : Nat) : Vec := ⟨0, 0, List.replicate n .null, List.replicate n .own, false, false⟩

theorem allocStrides_zero (n : Nat) (w : World V) : allocStrides 0 n w = (w, List.replicate n .null, false) := by
  induction n with
  | zero => rfl
  | succ n ih =>
    unfold allocStrides
    rw [if_pos rfl, ih]
    rfl

theorem initVec_zero (o n : Nat) (hn : n ≠ 0) (w : World V) :
    initVec o 0 n w = .ok (w.setVec o (some (nullVec n))) () := by
  unfold initVec
  rw [if_neg hn, Nat.zero_div]
  simp only [allocStrides_zero, Bool.false_eq_true, if_false, List.map_replicate, refOf, nullVec]

/-- The vector after the first `i` states are linked. -/
def partVec (states : List Nat) (c : Conf) (ss i : Nat) : Vec :=
  ⟨states.length * ss, ss, (List.range states.length).map fun j => if j < i then c.ptr j false else .null,
    (List.range states.length).map fun j => if j < i then .to (states.getD j 0) 0 else .own, true, false⟩

theorem range_set {A : Type} (n i : Nat) (f g : Nat → A) (hi : i < n) :
    ((List.range n).map fun j => if j < i then f j else g j).set i (f i) =
      (List.range n).map fun j => if j < i + 1 then f j else g j := by
  apply List.ext_getElem?
  intro j
  rw [List.getElem?_set]
  by_cases hj : j < n
  · simp only [List.getElem?_map, List.getElem?_range hj, Option.map_some, List.length_map, List.length_range]
    by_cases e : i = j
    · subst e
      simp [hi]
    · rw [if_neg e]
      by_cases e' : j < i
      · rw [if_pos e', if_pos (by omega)]
      · rw [if_neg e', if_neg (by omega)]
  · have e : i ≠ j := by omega
    simp only [List.getElem?_map, List.getElem?_eq_none (l := List.range n) (i := j) (by simp; omega), if_neg e]
    rfl

theorem linkLoop_more :
    ∀ (l : List Nat) (i : Nat) (w : World V), (∀ j, l[j]? = states[i + j]?) → i + l.length = states.length → 0 < i →
      Inv E me states 0 ss w c (partVec states c ss i) K →
      ∃ w', linkLoop me i l w = .ok w' () ∧ Inv E me states 0 ss w' c (partVec states c ss states.length) K ∧
        w'.mem = w.mem ∧ w'.oom = w.oom
  | [], i, w, _, e, _, h => by
    have : i = states.length := by simpa using e
    subst this
    exact ⟨w, rfl, h, rfl, rfl⟩
  | a :: as, i, w, e, hlen, hi, h => by
    have ha : states[i]? = some a := by
      have := e 0
      simpa using this.symm
    have hil := lt_of_getElem? ha
    have hva := h.vec i a (Nat.zero_le _) ha
    have hs : strideRef me a 0 i w = .ok (w.setVec me (some (partVec states c ss (i + 1)))) true := by
      unfold strideRef
      rw [h.mvec, hva]
      simp only [partVec, single]
      rw [if_neg (by simp), if_neg (by simp)]
      simp only [if_true, Res.bind, h.mvec, hva, partVec, single]
      rw [if_neg (by simp; omega)]
      simp only [List.getElem?_cons_zero, List.length_map, List.length_range]
      rw [range_set states.length i (fun j => c.ptr j false) (fun _ => Ptr.null) hil]
      have e2 : Ref.to a 0 = (fun j => Ref.to (states.getD j 0) 0) i := by
        simp [List.getD, ha]
      rw [e2, range_set states.length i (fun j => Ref.to (states.getD j 0) 0) (fun _ => Ref.own) hil]
    unfold linkLoop
    rw [hs]
    simp only [Res.bind, if_true]
    obtain ⟨w', p, q, r⟩ := linkLoop_more as (i + 1) _ (fun j => by
      have := e (j + 1)
      rw [List.getElem?_cons_succ] at this
      rw [this]
      congr 1
      omega) (by simp at hlen; omega) (by omega) (h.setMe (partVec states c ss (i + 1)))
    exact ⟨w', p, q, r⟩

/-- Linking the states. -/
theorem Inv.multiLink (h : Inv E me states 0 ss w c (nullVec 1) K) (hn : states ≠ []) :
    ∃ w' mv', multiLink ⟨me, states⟩ w = .ok w' () ∧ Inv E me states 0 ss w' c mv' K ∧
      (w'.mem = w.mem ∧ w'.oom = w.oom) ∧ Link states ss mv' ∧ Strong states c mv' := by
  have hpos : states.length ≠ 0 := fun e => hn (List.eq_nil_of_length_eq_zero e)
  have h1 : newsize me 0 states.length w = .ok (w.setVec me (some (nullVec states.length))) () := by
    unfold newsize
    rw [h.mvec]
    simp only [nullVec, List.length_replicate]
    by_cases e : states.length = 1
    · rw [if_pos ⟨trivial, e.symm⟩]
      have : w.setVec me (some (nullVec 1)) = w := by
        show { w with vecs := upd w.vecs me _ } = w
        rw [upd_self _ _ _ h.mvec]
      rw [e]
      exact congrArg (fun z => Res.ok z ()) this.symm
    · rw [if_neg (fun x => e x.2.symm)]
      simp only [destroyVec, h.mvec, nullVec, Bool.false_eq_true, if_false, List.replicate_one, freeAll, World.free, Res.bind]
      rw [initVec_zero _ _ hpos]
      simp only [World.setVec, upd_upd, nullVec]
  cases hs : states with
  | nil => exact absurd hs hn
  | cons a as =>
    have ha : states[0]? = some a := by rw [hs]; rfl
    have h2 := h.setMe (nullVec states.length)
    have hva := h2.vec 0 a (Nat.le_refl _) ha
    have hne : a ≠ me := fun e => h.selfNot (e ▸ mem_of_getElem? ha)
    have hs0 : strideRef me a 0 0 (w.setVec me (some (nullVec states.length))) =
        .ok (w.setVec me (some (partVec states c ss 1))) true := by
      have hr : partVec states c ss 1 =
          ⟨states.length * ss, ss, (List.replicate states.length Ptr.null).set 0 (c.ptr 0 false),
            (List.replicate states.length Ref.own).set 0 (.to a 0), true, false⟩ := by
        have r1 := range_set states.length 0 (fun j => c.ptr j false) (fun _ => Ptr.null) (by omega)
        have r2 := range_set states.length 0 (fun j => Ref.to (states.getD j 0) 0) (fun _ => Ref.own) (by omega)
        have e2 : Ref.to (states.getD 0 0) 0 = Ref.to a 0 := by rw [hs]; rfl
        simp only [Nat.not_lt_zero, if_false, Nat.zero_add] at r1 r2
        rw [e2] at r2
        unfold partVec
        rw [← r1, ← r2]
        congr 1
        · congr 1
          apply List.ext_getElem?
          intro j
          by_cases hj : j < states.length <;> simp [hj]
        · congr 1
          apply List.ext_getElem?
          intro j
          by_cases hj : j < states.length <;> simp [hj]
      have hinit : initVec me 0 states.length (w.setVec me (some (nullVec states.length))) =
          .ok (w.setVec me (some (nullVec states.length))) () := by
        rw [initVec_zero _ _ hpos]
        simp only [World.setVec, upd_upd]
      unfold strideRef
      simp only [h2.mvec, hva]
      rw [if_neg (by simp [nullVec]), if_neg (by simp [nullVec]; omega)]
      simp only [nullVec, Bool.false_eq_true, if_false, Nat.lt_irrefl, gt_iff_lt, Res.bind, List.length_replicate]
      simp only [nullVec] at hinit
      rw [hinit]
      have g1 : (w.setVec me (some ⟨0, 0, List.replicate states.length .null, List.replicate states.length .own,
        false, false⟩)).vecs me = some ⟨0, 0, List.replicate states.length .null, List.replicate states.length .own,
        false, false⟩ := upd_same _ _ _
      simp only [g1]
      have g2 : ((w.setVec me (some ⟨0, 0, List.replicate states.length .null, List.replicate states.length .own,
        false, false⟩)).setVec me (some ⟨0, (single ss (c.ptr 0 false)).ssize, List.replicate states.length .null,
        List.replicate states.length .own, true, false⟩)).vecs me = some ⟨0, (single ss (c.ptr 0 false)).ssize,
        List.replicate states.length .null, List.replicate states.length .own, true, false⟩ := upd_same _ _ _
      have g3 : ((w.setVec me (some ⟨0, 0, List.replicate states.length .null, List.replicate states.length .own,
        false, false⟩)).setVec me (some ⟨0, (single ss (c.ptr 0 false)).ssize, List.replicate states.length .null,
        List.replicate states.length .own, true, false⟩)).vecs a = some (single ss (c.ptr 0 false)) :=
        (upd_other _ _ _ _ hne).trans hva
      simp only [g2, g3]
      rw [if_neg (by simp; omega)]
      simp only [single, List.getElem?_cons_zero, List.length_replicate, World.setVec, upd_upd]
      rw [hr]
    have h3 := h.setMe (partVec states c ss 1)
    obtain ⟨w', p, q, r⟩ := linkLoop_more as 1 _
      (fun j => by rw [hs, Nat.add_comm, List.getElem?_cons_succ]) (by rw [hs]; simp; omega) (by omega) h3
    refine ⟨w', partVec states c ss states.length, ?_, ?_, r, ?_, ?_⟩
    · unfold QDng.Store.multiLink
      rw [← hs]
      simp only [h1, Res.bind]
      conv => lhs; rw [hs]
      unfold linkLoop
      rw [← hs, hs0]
      simp only [Res.bind, if_true]
      exact p
    · rw [← hs]; exact q
    · rw [← hs]
      refine ⟨rfl, rfl, rfl, rfl, by simp [partVec], ?_⟩
      apply List.ext_getElem?
      intro j
      by_cases hj : j < states.length
      · simp [partVec, hj]
      · simp [partVec, hj]
    · rw [← hs]
      intro i hi
      simp [partVec, hi]

/-- Making a multistate wave function. -/
theorem build_good (w : World V) (hw : Sane w) (n ss : Nat) (hn : n ≠ 0) (hss : ss ≠ 0) :
    Good (build n ss w)
      (fun w' m => m.states.length = n ∧ ∃ c mv, Inv ⟨fun k => w.live k = true, w.vecs⟩ m.self m.states 0 ss w' c mv false ∧
        (w'.mem = w.mem ∧ w'.oom = w.oom) ∧ Link m.states ss mv ∧ Strong m.states c mv ∧
        ∀ i, i < n → c.buf i = none ∧ c.k i = false ∧ ∃ k, c.ptr i false = .blk k)
      (Kept ⟨fun k => w.live k = true, w.vecs⟩ w.mem w.oom) := by
  have h0 : newWf 0 w =
      .ok ((({ w with nextV := w.nextV + 1 } : World V).setVec w.nextV (some (nullVec 1))).setWf w.nextV
        (some ⟨none, false⟩)) w.nextV := by
    unfold newWf newVec
    rw [initVec_zero _ _ (by decide)]
    rfl
  have hinv : Inv ⟨fun k => w.live k = true, w.vecs⟩ w.nextV [] 0 ss
      ((({ w with nextV := w.nextV + 1 } : World V).setVec w.nextV (some (nullVec 1))).setWf w.nextV
        (some ⟨none, false⟩)) ⟨fun _ => none, fun _ _ => .null, fun _ => false⟩ (nullVec 1) false := by
    refine ⟨?_, ?_, ?_, ?_, ?_, ?_, ?_, ?_, ?_, ?_, ?_, ?_, ?_, ?_, ?_, ?_, ?_, ?_, ?_⟩
    · intro i a _ ha; simp at ha
    · intro i a _ ha; simp at ha
    · intro i b _ hi; simp at hi
    · intro i _ hi; simp at hi
    · exact List.nodup_nil
    · simp
    · intro i b _ hi; simp at hi
    · intro i j b _ hi; simp at hi
    · intro a ha; simp at ha
    · exact Nat.lt_succ_self _
    · intro i b _ hi; simp at hi
    · intro i s _ hi; simp at hi
    · intro i s k _ hi; simp at hi
    · intro i s j t k _ hi; simp at hi
    · intro k hk
      exact ⟨hk, hw.1 k hk, fun i s _ hi => by simp at hi⟩
    · intro k hk
      exact .inl hk
    · exact upd_same _ _ _
    · exact upd_same _ _ _
    · intro x v hx
      have hlt : x < w.nextV := hw.2 x v hx
      exact ⟨(upd_other _ _ _ _ (Nat.ne_of_lt hlt)).trans hx, Nat.lt_succ_of_lt hlt, by simp,
        Nat.ne_of_lt hlt, fun i _ hi => by simp at hi⟩
  unfold build
  rw [h0]
  simp only [Res.bind]
  refine Good.bind (hinv.newStates hss n) ?_
  rintro w1 l ⟨hl, c1, h1, m1, n1⟩
  obtain ⟨w2, mv2, e2, h2, m2, l2, s2⟩ := h1.multiLink (fun e => hn (by rw [← hl, e]; rfl))
  rw [e2]
  exact good_ok ⟨hl, c1, mv2, h2, ⟨m2.1.trans m1.1, m2.2.trans m1.2⟩, l2, s2, n1⟩

end QDng.Store
