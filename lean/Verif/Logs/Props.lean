import Verif.Logs.Lemmas

/-
C198-C201: the logger.
-/

namespace QDng.Logs

open QDng.Common

/-- What holds between the calls: only the buffer of the stream last asked for holds text. -/
def Ok (s : Logger) : Prop := s.supress = false → (s.last ≠ 1 → s.cout = []) ∧ (s.last ≠ 2 → s.dbg = [])

/-- What the calls keep. -/
def Keep (s s' : Logger) : Prop := s'.debug = s.debug ∧ s'.dest = s.dest ∧ s'.ofile = s.ofile ∧ s'.bad = s.bad ∧ s'.line = s.line

theorem Keep.place {s s' : Logger} (h : Keep s s') : s'.place = s.place := by
  unfold Logger.place
  rw [h.2.1, h.2.2.1, h.2.2.2.1]

theorem Keep.trans {s s' s'' : Logger} (h : Keep s s') (h' : Keep s' s'') : Keep s s'' :=
  ⟨h'.1.trans h.1, h'.2.1.trans h.2.1, h'.2.2.1.trans h.2.2.1, h'.2.2.2.1.trans h.2.2.2.1, h'.2.2.2.2.trans h.2.2.2.2⟩

theorem flush_keep (s : Logger) : Keep s s.flush ∧ s.flush.supress = s.supress ∧ s.flush.indent = s.indent := by
  obtain ⟨c, d, l, co, ot, fi, e, _⟩ := flush_rest s
  rw [e]
  exact ⟨⟨rfl, rfl, rfl, rfl, rfl⟩, rfl, rfl⟩

theorem flush_ok (s : Logger) (h : Ok s) : Ok s.flush ∧ s.flush.pend = [] ∧ (s.flush.cout = [] ∧ s.flush.dbg = []) ∧
    (s.supress = false → s.flush.last = 0) := by
  obtain ⟨c, d, l, co, ot, fi, e, h1, h2⟩ := flush_rest s
  rw [e]
  cases hs : s.supress with
  | true =>
    obtain ⟨a, b, _⟩ := h1 hs
    exact ⟨fun h => absurd h (by simp [hs]), by simp [Logger.pend, hs], ⟨a, b⟩, by simp⟩
  | false =>
    obtain ⟨a, b, c'⟩ := h2 hs
    obtain ⟨k1, k2⟩ := h hs
    have hc : c = [] := by rw [b]; split; rfl; exact k1 ‹_›
    have hd : d = [] := by rw [c']; split; rfl; exact k2 ‹_›
    subst hc hd a
    exact ⟨fun _ => ⟨fun _ => rfl, fun _ => rfl⟩, by simp [Logger.pend], ⟨rfl, rfl⟩, fun _ => rfl⟩

theorem content_congr {s s' : Logger} (p : Place) (h1 : s'.console = s.console) (h2 : s'.others = s.others) (h3 : s'.files = s.files) :
    s'.content p = s.content p := by
  cases p <;> simp [Logger.content, h1, h2, h3]

theorem say_step (s : Logger) (t : Text) (p : Place) (h : Ok s)
    (hj : s.last = 1 → s.supress = false → indentStr s.indent (s.cout ++ t) = indentStr s.indent s.cout ++ indentStr s.indent t) :
    let s' := s.step (.say t)
    Ok s' ∧ Keep s s' ∧ s'.supress = s.supress ∧ s'.indent = s.indent ∧ s'.last = 1 ∧
      (s'.cout = if s.last = 1 then s.cout ++ t else t) ∧
      s'.flush.content p = s.flush.content p ++ (if s.place = some p then (if s.supress then [] else indentStr s.indent t) else []) := by
  intro s'
  by_cases h1 : s.last = 1
  · have e : s' = s.writeCout t := by
      show (Logger.callCout s).writeCout t = _
      unfold Logger.callCout
      rw [if_neg (not_not.2 h1)]
    rw [e, if_pos h1]
    refine ⟨fun hs => ⟨fun hn => absurd h1 hn, fun hn => (h hs).2 hn⟩, ⟨rfl, rfl, rfl, rfl, rfl⟩, rfl, rfl, h1, rfl, ?_⟩
    rw [flush_content, flush_content, content_congr (s := s) p rfl rfl rfl, List.append_assoc]
    congr 1
    show (if s.place = some p then _ else _) = _
    by_cases hp : s.place = some p
    · rw [if_pos hp, if_pos hp, if_pos hp]
      unfold Logger.pend Logger.writeCout
      cases hs : s.supress with
      | true => simp
      | false =>
        simp only [h1, if_true, Bool.false_eq_true, if_false]
        exact hj h1 hs
    · rw [if_neg hp, if_neg hp, if_neg hp]; rfl
  · have e : s' = ({ s.flush with last := 1 } : Logger).writeCout t := by
      show (Logger.callCout s).writeCout t = _
      unfold Logger.callCout
      rw [if_pos h1]
    rw [e, if_neg h1]
    obtain ⟨k, ks, ki⟩ := flush_keep s
    obtain ⟨o, _, ⟨oc, od⟩, ol⟩ := flush_ok s h
    refine ⟨fun hs => ⟨fun hn => absurd rfl hn, fun _ => od⟩, k, ks, ki, rfl, by show s.flush.cout ++ t = t; rw [oc]; rfl, ?_⟩
    rw [flush_content, content_congr (s := s.flush) p rfl rfl rfl]
    congr 1
    show (if s.flush.place = some p then _ else _) = _
    rw [k.place]
    by_cases hp : s.place = some p
    · rw [if_pos hp, if_pos hp]
      unfold Logger.pend Logger.writeCout
      simp only [ks, ki, oc, List.nil_append, if_true]
    · rw [if_neg hp, if_neg hp]

theorem detail_step (s : Logger) (t : Text) (p : Place) (h : Ok s)
    (hj : s.last = 2 → s.supress = false → indentStr s.indent (s.dbg ++ t) = indentStr s.indent s.dbg ++ indentStr s.indent t) :
    let s' := s.step (.detail t)
    Ok s' ∧ Keep s s' ∧ s'.supress = s.supress ∧ s'.indent = s.indent ∧ s'.last = 2 ∧
      (s'.dbg = if s.last = 2 then s.dbg ++ t else t) ∧
      s'.flush.content p = s.flush.content p ++
        (if s.place = some p then (if s.supress || !s.debug then [] else indentStr s.indent t) else []) := by
  intro s'
  by_cases h1 : s.last = 2
  · have e : s' = s.writeDbg t := by
      show (Logger.callDbg s).writeDbg t = _
      unfold Logger.callDbg
      rw [if_neg (not_not.2 h1)]
    rw [e, if_pos h1]
    refine ⟨fun hs => ⟨fun hn => (h hs).1 hn, fun hn => absurd h1 hn⟩, ⟨rfl, rfl, rfl, rfl, rfl⟩, rfl, rfl, h1, rfl, ?_⟩
    rw [flush_content, flush_content, content_congr (s := s) p rfl rfl rfl, List.append_assoc]
    congr 1
    show (if s.place = some p then _ else _) = _
    by_cases hp : s.place = some p
    · rw [if_pos hp, if_pos hp, if_pos hp]
      unfold Logger.pend Logger.writeDbg
      cases hs : s.supress with
      | true => simp
      | false =>
        have h2 : ¬ (2 = 1) := by decide
        cases hd : s.debug with
        | false => simp [h1]
        | true =>
          simp only [h1, h2, if_false, if_true, and_self, Bool.false_eq_true, Bool.not_true, Bool.or_self]
          exact hj h1 hs
    · rw [if_neg hp, if_neg hp, if_neg hp]; rfl
  · have e : s' = ({ s.flush with last := 2 } : Logger).writeDbg t := by
      show (Logger.callDbg s).writeDbg t = _
      unfold Logger.callDbg
      rw [if_pos h1]
    rw [e, if_neg h1]
    obtain ⟨k, ks, ki⟩ := flush_keep s
    obtain ⟨o, _, ⟨oc, od⟩, ol⟩ := flush_ok s h
    refine ⟨fun hs => ⟨fun _ => oc, fun hn => absurd rfl hn⟩, k, ks, ki, rfl, by show s.flush.dbg ++ t = t; rw [od]; rfl, ?_⟩
    rw [flush_content, content_congr (s := s.flush) p rfl rfl rfl]
    congr 1
    show (if s.flush.place = some p then _ else _) = _
    rw [k.place]
    by_cases hp : s.place = some p
    · rw [if_pos hp, if_pos hp]
      unfold Logger.pend Logger.writeDbg
      have h2 : ¬ (2 = 1) := by decide
      simp only [ks, ki, od, k.1, List.nil_append, if_true, h2, if_false]
      cases s.supress <;> cases s.debug <;> simp
    · rw [if_neg hp, if_neg hp]

/-- A call which flushes first and changes neither buffers nor the arrived text afterwards. -/
theorem flush_step (s s' : Logger) (p : Place) (h : Ok s) (h1 : s'.cout = s.flush.cout) (h2 : s'.dbg = s.flush.dbg)
    (h3 : s'.console = s.flush.console) (h4 : s'.others = s.flush.others) (h5 : s'.files = s.flush.files) (hk : Keep s s')
    (hi : s'.indent = 0 ∨ s'.last = 0) :
    Ok s' ∧ s'.flush.content p = s.flush.content p := by
  obtain ⟨o, _, ⟨oc, od⟩, ol⟩ := flush_ok s h
  refine ⟨fun _ => ⟨fun _ => h1.trans oc, fun _ => h2.trans od⟩, ?_⟩
  rw [flush_content, content_congr p h3 h4 h5]
  have : s'.pend = [] := by
    unfold Logger.pend
    rw [h1, oc, h2, od]
    rcases hi with hi | hi
    · rw [hi, indent_zero]; simp
    · rw [hi]; simp
  rw [this]
  simp

theorem run_plain (evs : List Ev) : ∀ (s : Logger) (p : Place), Ok s → s.indent = 0 → (∀ e ∈ evs, e.plain) →
    Ok (s.run evs) ∧ Keep s (s.run evs) ∧
    (s.run evs).flush.content p = s.flush.content p ++ (if s.place = some p then expected s.debug s.supress 0 evs else []) := by
  induction evs with
  | nil => intro s p h _ _; exact ⟨h, ⟨rfl, rfl, rfl, rfl, rfl⟩, by simp [Logger.run, expected]⟩
  | cons e evs ih =>
    intro s p h hi he
    have hr : s.run (e :: evs) = (s.step e).run evs := rfl
    rw [hr]
    have he' : ∀ e ∈ evs, e.plain := fun x hx => he x (by simp [hx])
    cases e with
    | say t =>
      obtain ⟨a1, a2, a3, a4, _, _, a6⟩ := say_step s t p h (by intros; rw [hi, indent_zero, indent_zero, indent_zero])
      obtain ⟨b1, b2, b3⟩ := ih _ p a1 (a4.trans hi) he'
      refine ⟨b1, a2.trans b2, ?_⟩
      rw [b3, a6, a2.place, a2.1, a3, hi, indent_zero, List.append_assoc]
      congr 1
      by_cases hp : s.place = some p
      · simp only [if_pos hp, expected, padded_zero]
      · simp only [if_neg hp]; rfl
    | detail t =>
      obtain ⟨a1, a2, a3, a4, _, _, a6⟩ := detail_step s t p h (by intros; rw [hi, indent_zero, indent_zero, indent_zero])
      obtain ⟨b1, b2, b3⟩ := ih _ p a1 (a4.trans hi) he'
      refine ⟨b1, a2.trans b2, ?_⟩
      rw [b3, a6, a2.place, a2.1, a3, hi, indent_zero, List.append_assoc]
      congr 1
      by_cases hp : s.place = some p
      · simp only [if_pos hp, expected, padded_zero]
      · simp only [if_neg hp]; rfl
    | flush =>
      obtain ⟨k, ks, ki⟩ := flush_keep s
      obtain ⟨a1, a2⟩ := flush_step s s.flush p h rfl rfl rfl rfl rfl k (.inl (ki.trans hi))
      obtain ⟨b1, b2, b3⟩ := ih s.flush p a1 (ki.trans hi) he'
      refine ⟨b1, k.trans b2, ?_⟩
      show (s.flush.run evs).flush.content p = _
      rw [b3, a2, k.place, k.1, ks]
      rfl
    | supress b =>
      obtain ⟨k, ks, ki⟩ := flush_keep s
      obtain ⟨a1, a2⟩ := flush_step s (s.setSupress b) p h rfl rfl rfl rfl rfl k (.inl (ki.trans hi))
      obtain ⟨b1, b2, b3⟩ := ih (s.setSupress b) p a1 (ki.trans hi) he'
      refine ⟨b1, Keep.trans (s' := s.setSupress b) k b2, ?_⟩
      show ((s.setSupress b).run evs).flush.content p = _
      have hp : (s.setSupress b).place = s.place := k.place
      have hd : (s.setSupress b).debug = s.debug := k.1
      rw [b3, a2, hp, hd]
      rfl
    | setIndent n => exact absurd (he (.setIndent n) (by simp)) (by simp [Ev.plain])
    | inc => exact absurd (he .inc (by simp)) (by simp [Ev.plain])
    | dec => exact absurd (he .dec (by simp)) (by simp [Ev.plain])

/-- Only whole lines are pending, and nothing is suppressed. -/
def OkLines (s : Logger) : Prop := Ok s ∧ s.supress = false ∧ (s.last = 1 → Whole s.cout) ∧ (s.last = 2 → Whole s.dbg)

theorem whole_ne {t : Text} (h : Whole t) : t ≠ [] := by
  obtain ⟨r, rfl⟩ := h
  simp

theorem whole_append {a b : Text} (h : Whole b) : Whole (a ++ b) := by
  obtain ⟨r, rfl⟩ := h
  exact ⟨a ++ r, by simp⟩

theorem indent_join {a b : Text} (ha : Whole a) (hb : Whole b) (k : Nat) :
    indentStr k (a ++ b) = indentStr k a ++ indentStr k b := by
  rw [indent_eq k _ (whole_ne (whole_append hb)), indent_eq k _ (whole_ne ha), indent_eq k _ (whole_ne hb), padded_append ha]

theorem idle_step (s s' : Logger) (p : Place) (h : OkLines s) (h1 : s'.cout = s.flush.cout) (h2 : s'.dbg = s.flush.dbg)
    (h3 : s'.console = s.flush.console) (h4 : s'.others = s.flush.others) (h5 : s'.files = s.flush.files) (hk : Keep s s')
    (hl : s'.last = s.flush.last) (hs : s'.supress = s.flush.supress) :
    OkLines s' ∧ s'.flush.content p = s.flush.content p := by
  obtain ⟨o, _, _, ol⟩ := flush_ok s h.1
  have h0 : s'.last = 0 := hl.trans (ol h.2.1)
  obtain ⟨a, b⟩ := flush_step s s' p h.1 h1 h2 h3 h4 h5 hk (.inr h0)
  exact ⟨⟨a, hs.trans ((flush_keep s).2.1.trans h.2.1), by rw [h0]; nofun, by rw [h0]; nofun⟩, b⟩

theorem run_lines (evs : List Ev) : ∀ (s : Logger) (p : Place), OkLines s → (∀ e ∈ evs, e.lines) →
    OkLines (s.run evs) ∧ Keep s (s.run evs) ∧
    (s.run evs).flush.content p = s.flush.content p ++ (if s.place = some p then expected s.debug false s.indent evs else []) := by
  induction evs with
  | nil => intro s p h _; exact ⟨h, ⟨rfl, rfl, rfl, rfl, rfl⟩, by simp [Logger.run, expected]⟩
  | cons e evs ih =>
    intro s p h he
    have hr : s.run (e :: evs) = (s.step e).run evs := rfl
    rw [hr]
    have he' : ∀ e ∈ evs, e.lines := fun x hx => he x (by simp [hx])
    obtain ⟨k, ks, ki⟩ := flush_keep s
    cases e with
    | say t =>
      have ht : Whole t := he (.say t) (by simp)
      obtain ⟨a1, a2, a3, a4, a5, a5', a6⟩ := say_step s t p h.1 fun hl _ => indent_join (h.2.2.1 hl) ht _
      have hw : OkLines (s.step (.say t)) := ⟨a1, a3.trans h.2.1, fun _ => by
        rw [a5']; split; exact whole_append ht; exact ht, by rw [a5]; nofun⟩
      obtain ⟨b1, b2, b3⟩ := ih _ p hw he'
      refine ⟨b1, a2.trans b2, ?_⟩
      rw [b3, a6, a2.place, a2.1, a4, h.2.1, indent_eq _ _ (whole_ne ht), List.append_assoc]
      congr 1
      by_cases hp : s.place = some p
      · simp only [if_pos hp, expected]
      · simp only [if_neg hp]; rfl
    | detail t =>
      have ht : Whole t := he (.detail t) (by simp)
      obtain ⟨a1, a2, a3, a4, a5, a5', a6⟩ := detail_step s t p h.1 fun hl _ => indent_join (h.2.2.2 hl) ht _
      have hw : OkLines (s.step (.detail t)) := ⟨a1, a3.trans h.2.1, by rw [a5]; nofun, fun _ => by
        rw [a5']; split; exact whole_append ht; exact ht⟩
      obtain ⟨b1, b2, b3⟩ := ih _ p hw he'
      refine ⟨b1, a2.trans b2, ?_⟩
      rw [b3, a6, a2.place, a2.1, a4, h.2.1, indent_eq _ _ (whole_ne ht), List.append_assoc]
      congr 1
      by_cases hp : s.place = some p
      · simp only [if_pos hp, expected]
      · simp only [if_neg hp]; rfl
    | flush =>
      obtain ⟨a1, a2⟩ := idle_step s s.flush p h rfl rfl rfl rfl rfl k rfl rfl
      obtain ⟨b1, b2, b3⟩ := ih s.flush p a1 he'
      refine ⟨b1, k.trans b2, ?_⟩
      show (s.flush.run evs).flush.content p = _
      rw [b3, a2, k.place, k.1, ki]
      rfl
    | supress b => exact absurd (he (.supress b) (by simp)) (by simp [Ev.lines])
    | setIndent n =>
      by_cases hn : 0 ≤ n
      · have hst : s.step (.setIndent n) = { s.flush with indent := n.toNat } := if_pos hn
        rw [hst]
        obtain ⟨a1, a2⟩ := idle_step s { s.flush with indent := n.toNat } p h rfl rfl rfl rfl rfl k rfl rfl
        obtain ⟨b1, b2, b3⟩ := ih _ p a1 he'
        refine ⟨b1, Keep.trans (s' := { s.flush with indent := n.toNat }) k b2, ?_⟩
        have hp : ({ s.flush with indent := n.toNat } : Logger).place = s.place := k.place
        rw [b3, a2, hp, expected, if_pos hn]
        show s.flush.content p ++ (if s.place = some p then expected s.flush.debug false n.toNat evs else []) = _
        rw [k.1]
      · have hst : s.step (.setIndent n) = s := if_neg hn
        rw [hst]
        obtain ⟨b1, b2, b3⟩ := ih s p h he'
        refine ⟨b1, b2, ?_⟩
        rw [b3, expected, if_neg hn]
    | inc =>
      have hst : s.step .inc = { s.flush with indent := s.flush.indent + 1 } := rfl
      rw [hst]
      obtain ⟨a1, a2⟩ := idle_step s { s.flush with indent := s.flush.indent + 1 } p h rfl rfl rfl rfl rfl k rfl rfl
      obtain ⟨b1, b2, b3⟩ := ih _ p a1 he'
      refine ⟨b1, Keep.trans (s' := { s.flush with indent := s.flush.indent + 1 }) k b2, ?_⟩
      have hp : ({ s.flush with indent := s.flush.indent + 1 } : Logger).place = s.place := k.place
      rw [b3, a2, hp, expected]
      show s.flush.content p ++ (if s.place = some p then expected s.flush.debug false (s.flush.indent + 1) evs else []) = _
      rw [k.1, ki]
    | dec =>
      by_cases hn : s.indent > 0
      · have hst : s.step .dec = { s.flush with indent := s.flush.indent - 1 } := if_pos hn
        rw [hst]
        obtain ⟨a1, a2⟩ := idle_step s { s.flush with indent := s.flush.indent - 1 } p h rfl rfl rfl rfl rfl k rfl rfl
        obtain ⟨b1, b2, b3⟩ := ih _ p a1 he'
        refine ⟨b1, Keep.trans (s' := { s.flush with indent := s.flush.indent - 1 }) k b2, ?_⟩
        have hp : ({ s.flush with indent := s.flush.indent - 1 } : Logger).place = s.place := k.place
        rw [b3, a2, hp, expected]
        show s.flush.content p ++ (if s.place = some p then expected s.flush.debug false (s.flush.indent - 1) evs else []) = _
        rw [k.1, ki]
      · have hst : s.step .dec = s := if_neg hn
        rw [hst]
        obtain ⟨b1, b2, b3⟩ := ih s p h he'
        refine ⟨b1, b2, ?_⟩
        have : s.indent - 1 = s.indent := by omega
        rw [b3, expected, this]

theorem idle_ok {s : Logger} (h : s.Idle) : OkLines s := by
  obtain ⟨a, b, c, d⟩ := h
  exact ⟨fun _ => ⟨fun _ => b, fun _ => c⟩, d, by rw [a]; nofun, by rw [a]; nofun⟩

theorem idle_flush {s : Logger} (h : s.Idle) (p : Place) : s.flush.content p = s.content p := by
  obtain ⟨a, b, c, d⟩ := h
  rw [flush_content]
  simp [Logger.pend, a]

/-- C198 (partial: for one setting of the details and one destination, without indentation; see the violations). Whatever messages
and details are given, with flushes and suppression in between in any order, after a flush exactly the messages given while not
suppressed, and the details if they are asked for, have arrived: in order, once, at the destination and nowhere else. -/
theorem C198_partial (s : Logger) (evs : List Ev) (p : Place) (h : s.Idle) (hi : s.indent = 0) (he : ∀ e ∈ evs, e.plain) :
    (s.run evs).flush.content p = s.content p ++ (if s.place = some p then expected s.debug false 0 evs else []) := by
  have := (run_plain evs s p (idle_ok h).1 hi he).2.2
  rwa [idle_flush h, h.2.2.2] at this

/-- The hypotheses of `C198_partial` can be met: a new logger; a message over two calls, a detail which is not asked for, and a
suppressed message. -/
example : ((Logger.new ['>'] (fun _ => []) fun _ => []).run [.say ['a'], .flush, .detail ['x'], .say ['b', '\n'], .supress true, .say ['c'],
    .supress false, .say ['d']]).flush.content .console = ['>', 'a', 'b', '\n', 'd'] := by
  rw [C198_partial _ _ _ ⟨rfl, rfl, rfl, rfl⟩ rfl (by simp [Ev.plain])]
  decide

/-- C198 violated: the details are asked for when they are given, but not any more at the flush: they are lost. -/
theorem C198_violated_detail (s : Logger) (t : Text) (p : Place) (h : s.Idle) :
    (((s.setDebug true).step (.detail t)).setDebug false).flush.content p = s.content p := by
  obtain ⟨a, b, c, d⟩ := h
  rw [flush_content]
  have hl : (s.setDebug true).last ≠ 2 := by show s.last ≠ 2; rw [a]; decide
  have e : (s.setDebug true).step (.detail t) = ({ (s.setDebug true).flush with last := 2 } : Logger).writeDbg t := by
    show (Logger.callDbg _).writeDbg t = _
    unfold Logger.callDbg
    rw [if_pos hl]
  have hf : (s.setDebug true).flush.content p = (s.setDebug true).content p := idle_flush (s := s.setDebug true) ⟨a, b, c, d⟩ p
  have h1 : (((s.setDebug true).step (.detail t)).setDebug false).pend = [] := by
    rw [e]
    simp [Logger.pend, Logger.setDebug, Logger.writeDbg]
  rw [h1]
  simp only [ite_self, List.append_nil]
  rw [e]
  have h2 : ((({ (s.setDebug true).flush with last := 2 } : Logger).writeDbg t).setDebug false).content p =
      (s.setDebug true).flush.content p := content_congr p rfl rfl rfl
  rw [h2, hf]
  exact content_congr p rfl rfl rfl

/-- C198 violated: text written to the stream after a flush, through the reference returned before, does not arrive with the next
flush. -/
theorem C198_violated_reference (s : Logger) (t : Text) (p : Place) (h : s.Idle) (hi : s.indent = 0) :
    ((s.callCout.flush).writeCout t).flush.content p = s.content p := by
  obtain ⟨a, b, c, d⟩ := h
  have e : s.callCout = { s.flush with last := 1 } := if_pos (by rw [a]; decide)
  obtain ⟨k, ks, ki⟩ := flush_keep s
  obtain ⟨o, _, ⟨oc, od⟩, ol⟩ := flush_ok s (idle_ok ⟨a, b, c, d⟩).1
  obtain ⟨c', d', l', co, ot, fi, e2, _, h2⟩ := flush_rest s.callCout
  have hs : s.callCout.supress = false := by rw [e]; exact ks.trans d
  obtain ⟨h3, _, _⟩ := h2 hs
  have hp : s.callCout.pend = [] := by
    unfold Logger.pend
    rw [e]
    simp only [oc, ki, hi, indent_zero, if_true]
    split <;> rfl
  rw [flush_content]
  have h5 : (s.callCout.flush.writeCout t).pend = [] := by
    rw [e2]
    simp [Logger.pend, Logger.writeCout, h3]
  rw [h5]
  simp only [ite_self, List.append_nil]
  have h6 : (s.callCout.flush.writeCout t).content p = s.callCout.flush.content p := content_congr p rfl rfl rfl
  rw [h6, flush_content, hp]
  simp only [ite_self, List.append_nil]
  rw [e]
  exact (content_congr (s := s.flush) p rfl rfl rfl).trans (idle_flush ⟨a, b, c, d⟩ p)

/-- C198 violated: a header arrives although all messages are suppressed. -/
theorem C198_violated_header (s : Logger) (title : Text) (h : s.Idle) (hd : s.dest = .console) :
    ((s.setSupress true).header title .subsect).console = s.console ++ (['*', ' '] ++ title ++ ['\n', '\n']) := by
  obtain ⟨a, b, c, d⟩ := h
  obtain ⟨k, _, _⟩ := flush_keep s
  have h1 : (s.setSupress true).flush = { s.setSupress true with cout := [], dbg := [] } := if_pos rfl
  have hf := idle_flush ⟨a, b, c, d⟩ .console
  unfold Logger.header
  rw [h1]
  have hd' : ({ s.setSupress true with cout := [], dbg := [] } : Logger).dest = .console := k.2.1.trans hd
  unfold Logger.put
  rw [hd']
  show s.flush.console ++ _ = _
  have : s.flush.console = s.console := hf
  rw [this]
  rfl

/-- The lines of a text are its text, and only their last characters are newlines. -/
theorem lines_spec (t : Text) : (linesOf t).flatten = t ∧ ∀ l ∈ linesOf t, ∃ a, '\n' ∉ a ∧ (l = a ++ ['\n'] ∨ (l = a ∧ a ≠ [])) := by
  refine ⟨lines_flatten t, ?_⟩
  induction t with
  | nil => simp [linesOf]
  | cons c r ih =>
    intro l hl
    rw [linesOf] at hl
    split at hl
    · rename_i hc
      rcases List.mem_cons.1 hl with rfl | hl
      · exact ⟨[], by simp, .inl (by rw [hc]; rfl)⟩
      · exact ih l hl
    · rename_i hc
      cases hr : linesOf r with
      | nil =>
        rw [hr] at hl
        simp at hl
        exact ⟨[c], by simp [Ne.symm hc], .inr ⟨hl, by simp⟩⟩
      | cons l' ls =>
        rw [hr] at hl ih
        simp only [List.mem_cons] at hl
        rcases hl with rfl | hl
        · obtain ⟨a, h1, h2⟩ := ih l' (by simp)
          refine ⟨c :: a, by simp [h1, Ne.symm hc], ?_⟩
          rcases h2 with rfl | ⟨rfl, _⟩
          · exact .inl rfl
          · exact .inr ⟨rfl, by simp⟩
        · exact ih l (by simp [hl])

/-- C199 (partial: messages of whole lines without suppression; see the violations). Messages and details of whole lines arrive in
order with each line behind two spaces for each indent set at the time of the message, wherever flushes are made, and nothing else
arrives. -/
theorem C199_partial (s : Logger) (evs : List Ev) (p : Place) (h : s.Idle) (he : ∀ e ∈ evs, e.lines) :
    (s.run evs).flush.content p = s.content p ++ (if s.place = some p then expected s.debug false s.indent evs else []) := by
  have := (run_lines evs s p (idle_ok h) he).2.2
  rwa [idle_flush h] at this

/-- The hypotheses of `C199_partial` can be met: two lines at different indents. -/
example : ((Logger.new [] (fun _ => []) fun _ => []).run [.say ['a', '\n'], .inc, .say ['b', '\n', '\n', 'c', '\n']]).flush.content .console =
    ['a', '\n', ' ', ' ', 'b', '\n', ' ', ' ', '\n', ' ', ' ', 'c', '\n'] := by
  rw [C199_partial _ _ _ ⟨rfl, rfl, rfl, rfl⟩ (by
    simp only [List.mem_cons, List.not_mem_nil, or_false, forall_eq_or_imp, forall_eq]
    exact ⟨⟨['a'], rfl⟩, trivial, ⟨['b', '\n', '\n', 'c'], rfl⟩⟩)]
  decide

/-- C199 violated: a flush in the middle of a line puts the indentation there. -/
theorem C199_violated_midline : ((Logger.new [] (fun _ => []) fun _ => []).run [.inc, .say ['a'], .flush, .say ['b', '\n']]).flush.content .console =
    [' ', ' ', 'a', ' ', ' ', 'b', '\n'] := by decide

/-- C199 violated: after a suppressed message a flush writes spaces although there is no message. -/
theorem C199_violated_spaces : ((Logger.new [] (fun _ => []) fun _ => []).run [.inc, .supress true, .say ['a'], .supress false]).flush.content .console =
    [' ', ' '] := by decide

/-- C200 (partial: titles which fit). A header arrives behind all earlier messages; for a title which fits (with four characters
to spare for sections, which have the title between stars, and two for subsections) it consists of lines not longer than the line
length, one of which is the title between blanks and stars. -/
theorem C200_partial (s : Logger) (title : Text) (k : Kind) (p : Place) (hL : 0 ≤ s.line)
    (ht : match k with
      | .chapter => (title.length : Int) ≤ s.line
      | .sect => (title.length : Int) + 4 ≤ s.line
      | .subsect => (title.length : Int) + 2 ≤ s.line)
    (hmax : s.line < 2 ^ 31) :
    ∃ ls : List Text, (s.header title k).content p =
        s.flush.content p ++ (if s.place = some p then ls.flatMap (fun l => l ++ ['\n']) else []) ∧
      (∀ l ∈ ls, (l.length : Int) ≤ s.line) ∧
      ∃ l ∈ ls, ∃ a b, l = a ++ title ++ b ∧ ∀ c ∈ a ++ b, c = ' ' ∨ c = '*' := by
  obtain ⟨hk, _, _⟩ := flush_keep s
  have hline : s.flush.line = s.line := hk.2.2.2.2
  have key : ∀ ls : List Text, headerText s.line title k = ls.flatMap (fun l => l ++ ['\n']) →
      (s.header title k).content p = s.flush.content p ++ (if s.place = some p then ls.flatMap (fun l => l ++ ['\n']) else []) := by
    intro ls e
    unfold Logger.header
    rw [put_content, hline, hk.place, e]
  cases k with
  | chapter =>
    have ht' : (title.length : Int) ≤ s.line := ht
    have hw : (wrap (s.line - title.length) / 2 : Nat) = ((s.line - title.length) / 2).toNat := by
      unfold wrap
      rw [Int.emod_eq_of_lt (by omega) (by omega)]
      omega
    refine ⟨[[], [], List.replicate s.line.toNat '*', List.replicate (wrap (s.line - title.length) / 2) ' ' ++ title,
      List.replicate s.line.toNat '*', []], key _ (by simp [headerText]), ?_, ?_⟩
    · intro l hl
      simp only [List.mem_cons, List.not_mem_nil, or_false] at hl
      rcases hl with rfl | rfl | rfl | rfl | rfl | rfl <;> simp <;> omega
    · exact ⟨_, by simp; exact .inr (.inr (.inl rfl)), List.replicate (wrap (s.line - title.length) / 2) ' ', [], by simp, by
        intro c hc
        simp at hc
        exact .inl hc.2⟩
  | sect =>
    have ht' : (title.length : Int) + 4 ≤ s.line := ht
    have hw : (wrap (s.line - title.length) / 2 : Nat) = ((s.line - title.length) / 2).toNat := by
      unfold wrap
      rw [Int.emod_eq_of_lt (by omega) (by omega)]
      omega
    have hw2 : wrap ((wrap (s.line - title.length) / 2 : Nat) - 2) = ((s.line - title.length) / 2 - 2).toNat := by
      rw [hw]
      unfold wrap
      rw [Int.emod_eq_of_lt (by omega) (by omega)]
      omega
    refine ⟨[[], '*' :: (List.replicate (wrap ((wrap (s.line - title.length) / 2 : Nat) - 2)) '*' ++ ' ' :: (title ++ ' ' ::
      List.replicate (wrap ((wrap (s.line - title.length) / 2 : Nat) - 2)) '*')), []], key _ (by simp [headerText]), ?_, ?_⟩
    · intro l hl
      simp only [List.mem_cons, List.not_mem_nil, or_false] at hl
      rcases hl with rfl | rfl | rfl
      · simp; omega
      · rw [hw2]; simp; omega
      · simp; omega
    · refine ⟨_, List.mem_cons_of_mem _ List.mem_cons_self, '*' :: (List.replicate (wrap ((wrap (s.line - title.length) / 2 : Nat) - 2)) '*' ++ [' ']),
        ' ' :: List.replicate (wrap ((wrap (s.line - title.length) / 2 : Nat) - 2)) '*', by simp, ?_⟩
      intro c hc
      simp only [List.mem_append, List.mem_cons, List.mem_replicate, List.not_mem_nil, or_false] at hc
      tauto
  | subsect =>
    have ht' : (title.length : Int) + 2 ≤ s.line := ht
    refine ⟨['*' :: ' ' :: title, []], key _ (by simp [headerText]), ?_, ?_⟩
    · intro l hl
      simp only [List.mem_cons, List.not_mem_nil, or_false] at hl
      rcases hl with rfl | rfl <;> simp <;> omega
    · exact ⟨_, by simp; exact .inl rfl, ['*', ' '], [], by simp, by simp⟩

/-- C200 (with `C200_partial`). The title of a chapter is centred: with the blanks in front of it counted twice it fills the line up
to one character. -/
theorem C200_centred (line : Int) (title : Text) (h : (title.length : Int) ≤ line) (hmax : line < 2 ^ 31) :
    ∃ n : Nat, headerText line title .chapter = ['\n', '\n'] ++ List.replicate line.toNat '*' ++ ['\n'] ++
        List.replicate n ' ' ++ title ++ ['\n'] ++ List.replicate line.toNat '*' ++ ['\n', '\n'] ∧
      (2 * n + title.length : Int) ≤ line ∧ line ≤ 2 * n + title.length + 1 := by
  refine ⟨wrap (line - title.length) / 2, rfl, ?_⟩
  unfold wrap
  rw [Int.emod_eq_of_lt (by omega) (by omega)]
  omega

/-- The hypotheses of `C200_partial` can be met. -/
example (s : Logger) (p : Place) (h : s.line = 80) := C200_partial s ['E', 'i', 'g', 'e', 'n'] .sect p (by omega)
  (by show ((5 : Nat) : Int) + 4 ≤ s.line; omega) (by omega)

/-- C200 violated: the fill of a title longer than the line is counted in unsigned numbers: more than 2^62 characters. -/
theorem C200_violated_long (line : Int) (title : Text) (h0 : 0 ≤ line) (h1 : line < title.length) (h2 : (title.length : Int) < 2 ^ 62) :
    2 ^ 62 ≤ (headerText line title .chapter).length := by
  have : 2 ^ 62 ≤ wrap (line - title.length) / 2 := by
    unfold wrap
    have : (line - title.length) % (2 ^ 64 : Int) = line - title.length + 2 ^ 64 := by
      rw [← Int.add_emod_right]
      exact Int.emod_eq_of_lt (by omega) (by omega)
    rw [this]
    omega
  simp only [headerText, List.length_append, List.length_replicate]
  omega

/-- C200 violated: a section needs four characters more than its title; with a title of 77 characters on the default line length
of 80 it has more than 2^63 characters. -/
theorem C200_violated_section (title : Text) (h : title.length = 77) : 2 ^ 63 ≤ (headerText 80 title .sect).length := by
  have : wrap ((wrap (80 - (title.length : Int)) / 2 : Nat) - 2) = 2 ^ 64 - 1 := by
    rw [h]
    decide
  simp only [headerText, List.length_append, List.length_replicate, this]
  omega

/-- C201 (partial: nothing pending when the output is redirected, and no other file open; see the violations). The messages given
between a successful redirection to a file and its end are in this file, alone, whatever it held before; no other place gets any
of them, and later messages arrive on the console again. -/
theorem C201_partial (s : Logger) (f : Nat) (evs later : List Ev) (p : Place) (h : s.Idle) (ho : s.ofile = none)
    (he : ∀ e ∈ evs, e.lines) (hl : ∀ e ∈ later, e.lines) :
    ∃ s1, s.fileOutput f true = .ok s1 ∧
      (((s1.run evs).fileClose).run later).flush.content p =
        (if p = .file f then expected s.debug false s.indent evs
         else if p = .console then s.console ++ expected s.debug false ((s1.run evs).indent) later
         else s.content p) := by
  refine ⟨_, if_pos ⟨ho, rfl⟩, ?_⟩
  set s1 : Logger := { s with ofile := some f, bad := false, files := (fun j => if j = f then [] else s.files j), dest := .file } with hs1
  have h1 : s1.Idle := h
  obtain ⟨a1, a2, a3⟩ := run_lines evs s1 p (idle_ok h1) he
  rw [idle_flush h1] at a3
  have hplace : s1.place = some (.file f) := rfl
  obtain ⟨b1, b2, b3, b4⟩ := flush_ok (s1.run evs) a1.1
  obtain ⟨k, ks, ki⟩ := flush_keep (s1.run evs)
  have hidle : (s1.run evs).fileClose.Idle := ⟨b4 a1.2.1, b3.1, b3.2, ks.trans a1.2.1⟩
  have hc : (s1.run evs).fileClose.content p = (s1.run evs).flush.content p := content_congr p rfl rfl rfl
  have hp : (s1.run evs).fileClose.place = some .console := rfl
  have hd : (s1.run evs).fileClose.debug = s.debug := k.1.trans a2.1
  have hi : (s1.run evs).fileClose.indent = (s1.run evs).indent := ki
  rw [(run_lines later _ p (idle_ok hidle) hl).2.2, idle_flush hidle, hc, a3, hplace, hp, hd, hi]
  show s1.content p ++ (if some (Place.file f) = some p then expected s.debug false s.indent evs else []) ++ _ = _
  cases p with
  | console => simp [Logger.content, hs1]
  | other j => simp [Logger.content, hs1]
  | file j =>
    by_cases hj : j = f
    · subst hj; simp [Logger.content, hs1]
    · simp [Logger.content, hs1, hj, Ne.symm hj]

/-- The hypotheses of `C201_partial` can be met. -/
example := C201_partial (Logger.new [] (fun _ => []) fun _ => ['o']) 7 [.say ['a', '\n']] [.say ['b', '\n']] (.file 7) ⟨rfl, rfl, rfl, rfl⟩ rfl
  (by simp only [List.mem_cons, List.not_mem_nil, or_false, forall_eq]; exact ⟨['a'], rfl⟩)
  (by simp only [List.mem_cons, List.not_mem_nil, or_false, forall_eq]; exact ⟨['b'], rfl⟩)

/-- C201 violated: a message given before a redirection arrives at the new destination. -/
theorem C201_violated_pending (t : Text) (k : Nat) (s : Logger) (h : s.Idle) (hi : s.indent = 0) :
    ((s.step (.say t)).setRedirect k).flush.content .console = s.console ∧
    ((s.step (.say t)).setRedirect k).flush.content (.other k) = s.others k ++ t := by
  obtain ⟨a, b, c, d⟩ := h
  have e : s.step (.say t) = ({ s.flush with last := 1 } : Logger).writeCout t := by
    show (Logger.callCout _).writeCout t = _
    unfold Logger.callCout
    rw [if_pos (by rw [a]; decide)]
  obtain ⟨k1, ks, ki⟩ := flush_keep s
  obtain ⟨o, _, ⟨oc, od⟩, ol⟩ := flush_ok s (idle_ok ⟨a, b, c, d⟩).1
  have hp : ((s.step (.say t)).setRedirect k).pend = t := by
    rw [e]
    unfold Logger.pend
    simp only [Logger.setRedirect, Logger.writeCout, ks, d, ki, hi, oc, indent_zero, Bool.false_eq_true, if_false, if_true, List.nil_append]
  have hpl : ((s.step (.say t)).setRedirect k).place = some (.other k) := rfl
  have hco : ∀ p, ((s.step (.say t)).setRedirect k).content p = s.content p := fun p => by
    rw [e]
    exact (content_congr (s := s.flush) p rfl rfl rfl).trans (idle_flush ⟨a, b, c, d⟩ p)
  rw [flush_content, flush_content, hp, hpl, hco, hco]
  simp [Logger.content]

/-- C201 violated: asking for another file while one is open fails, and all later messages are lost although the first file is
still open. -/
theorem C201_violated_second (s : Logger) (f g : Nat) (evs : List Ev) (p : Place) (h : s.Idle) (hf : s.ofile = some f) (hd : s.dest = .file)
    (he : ∀ e ∈ evs, e.lines) :
    ∃ s1, s.fileOutput g true = .threw s1 ∧ (s1.run evs).flush.content p = s.content p := by
  refine ⟨{ s with bad := true }, if_neg (by rw [hf]; simp), ?_⟩
  have h1 : ({ s with bad := true } : Logger).Idle := h
  rw [C199_partial _ evs p h1 he]
  have : ({ s with bad := true } : Logger).place = none := by
    unfold Logger.place
    simp only [hd, hf]
  rw [this]
  simp
  exact content_congr p rfl rfl rfl

end QDng.Logs
