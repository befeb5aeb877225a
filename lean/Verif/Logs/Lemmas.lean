import Verif.Logs.Spec
import Mathlib.Data.List.Basic
import Mathlib.Tactic

/-
Lemmas on the logger.
-/

namespace QDng.Logs

open QDng.Common

theorem lines_flatten (t : Text) : (linesOf t).flatten = t := by
  induction t with
  | nil => rfl
  | cons c r ih =>
    unfold linesOf
    split
    · simp [ih]
    · cases h : linesOf r with
      | nil => rw [h] at ih; simp at ih; simp [← ih]
      | cons l ls => rw [h] at ih; simp at ih ⊢; exact ih

theorem lines_nil {t : Text} (h : linesOf t = []) : t = [] := by
  rw [← lines_flatten t, h]
  rfl

theorem lines_nl (r : Text) : linesOf ('\n' :: r) = ['\n'] :: linesOf r := by
  rw [linesOf, if_pos rfl]

theorem lines_append (a b : Text) : linesOf (a ++ '\n' :: b) = linesOf (a ++ ['\n']) ++ linesOf b := by
  induction a with
  | nil =>
    show linesOf ('\n' :: b) = linesOf ('\n' :: []) ++ linesOf b
    rw [lines_nl, lines_nl]
    simp [linesOf]
  | cons c a ih =>
    show linesOf (c :: (a ++ '\n' :: b)) = linesOf (c :: (a ++ ['\n'])) ++ linesOf b
    rw [linesOf, linesOf, ih]
    split
    · rfl
    · cases h : linesOf (a ++ ['\n']) with
      | nil => have := lines_nil h; simp at this
      | cons l ls => rfl

theorem padded_append {a b : Text} (h : Whole a) (k : Nat) : padded k (a ++ b) = padded k a ++ padded k b := by
  obtain ⟨r, rfl⟩ := h
  unfold padded
  rw [List.append_assoc, List.singleton_append, lines_append, List.flatMap_append]

theorem padded_zero (t : Text) : padded 0 t = t := by
  unfold padded
  simp only [Nat.mul_zero, List.replicate_zero, List.nil_append]
  rw [List.flatMap_id']
  exact lines_flatten t

/-- Padding behind each newline which is not the last character. -/
def go (pad : Text) : Text → Text
  | [] => []
  | c :: r => if c = '\n' ∧ r ≠ [] then c :: (pad ++ go pad r) else c :: go pad r

theorem go_lines (pad : Text) (t : Text) (h : t ≠ []) : (linesOf t).flatMap (fun l => pad ++ l) = pad ++ go pad t := by
  induction t with
  | nil => exact absurd rfl h
  | cons c r ih =>
    by_cases hr : r = []
    · subst hr
      by_cases hc : c = '\n'
      · simp [linesOf, go, hc]
      · simp [linesOf, go, hc]
    · have ih := ih hr
      unfold linesOf go
      by_cases hc : c = '\n'
      · rw [if_pos hc, if_pos ⟨hc, hr⟩, List.flatMap_cons, ih]
        simp
      · rw [if_neg hc, if_neg fun h => hc h.1]
        cases hl : linesOf r with
        | nil => exact absurd (lines_nil hl) hr
        | cons l ls =>
          rw [hl, List.flatMap_cons] at ih
          simp only [List.flatMap_cons]
          have : l ++ List.flatMap (fun l => pad ++ l) ls = go pad r := by
            rw [List.append_assoc] at ih
            exact List.append_cancel_left ih
          rw [← this]
          simp

theorem go_no_nl (pad : Text) (t : Text) (h : '\n' ∉ t) : go pad t = t := by
  induction t with
  | nil => rfl
  | cons c r ih =>
    simp at h
    unfold go
    rw [if_neg fun hc => h.1 hc.1.symm, ih h.2]

theorem go_skip (pad a r : Text) (h : '\n' ∉ a) : go pad (a ++ r) = a ++ go pad r := by
  induction a with
  | nil => rfl
  | cons c a ih =>
    simp at h
    show go pad (c :: (a ++ r)) = _
    rw [go, if_neg fun hc => h.1 hc.1.symm, ih h.2]
    rfl

theorem go_first (pad a r : Text) (h : '\n' ∉ a) : go pad (a ++ '\n' :: r) = a ++ '\n' :: (if r = [] then [] else pad ++ go pad r) := by
  induction a with
  | nil =>
    show go pad ('\n' :: r) = _
    rw [go]
    by_cases hr : r = []
    · subst hr; simp [go]
    · rw [if_pos ⟨rfl, hr⟩, if_neg hr]; rfl
  | cons c a ih =>
    simp at h
    show go pad (c :: (a ++ '\n' :: r)) = _
    rw [go, if_neg fun hc => h.1 hc.1.symm, ih h.2]
    rfl

theorem find_none (d t : Text) (h : '\n' ∉ t) : findFrom (d ++ t) d.length = none := by
  unfold findFrom
  rw [List.drop_left, Option.map_eq_none_iff, List.findIdx?_eq_none_iff]
  intro x hx
  simp
  rintro rfl
  exact h hx

theorem find_first (d a r : Text) (h : '\n' ∉ a) : findFrom (d ++ (a ++ '\n' :: r)) d.length = some (d.length + a.length) := by
  unfold findFrom
  rw [List.drop_left]
  have : (a ++ '\n' :: r).findIdx? (· = '\n') = some a.length := by
    rw [List.findIdx?_append]
    have h1 : a.findIdx? (· = '\n') = none := by
      rw [List.findIdx?_eq_none_iff]
      intro x hx
      simp
      rintro rfl
      exact h hx
    rw [h1]
    simp [List.findIdx?_cons]
  rw [this]
  simp [Nat.add_comm]

/-- A text has no newline or a first one. -/
theorem nl_cases (t : Text) : '\n' ∉ t ∨ ∃ a r, t = a ++ '\n' :: r ∧ '\n' ∉ a := by
  induction t with
  | nil => simp
  | cons c t ih =>
    by_cases hc : c = '\n'
    · exact .inr ⟨[], t, by rw [hc]; rfl, by simp⟩
    · rcases ih with h | ⟨a, r, h, h'⟩
      · exact .inl (by simp [h, Ne.symm hc])
      · exact .inr ⟨c :: a, r, by rw [h]; rfl, by simp [h', Ne.symm hc]⟩

theorem find_skip (d pad r : Text) (h : '\n' ∉ pad) :
    findFrom (d ++ (pad ++ r)) d.length = findFrom (d ++ (pad ++ r)) (d ++ pad).length := by
  rcases nl_cases r with hr | ⟨a, q, rfl, ha⟩
  · rw [find_none d _ (by simp [h, hr]), ← List.append_assoc, find_none _ _ hr]
  · rw [← List.append_assoc pad, find_first d (pad ++ a) q (by simp [h, ha]), List.append_assoc, ← List.append_assoc d,
      find_first (d ++ pad) a q ha]
    simp [Nat.add_assoc]

theorem padLoop_go (pad : Text) (hp : '\n' ∉ pad) (fuel : Nat) (d t : Text) (hf : t.count '\n' ≤ fuel) :
    padLoop pad fuel (d ++ t) (findFrom (d ++ t) d.length) = d ++ go pad t := by
  induction fuel generalizing d t with
  | zero =>
    have : '\n' ∉ t := List.count_eq_zero.1 (by omega)
    rw [go_no_nl pad t this]
    rfl
  | succ fuel ih =>
    rcases nl_cases t with h | ⟨a, r, rfl, h⟩
    · rw [find_none d t h, go_no_nl pad t h]
      rfl
    · rw [find_first d a r h, go_first pad a r h]
      unfold padLoop
      by_cases hr : r = []
      · subst hr
        rw [if_neg (by simp; omega)]
        simp
      · have hl : 0 < r.length := List.length_pos_iff.2 hr
        rw [if_pos (by simp; omega), if_neg hr]
        have e1 : (d ++ (a ++ '\n' :: r)).take (d.length + a.length + 1) = d ++ (a ++ ['\n']) := by
          rw [show d ++ (a ++ '\n' :: r) = (d ++ (a ++ ['\n'])) ++ r by simp]
          exact List.take_left' (by simp; omega)
        have e2 : (d ++ (a ++ '\n' :: r)).drop (d.length + a.length + 1) = r := by
          rw [show d ++ (a ++ '\n' :: r) = (d ++ (a ++ ['\n'])) ++ r by simp]
          exact List.drop_left' (by simp; omega)
        simp only
        rw [e1, e2, if_neg (by simp; omega)]
        have e3 : d.length + a.length + 1 = (d ++ (a ++ ['\n'])).length := by simp; omega
        rw [e3, find_skip _ _ _ hp, ← List.append_assoc]
        have hc : r.count '\n' ≤ fuel := by
          have := List.count_eq_zero.2 h
          simp [List.count_append, this] at hf
          exact hf
        rw [ih _ r hc]
        simp

theorem indent_eq (k : Nat) (t : Text) (h : t ≠ []) : indentStr k t = padded k t := by
  have hp : '\n' ∉ List.replicate (k * 2) ' ' := by simp
  unfold indentStr padded
  have := padLoop_go _ hp ((List.replicate (k * 2) ' ' ++ t).count '\n') [] (List.replicate (k * 2) ' ' ++ t) (le_refl _)
  simp only [List.nil_append, List.length_nil] at this
  simp only
  rw [this, Nat.mul_comm 2 k, go_lines _ t h, go_skip _ _ _ hp]

theorem indent_nil (k : Nat) : indentStr k [] = List.replicate (k * 2) ' ' := by
  have hp : '\n' ∉ List.replicate (k * 2) ' ' := by simp
  unfold indentStr
  have := padLoop_go _ hp ((List.replicate (k * 2) ' ' ++ []).count '\n') [] (List.replicate (k * 2) ' ' ++ []) (le_refl _)
  simp only [List.nil_append, List.length_nil] at this
  simp only
  rw [this, go_skip _ _ _ hp]
  simp [go]

theorem indent_zero (t : Text) : indentStr 0 t = t := by
  by_cases h : t = []
  · subst h
    rfl
  · rw [indent_eq 0 t h, padded_zero]

/-! ### Writing -/

theorem put_content (s : Logger) (t : Text) (p : Place) :
    (s.put t).content p = s.content p ++ (if s.place = some p then t else []) := by
  obtain ⟨c, d, l, su, de, li, ind, dest, o, b, co, ot, fi⟩ := s
  cases dest with
  | console => cases p <;> simp [Logger.put, Logger.content, Logger.place]
  | other k =>
    cases p with
    | other j =>
      by_cases h : j = k
      · subst h; simp [Logger.put, Logger.content, Logger.place]
      · simp [Logger.put, Logger.content, Logger.place, h, Ne.symm h]
    | console => simp [Logger.put, Logger.content, Logger.place]
    | file f => simp [Logger.put, Logger.content, Logger.place]
  | file =>
    cases o with
    | none => cases p <;> simp [Logger.put, Logger.content, Logger.place]
    | some f =>
      cases b with
      | true => cases p <;> simp [Logger.put, Logger.content, Logger.place]
      | false =>
        cases p with
        | file j =>
          by_cases h : j = f
          · subst h; simp [Logger.put, Logger.content, Logger.place]
          · simp [Logger.put, Logger.content, Logger.place, h, Ne.symm h]
        | console => simp [Logger.put, Logger.content, Logger.place]
        | other f => simp [Logger.put, Logger.content, Logger.place]

/-- All but the text which has arrived. -/
theorem put_rest (s : Logger) (t : Text) : ∃ co ot fi, s.put t = { s with console := co, others := ot, files := fi } := by
  unfold Logger.put
  split
  · exact ⟨_, _, _, rfl⟩
  · exact ⟨_, _, _, rfl⟩
  · split
    · exact ⟨_, _, _, rfl⟩
    · exact ⟨_, _, _, rfl⟩

/-- The text `flush` writes. -/
def Logger.pend (s : Logger) : Text :=
  if s.supress then []
  else if s.last = 1 then indentStr s.indent s.cout
  else if s.last = 2 ∧ s.debug = true then indentStr s.indent s.dbg
  else []

theorem flush_rest (s : Logger) : ∃ c d l co ot fi, s.flush = { s with cout := c, dbg := d, last := l, console := co, others := ot, files := fi } ∧
    (s.supress = true → c = [] ∧ d = [] ∧ l = s.last) ∧
    (s.supress = false → l = 0 ∧ c = (if s.last = 1 then [] else s.cout) ∧ d = (if s.last = 2 then [] else s.dbg)) := by
  unfold Logger.flush
  by_cases hs : s.supress = true
  · rw [if_pos hs]
    exact ⟨_, _, _, _, _, _, rfl, fun _ => ⟨rfl, rfl, rfl⟩, fun h => by rw [hs] at h; cases h⟩
  · rw [if_neg hs]
    by_cases h1 : s.last = 1
    · obtain ⟨co, ot, fi, e⟩ := put_rest s (indentStr s.indent s.cout)
      simp only [if_pos h1, e]
      rw [if_neg (by rw [h1]; decide), if_neg (by rw [h1]; decide)]
      exact ⟨_, _, _, _, _, _, rfl, fun h => absurd h hs, fun _ => ⟨rfl, rfl, rfl⟩⟩
    · simp only [if_neg h1]
      by_cases h2 : s.last = 2
      · simp only [if_pos h2]
        by_cases hd : s.debug = true
        · obtain ⟨co, ot, fi, e⟩ := put_rest s (indentStr s.indent s.dbg)
          simp only [if_pos hd, e]
          exact ⟨_, _, _, _, _, _, rfl, fun h => absurd h hs, fun _ => ⟨rfl, rfl, rfl⟩⟩
        · simp only [if_neg hd]
          exact ⟨_, _, _, _, _, _, rfl, fun h => absurd h hs, fun _ => ⟨rfl, rfl, rfl⟩⟩
      · simp only [if_neg h2]
        exact ⟨_, _, _, _, _, _, rfl, fun h => absurd h hs, fun _ => ⟨rfl, rfl, rfl⟩⟩

theorem flush_content (s : Logger) (p : Place) :
    s.flush.content p = s.content p ++ (if s.place = some p then s.pend else []) := by
  unfold Logger.flush Logger.pend
  by_cases hs : s.supress = true
  · rw [if_pos hs, if_pos hs]
    cases p <;> simp [Logger.content]
  · rw [if_neg hs, if_neg hs]
    by_cases h1 : s.last = 1
    · have e := put_content s (indentStr s.indent s.cout) p
      obtain ⟨co, ot, fi, e'⟩ := put_rest s (indentStr s.indent s.cout)
      simp only [if_pos h1]
      rw [e'] at e ⊢
      simp only [h1]
      rw [← e]
      cases p <;> rfl
    · simp only [if_neg h1]
      by_cases h2 : s.last = 2
      · simp only [if_pos h2]
        by_cases hd : s.debug = true
        · have e := put_content s (indentStr s.indent s.dbg) p
          simp only [if_pos hd, h2, hd]
          simp only [and_self, if_true]
          rw [← e]
          cases p <;> rfl
        · simp only [if_neg hd, hd]
          cases p <;> simp [Logger.content]
      · simp only [if_neg h2, h2]
        cases p <;> simp [Logger.content]

end QDng.Logs
