import Verif.Cmd.Spec

/-
Helper lemmas.
-/

namespace QDng.Cmd

open Spec

theorem answered_sound : ∀ (b : Bool) (t : List Act), answered b t = true → Answered b t := by
  intro b t
  fun_induction answered b t with
  | case1 b => intro h; cases b <;> simp_all [Answered.done]
  | case2 r t ih =>
    intro h
    simp only [Bool.and_eq_true] at h
    exact .withData r t h.1 (ih h.2)
  | case3 r s t ih =>
    intro h
    simp only [Bool.and_eq_true] at h
    exact .withError r s t h.1.1 h.1.2 (ih h.2)
  | case4 b r t _ _ hr ih =>
    intro h
    simp only [Bool.and_eq_true, Bool.not_eq_true'] at h
    obtain ⟨rfl, h⟩ := h
    exact .later r t hr (ih h)
  | case5 b r t _ _ hr ih =>
    intro h
    exact .one b r t (by simpa using hr) (ih h)
  | case6 t ih => intro h; exact .data t (ih h)
  | case7 => intro h; simp at h

theorem starts (b : Bool) (t : List Act) (h : Answered b t) : t = [] ∨ ∃ t', t = .recv :: t' := by
  cases h <;> simp

theorem answered_complete : ∀ (b : Bool) (t : List Act), Answered b t → answered b t = true := by
  intro b t h
  induction h with
  | done => rfl
  | one b r t hr ht ih =>
    rcases starts _ _ ht with rfl | ⟨t', rfl⟩
    · cases b <;> simp [answered, hr]
    · cases b <;> simp [answered, hr, ih]
  | withData r t hr _ ih => simp [answered, hr, ih]
  | withError r s t hr hs _ ih => simp [answered, hr, hs, ih]
  | later r t hr ht ih =>
    rcases starts _ _ ht with rfl | ⟨t', rfl⟩
    · simp [answered] at ih
    · simp [answered, hr, ih]
  | data t _ ih => simp [answered, ih]

theorem answered_iff (b : Bool) (t : List Act) : Answered b t ↔ answered b t = true :=
  ⟨answered_complete b t, answered_sound b t⟩

theorem Spec.Answered.append {b : Bool} {t u : List Act} (h : Answered b t) (g : Answered false u) : Answered b (t ++ u) := by
  induction h with
  | done => exact g
  | one b r t hr _ ih => exact .one b r _ hr ih
  | withData r t hr _ ih => exact .withData r _ hr ih
  | withError r s t hr hs _ ih => exact .withError r s _ hr hs ih
  | later r t hr _ ih => exact .later r _ hr ih
  | data t _ ih => exact .data _ ih

/-- A trace and its end are as they should be. -/
def good (r : List Act × End) : Bool := answered false (.recv :: r.1) && r.2 != .ub

theorem good_iff (r : List Act × End) : good r = true ↔ Answered false (.recv :: r.1) ∧ r.2 ≠ .ub := by
  unfold good
  rw [answered_iff]
  simp

theorem fine_runProg (c : Cmd) (b : Beh) : good (runProg c b) = true := by
  unfold runProg; split_ifs <;> rfl

theorem fine_readWf (c : Cmd) (b : Beh) : good (readWf c b) = true ↔ (c.s1 = true → b.loads = true) := by
  obtain ⟨k, x, s1, s2, sl, se, d1, d2⟩ := c
  unfold readWf; dsimp only
  cases s1 <;> cases hl : b.loads <;> cases b.puts <;> simp <;> rfl

theorem fine_writeWf (c : Cmd) (b : Beh) : good (writeWf c b) = true := by
  unfold writeWf; split_ifs <;> rfl

theorem fine_readOp (c : Cmd) (b : Beh) : good (readOp c b) = true ↔
    (c.s1 = true → c.s2 = true → b.module = true ∧ ¬ (b.reads = true ∧ b.puts = true)) := by
  unfold readOp
  cases c.s1 <;> cases c.s2 <;> cases b.module <;> cases b.reads <;> cases b.puts <;> decide

theorem fine_writeOp (c : Cmd) (b : Beh) : good (writeOp c b) = true ↔
    (c.s1 = true → c.s2 = true → c.s2Laser = true ∨ (c.s2Empty = false ∧ b.module = true)) := by
  unfold writeOp
  cases c.s1 <;> cases c.s2 <;> cases c.s2Laser <;> cases c.s2Empty <;> cases b.module <;> cases b.decodes <;> cases b.stores <;> decide

theorem fine_setGlobalParams (c : Cmd) (b : Beh) : good (setGlobalParams c b) = true ↔ (c.s1 = true ↔ b.parses = true) := by
  unfold setGlobalParams
  cases c.s1 <;> cases b.parses <;> decide

theorem fine_loadOp (c : Cmd) (b : Beh) : good (loadOp c b) = true ↔ (c.xml = true ∧ b.opLoads = true) := by
  unfold loadOp getOp
  cases c.xml <;> cases c.s1 <;> cases b.opLoads <;> decide

theorem fine_loadU (c : Cmd) (b : Beh) : good (loadU c b) = true ↔ (c.xml = true ∧ c.d1.isSome = true ∧ c.d2 = true) := by
  unfold loadU
  cases c.xml <;> cases c.d1 <;> cases c.d2 <;> cases b.uLoads <;> simp <;> rfl

theorem fine_getMatel (c : Cmd) (b : Beh) : good (getMatel c b) = false := by
  unfold getMatel getOp
  cases c.xml <;> cases c.s1 <;> cases b.opLoads <;> cases b.decodes <;> cases b.decodes2 <;> cases b.valid <;> cases b.inits <;>
    cases b.valid' <;> cases b.acts <;> rfl

theorem fine_getExpec (c : Cmd) (b : Beh) : good (getExpec c b) = true ↔ (hasOp c b = true ∧ b.decodes = true ∧
    (if b.valid = false ∧ b.inits = false then b.acts = false else (b.valid = false ∧ b.valid' = false) ∨ b.acts = true)) := by
  unfold getExpec getOp hasOp
  cases c.xml <;> cases c.s1 <;> cases b.opLoads <;> cases b.decodes <;> cases b.valid <;> cases b.inits <;>
    cases b.valid' <;> cases b.acts <;> decide

theorem fine_applyRest (b : Beh) : good (applyRest b) = true ↔ b.decodes = true := by
  unfold applyRest
  cases b.decodes <;> cases b.valid <;> cases b.inits <;> cases b.valid' <;> cases b.acts <;> cases b.puts <;> decide

theorem fine_applyOp (c : Cmd) (b : Beh) : good (applyOp c b) = true ↔ (hasOp c b = true ∧ (refused c b ∨ b.decodes = true)) := by
  by_cases hop : hasOp c b = true
  · have h : getOp c b = ([], true) := by
      unfold hasOp at hop
      unfold getOp
      simp only [Bool.and_eq_true, Bool.or_eq_true] at hop
      rw [if_pos hop.1, if_pos hop.2]
    unfold applyOp refused
    rw [h]
    dsimp only
    rw [if_neg (by simp)]
    cases hd : c.d1 with
    | none =>
      have h2 := fine_applyRest b
      simp only [List.nil_append, hop, true_and, false_or]
      exact h2
    | some t =>
      cases hc : b.clock with
      | none => simp [hop]; rfl
      | some n =>
        dsimp only
        by_cases ht : t < 0 ∨ t > n
        · rw [if_pos ht]
          have : t < 0 ∨ n < t := ht
          simp [hop, this]
          rfl
        · rw [if_neg ht]
          have : ¬ (t < 0 ∨ n < t) := ht
          have h2 := fine_applyRest b
          simp only [List.nil_append, hop, true_and, this, false_or]
          exact h2
  · have h : getOp c b = ([err], false) := by
      unfold hasOp at hop
      unfold getOp
      simp only [Bool.and_eq_true, Bool.or_eq_true] at hop
      by_cases h1 : c.xml = true ∨ c.s1 = true
      · rw [if_pos h1, if_neg (fun h2 => hop ⟨h1, h2⟩)]
      · rw [if_neg h1]
    unfold applyOp
    rw [h]
    dsimp only
    rw [if_pos (by simp)]
    constructor
    · intro hg
      exfalso
      revert hg
      cases c.d1 <;> cases b.decodes <;> simp [good, answered, err, ok]
    · intro hg
      exact absurd hg.1 hop

theorem good_handle (c : Cmd) (b : Beh) : good (handle c b) = true ↔ Fine c b := by
  unfold handle Fine
  cases c.kind with
  | runProg => simp [fine_runProg]
  | readWf => exact fine_readWf c b
  | writeWf => simp [fine_writeWf]
  | getGlobalParams => simp; rfl
  | setGlobalParams => exact fine_setGlobalParams c b
  | clearObjects => simp; rfl
  | loadOp => exact fine_loadOp c b
  | loadU => exact fine_loadU c b
  | readOp => exact fine_readOp c b
  | writeOp => exact fine_writeOp c b
  | quit => simp; rfl
  | deleteOp => simp; rfl
  | getExpec => exact fine_getExpec c b
  | getMatel => simp [fine_getMatel]
  | applyOp => exact fine_applyOp c b

end QDng.Cmd
