import Verif.Cmd.Lemmas

/-
C43: every message in interactive mode is answered exactly once.
-/

namespace QDng.Cmd

open Spec

/-- **C43**, one command: exactly the commands of the table `Fine` are answered once per message and handled without undefined
behaviour.

Missing from the full property: the other commands (see the `C43_violated…` theorems). -/
theorem C43_command_partial (c : Cmd) (b : Beh) :
    (Answered false (.recv :: (handle c b).1) ∧ (handle c b).2 ≠ .ub) ↔ Fine c b := by
  rw [← good_iff, good_handle]

/-- A command that is fine: saving a wave function. -/
example : Fine ⟨.writeWf, false, true, false, false, false, none, false⟩
    ⟨true, true, true, true, true, true, true, true, true, true, true, none, true, true, true, true⟩ := trivial

/-- Applying an operator with a clock of ten steps at time three. -/
example : Fine ⟨.applyOp, false, true, false, false, false, some 3, false⟩
    ⟨true, true, true, true, true, true, true, true, true, true, true, some 10, true, true, true, true⟩ := ⟨rfl, Or.inr rfl⟩

/-- **C43**, sessions: as long as the commands are of that kind, every message up to the final `QUIT` is answered once. -/
theorem C43_session_partial (cs : List (Cmd × Beh)) (q : Cmd) (bq : Beh) (hq : q.kind = .quit)
    (h : ∀ x ∈ cs, Fine x.1 x.2) : ∃ t, Answered false t ∧
      (run (cs ++ [(q, bq)]) = (t ++ [.recv], .next) ∨ run (cs ++ [(q, bq)]) = (t, .threw)) := by
  induction cs with
  | nil =>
    refine ⟨[], .done, Or.inl ?_⟩
    show run [(q, bq)] = _
    unfold run handle
    rw [hq]
    rfl
  | cons x cs ih =>
    obtain ⟨c, b⟩ := x
    obtain ⟨t, ht, hrun⟩ := ih (fun y hy => h y (by simp [hy]))
    have hf := h (c, b) (by simp)
    obtain ⟨ha, hub⟩ := (C43_command_partial c b).mpr hf
    have hk : c.kind ≠ .quit := by
      intro hk
      unfold Fine at hf
      dsimp only at hf
      rw [hk] at hf
      exact hf
    show ∃ t, Answered false t ∧ (run ((c, b) :: (cs ++ [(q, bq)])) = _ ∨ run ((c, b) :: (cs ++ [(q, bq)])) = _)
    unfold run
    cases he : handle c b with
    | mk u e =>
      rw [he] at ha hub
      dsimp only at ha hub ⊢
      cases e with
      | ub => exact absurd rfl hub
      | threw => exact ⟨_, ha, Or.inr rfl⟩
      | next =>
        refine ⟨.recv :: u ++ t, ha.append ht, ?_⟩
        dsimp only
        rw [if_neg hk]
        rcases hrun with hrun | hrun
        · left; rw [hrun]; simp
        · right; rw [hrun]

/-- The session theorem is about sessions such as: clear, load an operator, save a wave function, quit. -/
example (b : Beh) (h : b.opLoads = true) : ∀ x ∈ ([(⟨.clearObjects, false, false, false, false, false, none, false⟩, b),
    (⟨.loadOp, true, false, false, false, false, none, false⟩, b), (⟨.writeWf, false, true, false, false, false, none, false⟩, b)] :
      List (Cmd × Beh)), Fine x.1 x.2 := by
  intro x hx
  simp only [List.mem_cons, List.not_mem_nil, or_false] at hx
  rcases hx with rfl | rfl | rfl
  · trivial
  · exact ⟨rfl, h⟩
  · trivial

/-- **C43**, form of the responses: all commands except three answer with responses in which all required fields are set. -/
theorem C43_wellFormed_partial (c : Cmd) (b : Beh) (h : c.kind ≠ .getGlobalParams ∧ c.kind ≠ .getExpec ∧ c.kind ≠ .getMatel) (r : Resp)
    (hr : Act.send r ∈ (handle c b).1) : WellFormed r := by
  have hok : ∀ d, Act.send r = ok d → WellFormed r := by
    intro d h
    injection h with h
    subst h
    exact ⟨rfl, rfl⟩
  have herr : Act.send r = err → WellFormed r := by
    intro h
    injection h with h
    subst h
    exact ⟨rfl, rfl⟩
  have key : ∀ l : List Act, Act.send r ∈ l → (∀ a ∈ l, a = err ∨ a = ok true ∨ a = ok false ∨ a = .recv ∨ a = .data) → WellFormed r := by
    intro l hl hall
    rcases hall _ hl with h | h | h | h | h
    · exact herr h
    · exact hok _ h
    · exact hok _ h
    · cases h
    · cases h
  refine key _ hr ?_
  clear hr key hok herr
  have hget : ∀ a ∈ (getOp c b).1, a = err := by
    unfold getOp
    split_ifs <;> simp
  have hrest : ∀ a ∈ (applyRest b).1, a = err ∨ a = ok true ∨ a = ok false ∨ a = .recv ∨ a = .data := by
    unfold applyRest
    split_ifs <;> simp
  unfold handle
  cases hk : c.kind with
  | runProg => unfold runProg; dsimp only; split_ifs <;> simp
  | readWf => unfold readWf; dsimp only; split_ifs <;> simp
  | writeWf => unfold writeWf; dsimp only; split_ifs <;> simp
  | getGlobalParams => exact absurd hk h.1
  | setGlobalParams => unfold setGlobalParams; dsimp only; split_ifs <;> simp
  | clearObjects => simp [clearObjects]
  | loadOp =>
    unfold loadOp
    dsimp only
    intro a ha
    simp only [List.mem_append, List.mem_singleton] at ha
    rcases ha with (ha | ha) | ha
    · split_ifs at ha <;> simp_all
    · exact Or.inl (hget a ha)
    · exact Or.inr (Or.inr (Or.inl ha))
  | loadU => unfold loadU; dsimp only; split_ifs <;> simp
  | readOp => unfold readOp; dsimp only; split_ifs <;> simp
  | writeOp => unfold writeOp; dsimp only; split_ifs <;> simp
  | quit => simp
  | deleteOp => simp
  | getExpec => exact absurd hk h.2.1
  | getMatel => exact absurd hk h.2.2
  | applyOp =>
    unfold applyOp
    dsimp only
    have happ : ∀ l : List Act, (∀ a ∈ l, a = err ∨ a = ok true ∨ a = ok false ∨ a = .recv ∨ a = .data) →
        ∀ a ∈ (getOp c b).1 ++ l, a = err ∨ a = ok true ∨ a = ok false ∨ a = .recv ∨ a = .data := by
      intro l hl a ha
      rcases List.mem_append.mp ha with ha | ha
      · exact Or.inl (hget a ha)
      · exact hl a ha
    split
    · split
      · have := happ [] (by simp)
        rwa [List.append_nil] at this
      · split
        · exact happ _ (by simp)
        · exact happ _ (by simp)
    · split
      · exact happ _ hrest
      · split
        · exact happ _ (by simp)
        · split
          · exact happ _ (by simp)
          · exact happ _ hrest

/-- An example: the response to a failed `RUN_PROG`. -/
example (b : Beh) (h : b.runs = false) : Act.send ⟨some true, some false, true, 0⟩ ∈
    (handle ⟨.runProg, true, false, false, false, false, none, false⟩ b).1 := by
  simp [handle, runProg, h, err]

/-! ### Violations -/

/-- Everything succeeds; clock with ten steps. -/
def allWell : Beh := ⟨true, true, true, true, true, true, true, true, true, true, true, some 10, true, true, true, true⟩

/-- **C43 violated**: a `LOAD_OP` that fails is answered twice, with an error and with success. -/
theorem C43_violated_load_op : handle ⟨.loadOp, true, false, false, false, false, none, false⟩ { allWell with opLoads := false } =
    ([err, ok false], .next) := rfl

/-- **C43 violated**: a `LOAD_U` without arguments is answered four times. -/
theorem C43_violated_load_U (b : Beh) : ∃ e, handle ⟨.loadU, false, false, false, false, false, none, false⟩ b =
    ([err, err, err, if b.uLoads then ok false else err], e) := by
  cases hb : b.uLoads
  · exact ⟨.threw, by simp [handle, loadU, hb]⟩
  · exact ⟨.next, by simp [handle, loadU, hb]⟩

/-- **C43 violated**: `SET_GLOBAL_PARAMS` without parameters is answered twice. -/
theorem C43_violated_set_params : handle ⟨.setGlobalParams, false, false, false, false, false, none, false⟩ allWell =
    ([err, ok false], .next) := rfl

/-- **C43 violated**: `READ_OP` sends the operator without the announcement that `READ_WF` makes, and an unknown class ends the
program without an answer. -/
theorem C43_violated_read_op : handle ⟨.readOp, false, true, true, false, false, none, false⟩ allWell = ([.data], .next) ∧
    handle ⟨.readOp, false, true, true, false, false, none, false⟩ { allWell with module := false } = ([], .threw) := ⟨rfl, rfl⟩

/-- **C43 violated**: `GET_MATEL` is never answered before the wave functions are read. -/
theorem C43_violated_matel (c : Cmd) (b : Beh) (h : c.kind = .getMatel) (ho : hasOp c b = true) (h1 : b.decodes = true) :
    ∃ t, (handle c b).1 = .recv :: .recv :: t := by
  have hg : getOp c b = ([], true) := by
    unfold hasOp at ho
    unfold getOp
    simp only [Bool.and_eq_true, Bool.or_eq_true] at ho
    rw [if_pos ho.1, if_pos ho.2]
  unfold handle
  rw [h]
  dsimp only
  unfold getMatel
  rw [hg, h1]
  dsimp only [Bool.not_true]
  cases b.decodes2 <;> cases b.valid <;> cases b.inits <;> cases b.valid' <;> cases b.acts <;> exact ⟨_, rfl⟩

/-- **C43 violated**: a failing `Init` in `GET_EXPEC` is reported, and then the value is sent nevertheless. -/
theorem C43_violated_expec : handle ⟨.getExpec, true, false, false, false, false, none, false⟩
    { allWell with valid := false, inits := false } =
    ([ok false, .recv, err, .send ⟨some false, none, false, 1⟩], .next) := rfl

/-- **C43 violated**: with an operator that does not exist, `APPLY_OP`, `GET_EXPEC` and `GET_MATEL` use a NULL pointer after the
error message. -/
theorem C43_violated_no_operator (c : Cmd) (b : Beh) (h : c.kind = .applyOp ∨ c.kind = .getExpec ∨ c.kind = .getMatel)
    (ho : hasOp c b = false) : (handle c b).2 = .ub := by
  have hg : getOp c b = ([err], false) := by
    unfold hasOp at ho
    unfold getOp
    by_cases h1 : c.xml = true ∨ c.s1 = true
    · rw [if_pos h1]
      by_cases h2 : b.opLoads = true
      · rw [h2] at ho
        rcases h1 with h1 | h1 <;> simp [h1] at ho
      · rw [if_neg h2]
    · rw [if_neg h1]
  unfold handle
  rcases h with h | h | h <;> rw [h] <;> dsimp only
  · unfold applyOp
    rw [hg]
    dsimp only
    rw [if_pos (by simp)]
    split_ifs <;> rfl
  · unfold getExpec
    rw [hg]
    dsimp only
    rw [if_pos (by simp)]
  · unfold getMatel
    rw [hg]
    dsimp only
    rw [if_pos (by simp)]

/-- **C43 violated**: the file of `READ_WF` cannot be loaded: a NULL pointer is written to the stream. -/
theorem C43_violated_read_wf : handle ⟨.readWf, false, true, false, false, false, none, false⟩ { allWell with loads := false } =
    ([ok true, err], .ub) := rfl

/-- **C43 violated**: `DELETE_OP` is a documented command; it is not answered and ends the program.  `QUIT` is not answered. -/
theorem C43_violated_delete_quit (c : Cmd) (b : Beh) : (c.kind = .deleteOp → handle c b = ([], .threw)) ∧
    (c.kind = .quit → handle c b = ([], .next)) := by
  constructor <;> intro h <;> unfold handle <;> rw [h]

/-- **C43 violated**: required fields are missing in the response to `GET_GLOBAL_PARAMS` and in the values sent. -/
theorem C43_violated_wellFormed : (∃ r, (handle ⟨.getGlobalParams, false, false, false, false, false, none, false⟩ allWell).1 = [.send r] ∧
      ¬ WellFormed r) ∧
    (∃ r, Act.send r ∈ (handle ⟨.getExpec, true, false, false, false, false, none, false⟩ allWell).1 ∧ ¬ WellFormed r) := by
  refine ⟨⟨_, rfl, by simp [WellFormed]⟩, ⟨⟨some false, none, false, 1⟩, by decide, by simp [WellFormed]⟩⟩

/-- **C43 violated**: a client that closes its end without `QUIT` leaves the program reading indeterminate values. -/
theorem C43_violated_eof (b : Beh) : run [(⟨.clearObjects, false, false, false, false, false, none, false⟩, b)] =
    ([.recv, ok false], .ub) := rfl

end QDng.Cmd
