import Verif.Cmd.Lemmas
import Verif.Cmd.ClientModel

/-
C91: the supplied client stays in step with the program.
-/

namespace QDng.Cmd

open Spec

/-- **C91**: client and program stay in step for all commands without data that are answered once (`Fine`), and for the commands
with data with `qd_write_cmd` with data.

Missing: the other functions of the client, see below. -/
theorem C91_in_step_partial (c : Cmd) (b : Beh) (h : Fine c b) :
    ((c.kind = .runProg ∨ c.kind = .clearObjects ∨ c.kind = .loadOp ∨ c.kind = .loadU) →
      together plain (.recv :: (handle c b).1) 0 [] = .inStep) ∧
    ((c.kind = .writeWf ∨ c.kind = .writeOp) → together withPayload (.recv :: (handle c b).1) 0 [] = .inStep) ∧
    (c.kind = .getExpec → b.inits = true → together withPayload (.recv :: (handle c b).1) 0 [] = .inStep) := by
  refine ⟨?_, ?_, ?_⟩
  · rintro (hk | hk | hk | hk) <;> unfold Fine at h <;> rw [hk] at h <;> unfold handle <;> rw [hk] <;> dsimp only at h ⊢
    · unfold runProg
      split_ifs <;> simp [together, plain, finish, err, ok, isError]
    · simp [clearObjects, together, plain, finish, err, ok, isError]
    · unfold loadOp getOp
      simp [h.1, h.2, together, plain, finish, err, ok, isError]
    · unfold loadU
      obtain ⟨h1, h2, h3⟩ := h
      have h2 : c.d1.isNone = false := by simpa [← Option.not_isSome] using h2
      cases b.uLoads <;> simp [h1, h2, h3, together, plain, finish, err, ok, isError]
  · rintro (hk | hk) <;> unfold Fine at h <;> rw [hk] at h <;> unfold handle <;> rw [hk] <;> dsimp only at h ⊢
    · unfold writeWf
      split_ifs <;> simp [together, withPayload, finish, err, ok, isError]
    · unfold writeOp
      by_cases h1 : c.s1 = true
      · by_cases h2 : c.s2 = true
        · rw [if_neg (by simp [h1]), if_neg (by simp [h2]), if_neg (by
            rcases h h1 h2 with h | h
            · simp [h]
            · simp [h])]
          split_ifs <;> simp [together, withPayload, finish, err, ok, isError]
        · rw [if_neg (by simp [h1]), if_pos (by simp [h2])]
          simp [together, withPayload, finish, err, ok, isError]
      · rw [if_pos (by simp [h1])]
        simp [together, withPayload, finish, err, ok, isError]
  · intro hk hi
    unfold Fine at h
    rw [hk] at h
    unfold handle
    rw [hk]
    dsimp only at h ⊢
    obtain ⟨ho, hd, h⟩ := h
    have hg : getOp c b = ([], true) := by
      unfold hasOp at ho
      unfold getOp
      simp only [Bool.and_eq_true, Bool.or_eq_true] at ho
      rw [if_pos ho.1, if_pos ho.2]
    rw [if_neg (by simp [hi])] at h
    unfold getExpec
    rw [hg, hd]
    cases hv : b.valid <;> cases hv' : b.valid' <;> cases ha : b.acts <;> simp [hv, hv', ha] at h <;>
      simp [hi, together, withPayload, finish, err, ok, isError]

/-- The hypotheses are met by a program to run and by an expectation value. -/
example (b : Beh) : Fine ⟨.runProg, true, false, false, false, false, none, false⟩ b := trivial

/-- An expectation value with an operator that is ready. -/
example : Fine ⟨.getExpec, false, true, false, false, false, none, false⟩
    ⟨true, true, true, true, true, true, true, true, true, true, true, none, true, true, true, true⟩ := ⟨rfl, rfl, Or.inr rfl⟩

/-- **C91 violated**: `qd_get_global_params` waits for a second response that is never sent. -/
theorem C91_violated_get_params (b : Beh) :
    together twoResponses (.recv :: (handle ⟨.getGlobalParams, false, false, false, false, false, none, false⟩ b).1) 0 [] = .deadlock := by
  simp [handle, getGlobalParams, together, twoResponses, isError]

/-- **C91 violated**: `qd_set_global_params` sends the command without its parameters (the field is called `param_s1`, not
`param1`); the function ends with the error and the second response is left over for the next command. -/
theorem C91_violated_set_params (b : Beh) (h : b.parses = true) :
    together twoResponses (.recv :: (handle ⟨.setGlobalParams, false, false, false, false, false, none, false⟩ b).1) 0 [] = .outOfStep := by
  simp [handle, setGlobalParams, h, together, twoResponses, isError, err, ok, finish]

/-- **C91 violated**: `qd_cmd_apply_op` ends with an error while the program waits for the wave function. -/
theorem C91_violated_apply (b : Beh) (h : b.opLoads = true) :
    together noArgument (.recv :: (handle ⟨.applyOp, true, false, false, false, false, none, false⟩ b).1) 0 [] = .outOfStep := by
  have : ∃ t, (handle ⟨.applyOp, true, false, false, false, false, none, false⟩ b).1 = ok true :: .recv :: t := by
    simp only [handle, applyOp, getOp, h, applyRest]
    simp only [true_or, if_true, Bool.not_true, Bool.false_eq_true, if_false, List.nil_append]
    split_ifs <;> exact ⟨_, rfl⟩
  obtain ⟨t, ht⟩ := this
  rw [ht]
  simp [together, noArgument, isError, ok, finish]

/-- **C91 violated**: `qd_cmd_matel` waits for a response to the command, which is sent only after the wave functions. -/
theorem C91_violated_matel (b : Beh) (h : b.opLoads = true) (hd : b.decodes = true) :
    together noArgument (.recv :: (handle ⟨.getMatel, true, false, false, false, false, none, false⟩ b).1) 0 [] = .deadlock := by
  have : ∃ t, (handle ⟨.getMatel, true, false, false, false, false, none, false⟩ b).1 = .recv :: t := by
    simp only [handle, getMatel, getOp, h, hd]
    simp only [true_or, if_true, List.nil_append]
    split_ifs <;> exact ⟨_, rfl⟩
  obtain ⟨t, ht⟩ := this
  rw [ht]
  simp [together, noArgument]

/-- **C91 violated**: `qd_cmd_quit` waits for a response that is never sent. -/
theorem C91_violated_quit (c : Cmd) (b : Beh) (h : c.kind = .quit) : together plain (.recv :: (handle c b).1) 0 [] = .deadlock := by
  unfold handle
  rw [h]
  simp [together, plain]

/-- **C91 violated**: after `qd_cmd_load_op` or `qd_cmd_expec` with an operator that cannot be loaded, a response is left over. -/
theorem C91_violated_load (b : Beh) (h : b.opLoads = false) :
    together plain (.recv :: (handle ⟨.loadOp, true, false, false, false, false, none, false⟩ b).1) 0 [] = .outOfStep := by
  simp [handle, loadOp, getOp, h, together, plain, err, ok, isError, finish]

end QDng.Cmd
