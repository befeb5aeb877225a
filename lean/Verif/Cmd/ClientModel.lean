import Verif.Cmd.Spec

/-
Model of the client functions that come with the program (src/matlab) together with the interactive mode.  Both sides run until
each waits for the other or both are through; messages that have been sent and not yet read are kept in order.
-/

namespace QDng.Cmd

open Spec

/-- What a client function does with the two streams. -/
inductive Step where
  /-- sends a command or data -/
  | put
  /-- `qd_handle_response` (src/matlab/qd_handle_response.m:12-24): reads a response; an error ends the function -/
  | get
  /-- ends with an error of its own -/
  | fail
  deriving DecidableEq

/-- A message of the program on its way to the client. -/
inductive Msg where
  | resp (r : Resp)
  | data
  deriving DecidableEq

/-- How the two sides are left. -/
inductive Sync where
  /-- both are through, nothing is under way -/
  | inStep
  /-- the client waits for a message that is not sent -/
  | deadlock
  /-- the client is through; the program still waits for data, or messages are left unread -/
  | outOfStep
  deriving DecidableEq

/-- The client is through: what the program still does with `n` messages of the client under way, `q` messages unread. -/
def finish : List Act → Nat → List Msg → Sync
  | [], 0, [] => .inStep
  | .recv :: t, n + 1, q => finish t n q
  | .send _ :: _, _, _ => .outOfStep
  | .data :: _, _, _ => .outOfStep
  | _, _, _ => .outOfStep

/-- Client and program together: the program goes on as long as it need not wait.  Arguments: client, program, messages to the
program and to the client under way. -/
def together : List Step → List Act → Nat → List Msg → Sync
  | cs, .send r :: t, n, q => together cs t n (q ++ [.resp r])
  | cs, .data :: t, n, q => together cs t n (q ++ [.data])
  | cs, .recv :: t, n + 1, q => together cs t n q
  | [], t, n, q => finish t n q
  | .fail :: _, t, n, q => finish t n q
  | .put :: cs, t, n, q => together cs t (n + 1) q
  | .get :: _, _, _, [] => .deadlock
  | .get :: cs, t, n, .resp r :: q => if isError r then finish t n q else together cs t n q
  | .get :: _, _, _, .data :: _ => .outOfStep
  termination_by cs t => cs.length + t.length

/-- `qd_write_cmd` without data (src/matlab/qd_write_cmd.m:20-23), which is all of `qd_cmd_clear_objects`, `qd_cmd_load_op`,
`qd_cmd_xml` and `qd_cmd_quit`. -/
def plain : List Step := [.put, .get]

/-- `qd_write_cmd` with data (src/matlab/qd_write_cmd.m:20-29), used by `qd_cmd_expec`. -/
def withPayload : List Step := [.put, .get, .put, .get]

/-- `qd_get_global_params` (src/matlab/qd_get_global_params.m:12-23) and `qd_set_global_params`
(src/matlab/qd_set_global_params.m:12-24): a second response is read after `qd_write_cmd`. -/
def twoResponses : List Step := [.put, .get, .get]

/-- `qd_cmd_apply_op` and `qd_cmd_matel` (src/matlab/qd_cmd_apply_op.m:27-28, src/matlab/qd_cmd_matel.m:27-28):
`qd_handle_response` is called without its argument, which is an error. -/
def noArgument : List Step := [.put, .get, .fail]

end QDng.Cmd
