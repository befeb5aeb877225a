import Mathlib.Tactic.Common

/-
Model of the interactive mode (src/CmdHandler.cpp, src/IACmds.proto): which messages are read and written for each command.

What the operators, wave functions, files and modules do is not modelled: `Beh` says for one command whether each of the calls
made for it succeeds.  The theorems hold for all values of it.  Wave functions and operators in the stream are single messages (a wave
function of which a part was sent before an exception counts as not sent).
The messages a client sends can always be read, except that the contents of a wave function may be rejected.
-/

namespace QDng.Cmd

/-- `Command.command_t` (src/IACmds.proto:16-32). -/
inductive Kind where
  | quit | getGlobalParams | setGlobalParams | clearObjects | runProg | readWf | writeWf | readOp | writeOp | loadOp | loadU
  | deleteOp | getExpec | getMatel | applyOp
  deriving DecidableEq

/-- `Command` (src/IACmds.proto:6-14): the kind and which optional fields are present; of `param_s2` whether it is `Laser` or
empty; of `param_d1` the integer part. -/
structure Cmd where
  kind : Kind
  xml : Bool
  s1 : Bool
  s2 : Bool
  s2Laser : Bool
  s2Empty : Bool
  d1 : Option Int
  d2 : Bool

/-- What the calls made for a command do: `false` is an exception unless said otherwise. -/
structure Beh where
  /-- `RunXML` -/
  runs : Bool
  /-- `LoadWaveFunctionByMeta` from a file -/
  loads : Bool
  /-- writing a wave function or an operator to the stream -/
  puts : Bool
  /-- the wave functions (operators) received can be decoded -/
  decodes : Bool
  /-- the second wave function received can be decoded -/
  decodes2 : Bool
  /-- writing a wave function or an operator to a file -/
  stores : Bool
  /-- loading an operator module and casting it -/
  module : Bool
  /-- reading an operator from a file -/
  reads : Bool
  /-- `ParamContainer::Parse` -/
  parses : Bool
  /-- `LoadOperatorChain`, or the operator with the key exists -/
  opLoads : Bool
  /-- `LoadPropagator` and setting the clock -/
  uLoads : Bool
  /-- the steps of the clock of the operator (`none`: it has no clock) -/
  clock : Option Int
  /-- `Valid` answers true before `Init` -/
  valid : Bool
  /-- `Init` -/
  inits : Bool
  /-- `Valid` answers true in the second question (for all wave functions) -/
  valid' : Bool
  /-- `Apply`, `MatrixElement` or `Expec` -/
  acts : Bool

/-- `Response` (src/IACmds.proto:34-45): the fields that are set. -/
structure Resp where
  /-- `some true`: an error -/
  error : Option Bool
  data : Option Bool
  msg : Bool
  results : Nat
  deriving DecidableEq

/-- What happens on the two streams. -/
inductive Act where
  | recv
  | send (r : Resp)
  | data
  deriving DecidableEq

/-- How the handling of a command ends. -/
inductive End where
  | next
  | threw
  | ub
  deriving DecidableEq

/-- `send_OK` (src/CmdHandler.cpp:54-60). -/
def ok (data : Bool) : Act := .send ⟨some false, some data, false, 0⟩

/-- `send_error_message` (src/CmdHandler.cpp:62-69). -/
def err : Act := .send ⟨some true, some false, true, 0⟩

/-- `get_operator_from_command` (src/CmdHandler.cpp:280-313): what is sent, and whether there is an operator. -/
def getOp (c : Cmd) (b : Beh) : List Act × Bool :=
  if c.xml ∨ c.s1 then (if b.opLoads then ([], true) else ([err], false)) else ([err], false)

/-- `cmd_run_prog` (src/CmdHandler.cpp:349-364). -/
def runProg (c : Cmd) (b : Beh) : List Act × End :=
  if !c.xml then ([err], .next)
  else if b.runs then ([ok false], .next) else ([err], .threw)

/-- `cmd_read_wf` (src/CmdHandler.cpp:366-396); writing the NULL pointer after a failed load is undefined. -/
def readWf (c : Cmd) (b : Beh) : List Act × End :=
  if !c.s1 then ([err], .next)
  else if !b.loads then ([ok true, err], .ub)
  else if b.puts then ([ok true, .data], .next) else ([ok true, err], .threw)

/-- `cmd_write_wf` (src/CmdHandler.cpp:399-436). -/
def writeWf (c : Cmd) (b : Beh) : List Act × End :=
  if !c.s1 then ([err], .next)
  else if !b.decodes then ([ok false, .recv, err], .next)
  else if b.stores then ([ok false, .recv, ok false], .next) else ([ok false, .recv, err], .threw)

/-- `cmd_read_op` (src/CmdHandler.cpp:438-489). -/
def readOp (c : Cmd) (b : Beh) : List Act × End :=
  if !c.s1 then ([err], .next)
  else if !c.s2 then ([err], .next)
  else if !b.module then ([], .threw)
  else if !b.reads then ([err], .threw)
  else if b.puts then ([.data], .next) else ([err], .threw)

/-- `cmd_write_op` (src/CmdHandler.cpp:491-567). -/
def writeOp (c : Cmd) (b : Beh) : List Act × End :=
  if !c.s1 then ([err], .next)
  else if !c.s2 then ([err], .next)
  else if !c.s2Laser ∧ (c.s2Empty ∨ !b.module) then ([], .threw)
  else if !b.decodes then ([ok false, .recv, err], .threw)
  else if b.stores then ([ok false, .recv, ok false], .next) else ([ok false, .recv, err], .threw)

/-- `cmd_set_global_params` (src/CmdHandler.cpp:569-587). -/
def setGlobalParams (c : Cmd) (b : Beh) : List Act × End :=
  let first := if !c.s1 then [err] else []
  if b.parses then (first ++ [ok false], .next) else (first, .threw)

/-- `cmd_get_global_params` (src/CmdHandler.cpp:589-600): only the message is set. -/
def getGlobalParams : List Act × End := ([.send ⟨none, none, true, 0⟩], .next)

/-- `cmd_clear_objects` (src/CmdHandler.cpp:605-610). -/
def clearObjects : List Act × End := ([ok false], .next)

/-- `cmd_load_op` (src/CmdHandler.cpp:612-620). -/
def loadOp (c : Cmd) (b : Beh) : List Act × End :=
  let first := if !c.xml then [err] else []
  (first ++ (getOp c b).1 ++ [ok false], .next)

/-- `cmd_load_U` (src/CmdHandler.cpp:622-655). -/
def loadU (c : Cmd) (b : Beh) : List Act × End :=
  let first := (if !c.xml then [err] else []) ++ (if c.d1.isNone then [err] else []) ++ (if !c.d2 then [err] else [])
  if b.uLoads then (first ++ [ok false], .next) else (first ++ [err], .threw)

/-- `cmd_apply_op` behind the choice of the time step (src/CmdHandler.cpp:680-706). -/
def applyRest (b : Beh) : List Act × End :=
  if !b.decodes then ([ok true, .recv, err], .ub)
  else if !b.valid ∧ !b.inits then ([ok true, .recv, err], .threw)
  else if !b.valid ∧ !b.valid' then ([ok true, .recv, err], .next)
  else if !b.acts then ([ok true, .recv, err], .threw)
  else if b.puts then ([ok true, .recv, .data], .next) else ([ok true, .recv, err], .threw)

/-- `cmd_apply_op` (src/CmdHandler.cpp:657-706). -/
def applyOp (c : Cmd) (b : Beh) : List Act × End :=
  let (first, found) := getOp c b
  if !found then
    -- the NULL pointer is used at once with a time, otherwise after the wave function has been read
    if c.d1.isSome then (first, .ub)
    else if b.decodes then (first ++ [ok true, .recv], .ub) else (first ++ [ok true, .recv, err], .ub)
  else
    match c.d1 with
    | none => (first ++ (applyRest b).1, (applyRest b).2)
    | some t =>
      match b.clock with
      | none => (first ++ [err], .next)
      | some n => if t < 0 ∨ t > n then (first ++ [err], .next) else (first ++ (applyRest b).1, (applyRest b).2)

/-- `cmd_get_matel` (src/CmdHandler.cpp:708-743). -/
def getMatel (c : Cmd) (b : Beh) : List Act × End :=
  let (first, found) := getOp c b
  let first := first ++ [.recv] ++ (if b.decodes then [] else [err]) ++ [.recv] ++ (if b.decodes2 then [] else [err])
  if !found ∨ !b.decodes ∨ !b.decodes2 then (first, .ub)
  else if !b.valid ∧ !b.inits then (first ++ [err], .threw)
  else if !b.valid' then (first ++ [err], .next)
  else if b.acts then (first ++ [.send ⟨some false, none, false, 2⟩], .next) else (first, .threw)

/-- `cmd_get_expec` (src/CmdHandler.cpp:745-773); an exception of `Init` is reported and then ignored. -/
def getExpec (c : Cmd) (b : Beh) : List Act × End :=
  let (first, found) := getOp c b
  let first := first ++ [ok false, .recv] ++ (if b.decodes then [] else [err])
  if !found ∨ !b.decodes then (first, .ub)
  else
    let failed := !b.valid ∧ !b.inits
    if ¬ failed ∧ !b.valid ∧ !b.valid' then (first ++ [err], .next)
    else
      let first := if failed then first ++ [err] else first
      if b.acts then (first ++ [.send ⟨some false, none, false, 1⟩], .next) else (first, .threw)

/-- The switch of the command loop (src/CmdHandler.cpp:807-852). -/
def handle (c : Cmd) (b : Beh) : List Act × End :=
  match c.kind with
  | .runProg => runProg c b
  | .readWf => readWf c b
  | .writeWf => writeWf c b
  | .getGlobalParams => getGlobalParams
  | .setGlobalParams => setGlobalParams c b
  | .clearObjects => clearObjects
  | .loadOp => loadOp c b
  | .loadU => loadU c b
  | .readOp => readOp c b
  | .writeOp => writeOp c b
  | .quit => ([], .next)
  | .getExpec => getExpec c b
  | .getMatel => getMatel c b
  | .applyOp => applyOp c b
  | .deleteOp => ([], .threw)

/-- `RunInteractive` (src/CmdHandler.cpp:779-858) with the commands of a client that sends nothing after the last one.  The
state of the input stream is not checked: at its end the length of the next message is indeterminate. -/
def run : List (Cmd × Beh) → List Act × End
  | [] => ([], .ub)
  | (c, b) :: rest =>
    let (t, e) := handle c b
    match e with
    | .next =>
      if c.kind = .quit then (.recv :: t, .next)
      else (.recv :: t ++ (run rest).1, (run rest).2)
    | e => (.recv :: t, e)

end QDng.Cmd
