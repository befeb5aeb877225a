import Verif.Cmd.Model

/-
What "every message is answered exactly once" means for the order of messages.
-/

namespace QDng.Cmd.Spec

/-- A well formed response: the required fields are set (src/IACmds.proto:35, 38). -/
def WellFormed (r : Resp) : Prop := r.error.isSome ∧ r.data.isSome

/-- A response that announces data. -/
def announces (r : Resp) : Bool := r.error = some false && r.data = some true

/-- A response that reports an error. -/
def isError (r : Resp) : Bool := r.error = some true

/-- Every message received is answered exactly once before the next one is received: by a response or, after a response that
announced data, by the data or an error.  The first argument: data has been announced and not yet sent. -/
inductive Answered : Bool → List Act → Prop where
  /-- nothing is left open -/
  | done : Answered false []
  /-- one response, which does not announce data -/
  | one (b : Bool) (r : Resp) (t : List Act) : announces r = false → Answered false t → Answered b (.recv :: .send r :: t)
  /-- a response that announces data, followed by the data -/
  | withData (r : Resp) (t : List Act) : announces r = true → Answered false t → Answered false (.recv :: .send r :: .data :: t)
  /-- a response that announces data, followed by an error instead -/
  | withError (r s : Resp) (t : List Act) : announces r = true → isError s = true → Answered false t →
      Answered false (.recv :: .send r :: .send s :: t)
  /-- a response that announces data for later -/
  | later (r : Resp) (t : List Act) : announces r = true → Answered true t → Answered false (.recv :: .send r :: t)
  /-- data announced before -/
  | data (t : List Act) : Answered false t → Answered true (.recv :: .data :: t)

/-- The same as a function that reads the messages one by one, for counterexamples. -/
def answered : Bool → List Act → Bool
  | b, [] => !b
  | false, .recv :: .send r :: .data :: t => announces r && answered false t
  | false, .recv :: .send r :: .send s :: t => announces r && isError s && answered false t
  | b, .recv :: .send r :: t => if announces r then !b && answered true t else answered false t
  | true, .recv :: .data :: t => answered false t
  | _, _ => false

/-- The operator of a command: given by a definition or a key, and it can be loaded. -/
def hasOp (c : Cmd) (b : Beh) : Bool := (c.xml || c.s1) && b.opLoads

/-- The time asked for in `APPLY_OP` is refused: the operator has no clock or the time is out of its range. -/
def refused (c : Cmd) (b : Beh) : Prop :=
  match c.d1, b.clock with
  | some _, none => True
  | some t, some n => t < 0 ∨ n < t
  | none, _ => False

/-- The commands that are answered exactly once and handled without undefined behaviour. -/
def Fine (c : Cmd) (b : Beh) : Prop :=
  match c.kind with
  | .runProg | .getGlobalParams | .clearObjects | .writeWf => True
  -- the file can be loaded
  | .readWf => c.s1 = true → b.loads = true
  -- only failures are answered
  | .readOp => c.s1 = true → c.s2 = true → b.module = true ∧ ¬ (b.reads = true ∧ b.puts = true)
  -- the class is known
  | .writeOp => c.s1 = true → c.s2 = true → c.s2Laser = true ∨ (c.s2Empty = false ∧ b.module = true)
  -- the parameters are given and can be parsed, or neither
  | .setGlobalParams => c.s1 = true ↔ b.parses = true
  -- the definition is given and can be loaded
  | .loadOp => c.xml = true ∧ b.opLoads = true
  -- all arguments are given
  | .loadU => c.xml = true ∧ c.d1.isSome = true ∧ c.d2 = true
  -- the operator and the wave function are usable; if `Init` fails the value is not available either
  | .getExpec => hasOp c b = true ∧ b.decodes = true ∧
      (if b.valid = false ∧ b.inits = false then b.acts = false else (b.valid = false ∧ b.valid' = false) ∨ b.acts = true)
  -- the operator exists, and the time is refused or the wave function can be decoded
  | .applyOp => hasOp c b = true ∧ (refused c b ∨ b.decodes = true)
  | .quit | .deleteOp | .getMatel => False

end QDng.Cmd.Spec
