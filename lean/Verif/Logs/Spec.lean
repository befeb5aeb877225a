import Verif.Logs.Model

/-
Specification of the logger: what a user expects to arrive.
-/

namespace QDng.Logs

/-- The lines of a text, each with its newline; the last one may be without. -/
def linesOf : Text → List Text
  | [] => []
  | c :: r =>
    if c = '\n' then [c] :: linesOf r
    else
      match linesOf r with
      | [] => [[c]]
      | l :: ls => (c :: l) :: ls

/-- A text with `k` indents, of two spaces each, in front of each line. -/
def padded (k : Nat) (t : Text) : Text := (linesOf t).flatMap fun l => List.replicate (2 * k) ' ' ++ l

/-- A message of whole lines. -/
def Whole (t : Text) : Prop := ∃ r, t = r ++ ['\n']

/-- The places text arrives at. -/
inductive Place where
  | console
  | other (k : Nat)
  | file (f : Nat)
deriving DecidableEq

/-- The text which has arrived at a place. -/
def Logger.content (s : Logger) : Place → Text
  | .console => s.console
  | .other k => s.others k
  | .file f => s.files f

/-- The place the logger writes to, if its stream works. -/
def Logger.place (s : Logger) : Option Place :=
  match s.dest with
  | .console => some .console
  | .other k => some (.other k)
  | .file =>
    match s.ofile, s.bad with
    | some f, false => some (.file f)
    | _, _ => none

/-- The text a sequence of calls shall produce: the messages one after the other, the details only when asked for, nothing while
messages are suppressed, each line behind the current number of indents. -/
def expected (debug : Bool) : Bool → Nat → List Ev → Text
  | _, _, [] => []
  | sup, k, .say t :: evs => (if sup then [] else padded k t) ++ expected debug sup k evs
  | sup, k, .detail t :: evs => (if sup || !debug then [] else padded k t) ++ expected debug sup k evs
  | sup, k, .flush :: evs => expected debug sup k evs
  | _, k, .supress b :: evs => expected debug b k evs
  | sup, k, .setIndent n :: evs => expected debug sup (if 0 ≤ n then n.toNat else k) evs
  | sup, k, .inc :: evs => expected debug sup (k + 1) evs
  | sup, k, .dec :: evs => expected debug sup (k - 1) evs

/-- The calls which keep the indentation. -/
def Ev.plain : Ev → Prop
  | .setIndent _ | .inc | .dec => False
  | _ => True

/-- The calls which do not suppress messages and whose messages are whole lines. -/
def Ev.lines : Ev → Prop
  | .say t | .detail t => Whole t
  | .supress _ => False
  | _ => True

/-- No message is pending. -/
def Logger.Idle (s : Logger) : Prop := s.last = 0 ∧ s.cout = [] ∧ s.dbg = [] ∧ s.supress = false

end QDng.Logs
