import Mathlib.Data.List.Basic
import Verif.Common.Outcome

/-
Model of the program for correlation functions (src/ProgCfun.cpp).

Wave functions, operators and the propagator are of any kind; every operator and the propagator is a total map that
may depend on the step number of the clock.  The scalar product is a parameter.  The wave function buffer is a list
(its behaviour is modelled in Verif/Buffer).  Numbers of steps are integers without bound.  Reading the input, writing
the result and the baseline to files is not modelled; how a baseline is read from files is in Verif/Prog.
-/

namespace QDng.Cfun

open QDng QDng.Common

variable {V K : Type}

/-- Element of a `ket` or `bra` section: an operator, or `none` for the propagator `U`
(src/ProgCfun.cpp:116-126). -/
abbrev Elem (V : Type) := Option (Nat → V → V)

/-- What the program is given. -/
structure Setup (V K : Type) where
  psi0 : V
  U : Nat → V → V
  ip : V → V → K
  zero : K
  ket : List (Elem V)
  bra : List (Elem V)
  steps : Int
  wcycle : Int
  stepsint : Int

/-- The value returned by `ReadKetBra` (src/ProgCfun.cpp:107, 121): index of the first operator or -1. -/
def firstOp (l : List (Elem V)) : Int :=
  match l.findIdx? Option.isSome with
  | none => -1
  | some i => i

/-- Number of propagators in a section (src/ProgCfun.cpp:119). -/
def numU (l : List (Elem V)) : Nat := l.countP Option.isNone

/-- Applying operators up to the next propagator (src/ProgCfun.cpp:157-164, 209-214, 307-312, 327-332, 351-356). -/
def applyOps (clock : Nat) : List (Elem V) → V → V
  | [], v => v
  | none :: _, v => v
  | some o :: l, v => applyOps clock l (o clock v)

/-- The elements from a given index; a negative index becomes a huge unsigned one (src/ProgCfun.cpp:209). -/
def elemsFrom (i : Int) (l : List (Elem V)) : List (Elem V) := if i < 0 then [] else l.drop i.toNat

/-- `InitializeKetBra` (src/ProgCfun.cpp:143-174).  The index that is changed for the bra is not used afterwards. -/
def initKetBra (clock : Nat) (l : List (Elem V)) (psi0 : V) : Ans V :=
  match l with
  | [] => .ub
  | l => .val (applyOps clock l psi0)

/-- `n` steps of the propagator from step number `c` (src/ProgCfun.cpp:219-222, 318-321, 365-371). -/
def propagate (U : Nat → V → V) (c : Nat) : Nat → V → V
  | 0, v => v
  | n + 1, v => propagate U (c + 1) n (U c v)

/-- The initial time series (src/ProgCfun.cpp:496-500); arguments: passes left, `i`, wave function, buffer. -/
def fill (U : Nat → V → V) (w : Int) : Nat → Nat → V → List V → Ans (List V)
  | 0, _, _, buf => .val buf
  | n + 1, i, v, buf =>
    let v := U (i - 1) v
    if w = 0 then .ub
    else fill U w n (i + 1) v (if (i : Int).tmod w = 0 then buf ++ [v] else buf)

/-- The loop of `RunC1` (src/ProgCfun.cpp:204-225); arguments: passes left, `t`, bra, values so far. -/
def c1Loop (s : Setup V K) (buf : List V) : Nat → Nat → Option V → List K → Ans (List K)
  | 0, _, _, out => .val out
  | n + 1, t, bra, out =>
    match buf[t]? with
    | none => .threw
    | some ket =>
      let psi := applyOps (t * s.wcycle.toNat) (elemsFrom (firstOp s.ket) s.ket) ket
      match bra with
      | none => c1Loop s buf n (t + 1) none (out ++ [s.ip ket psi])
      | some b =>
        let b := propagate s.U (t * s.wcycle.toNat) s.wcycle.toNat b
        c1Loop s buf n (t + 1) (some b) (out ++ [s.ip b psi])

/-- The bra side of `RunC1` and `RunC2` (src/ProgCfun.cpp:199-201, 266-268). -/
def initBra (s : Setup V K) (clock : Nat) : Ans (Option V) :=
  if s.bra = [] then .val none
  else
    match initKetBra clock s.bra s.psi0 with
    | .val b => .val (some b)
    | .threw => .threw
    | .ub => .ub

/-- `RunC1` (src/ProgCfun.cpp:187-225); `clock` is the step number left by the initial propagation.  A negative number
of values is a request for more memory than there is. -/
def runC1 (s : Setup V K) (buf : List V) (clock : Nat) : Ans (List K) :=
  if s.wcycle = 0 then .ub
  else if s.steps.tdiv s.wcycle < 0 then .threw
  else if buf = [] then .threw
  else
    match initBra s clock with
    | .val b => c1Loop s buf (s.steps.tdiv s.wcycle).toNat 0 b []
    | .threw => .threw
    | .ub => .ub

/-- The search for the operators after the first propagator (src/ProgCfun.cpp:276-291): number of propagators and
the index found; arguments: index, propagators so far, found so far. -/
def search : List (Elem V) → Nat → Nat → Nat → Nat × Nat
  | [], _, n, f => (n, f)
  | none :: l, i, n, f => search l (i + 1) (n + 1) f
  | some _ :: l, i, n, f => search l (i + 1) n (if n = 1 then i else f)

/-- The array of values of `RunC2` (src/ProgCfun.cpp:258-259, 359-361); writing outside of it is undefined. -/
def setValue (nt : Nat) (out : Nat → K) (i : Nat) (x : K) : Ans (Nat → K) :=
  if i < nt * nt then .val (fun j => if j = i then x else out j) else .ub

/-- The loop over `t2` of `RunC2` (src/ProgCfun.cpp:336-372); arguments: passes left, `t2`, step number of the clock,
`psi_t_k`, `psi_t_b`, values.  The steps of ket and bra alternate in the code; they do not influence each other. -/
def c2Inner (s : Setup V K) (buf : List V) (nt : Nat) (lhs bra : Bool) (sig : Nat) (t1 : Nat) :
    Nat → Nat → Nat → V → V → (Nat → K) → Ans (Nat → K)
  | 0, _, _, _, _, out => .val out
  | n + 1, t2, c, k, b, out =>
    match (if bra then some b else buf[t2]?), (if lhs then some k else buf[t2]?) with
    | some b, some k =>
      let psi := applyOps c (s.ket.drop sig) k
      match setValue nt out (if lhs then t1 * nt + t2 else t2 * nt + t1) (s.ip b psi) with
      | .val out =>
        if ((t2 : Int) - t1 > s.stepsint) ∧ s.stepsint > 0 then .val out
        else
          c2Inner s buf nt lhs bra sig t1 n (t2 + 1) (c + s.wcycle.toNat)
            (if lhs then propagate s.U c s.wcycle.toNat k else k)
            (if bra then propagate s.U c s.wcycle.toNat b else b) out
      | .threw => .threw
      | .ub => .ub
    | _, _ => .threw

/-- The loop over `t1` of `RunC2` (src/ProgCfun.cpp:303-373); arguments: passes left, `t1`, bra, values. -/
def c2Outer (s : Setup V K) (buf : List V) (nt : Nat) (lhs : Bool) (firstKet firstBra : Nat) :
    Nat → Nat → Option V → (Nat → K) → Ans (Nat → K)
  | 0, _, _, out => .val out
  | n + 1, t1, bra, out =>
    match buf[t1]? with
    | none => .threw
    | some ket =>
      let c := t1 * s.wcycle.toNat
      let k := if lhs then applyOps c (s.ket.drop firstKet) ket else ket
      let bra := bra.map (propagate s.U c s.wcycle.toNat)
      let b := bra.getD ket
      let b := if lhs then b else applyOps c (s.bra.drop firstBra) b
      match c2Inner s buf nt lhs bra.isSome (if lhs then firstKet + 2 else firstKet) t1 (nt - t1) t1 c k b out with
      | .val out => c2Outer s buf nt lhs firstKet firstBra n (t1 + 1) bra out
      | .threw => .threw
      | .ub => .ub

/-- `RunC2` (src/ProgCfun.cpp:253-373). -/
def runC2 (s : Setup V K) (buf : List V) (clock : Nat) : Ans (Nat × (Nat → K)) :=
  if s.wcycle = 0 then .ub
  else if s.steps.tdiv s.wcycle < 0 then .threw
  else if buf = [] then .threw
  else
    match initBra s clock with
    | .threw => .threw
    | .ub => .ub
    | .val b =>
      let nt := (s.steps.tdiv s.wcycle).toNat
      let (nk, fk) := search s.ket 0 0 0
      let (nb, fb) := if b.isSome then search s.bra 0 0 0 else (0, 0)
      let go (lhs : Bool) :=
        match c2Outer s buf nt lhs fk fb nt 0 b (fun _ => s.zero) with
        | .val f => .val (nt, f)
        | .threw => .threw
        | .ub => .ub
      if nk = 2 ∧ nb ≤ 1 then go true
      else if nk = 1 ∧ nb = 2 then go false
      else .threw

/-- Result of the program. -/
inductive Result (K : Type) where
  | one (values : List K)
  | two (nt : Nat) (values : Nat → K)

/-- The check of a baseline read from files (src/ProgCfun.cpp:484-485); the first element of the bra is read even if there
is none. -/
def checkBaseline (s : Setup V K) (buf : List V) : Ans Unit :=
  if buf.length > 1 then
    match s.ket with
    | some _ :: _ => .threw
    | _ =>
      match s.bra with
      | [] => .ub
      | some _ :: _ => .threw
      | none :: _ => .val ()
  else .val ()

/-- The wave functions used and the step number of the clock after that (src/ProgCfun.cpp:488-500). -/
def baseline (s : Setup V K) (buf : List V) : Ans (List V × Nat) :=
  if buf.length = 1 then
    match initKetBra 0 s.ket s.psi0 with
    | .threw => .threw
    | .ub => .ub
    | .val psi =>
      match fill s.U s.wcycle (s.steps - 1).toNat 1 psi [psi] with
      | .val l => .val (l, (s.steps - 1).toNat)
      | .threw => .threw
      | .ub => .ub
  else .val (buf, 0)

/-- Number of propagators counted (src/ProgCfun.cpp:463, 469, 474-475). -/
def countU (s : Setup V K) : Nat := numU s.ket + numU s.bra + (if s.bra = [] then 1 else 0)

/-- `Run` without the reading of the input (src/ProgCfun.cpp:474-533); `read` is a baseline read from files. -/
def run (s : Setup V K) (read : Option (List V)) : Ans (Result K) :=
  let buf := read.getD [s.psi0]
  match s.bra.getLast? with
  | some (some _) => .threw
  | _ =>
    match s.ket.getLast? with
    | none => .ub
    | some none => .threw
    | some (some _) =>
      match checkBaseline s buf with
      | .threw => .threw
      | .ub => .ub
      | .val _ =>
        match baseline s buf with
        | .threw => .threw
        | .ub => .ub
        | .val (buf, clock) =>
          if countU s = 2 then
            match runC1 s buf clock with
            | .val l => .val (.one l)
            | .threw => .threw
            | .ub => .ub
          else if countU s = 3 then
            match runC2 s buf clock with
            | .val (nt, f) => .val (.two nt f)
            | .threw => .threw
            | .ub => .ub
          else .threw

end QDng.Cfun
