import Mathlib.Analysis.InnerProductSpace.Basic

/-
Model of the optimal control program: src/ProgOCT.cpp, the methods krotov, rabitz and rabitzfb.

Numbers are exact.  The wave functions are elements of an inner product space.  The propagator, the operators and the
gobbler are parameters: functions of the wave function and, for the propagator, of the time step of the clock and of
the values the laser fields have there.  The lasers are functions of the time step (they accept the clock only if they
have a value at every time step, C79), the buffers of wave functions are functions of the position (C50).  A loop over
the targets treats all targets at once; targets above the number of targets are never looked at.  Not modelled: the
method freq, reading of the input, the search of the coupling operators, console output, the factor `scale` of a laser
(the values here are the stored ones; the factor belongs to the propagator).
-/

namespace QDng.Oct

noncomputable section

/-- The methods (src/ProgOCT.h:57-60). -/
inductive Method where
  | krotov
  | rabitz
  | rabitzfb
  deriving DecidableEq

/-- What the input has to say (src/ProgOCT.h:79-111) and the external parts. -/
structure Setup (V : Type) where
  /-- `clock->Steps()` -/
  steps : Nat
  /-- `clock->Dt()` -/
  dt : ℝ
  method : Method
  /-- `_ttype == op` -/
  operators : Bool
  phase : Bool
  /-- `_mv` -/
  moving : Bool
  ntargets : Nat
  alpha : ℝ
  /-- `_shape[0]` at a time step -/
  shape : Nat → ℝ
  iterations : Nat
  convergence : ℝ
  /-- `_U->Apply` behind `_U->Forward()` at a time step and values of the lasers -/
  fwd : Nat → (Nat → ℝ) → V → V
  /-- `_U->Apply` behind `_U->Backward()` -/
  bwd : Nat → (Nat → ℝ) → V → V
  /-- `_Gobbler->Apply` and `Normalize` -/
  gobbler : Option (V → V)
  /-- `_Coup->ApplyParent` -/
  mu : V → V
  /-- `_Otarget[t]->Apply` -/
  target : Nat → V → V

variable {V : Type} [NormedAddCommGroup V] [InnerProductSpace ℂ V]

/-- The fields, by laser and time step (src/ProgOCT.h:95-96). -/
abbrev Fields := Nat → Nat → ℝ

/-- `_memwfbuf`, by target and position (src/ProgOCT.h:108). -/
abbrev Buf (V : Type) := Nat → Nat → V

/-- What the iterations change: `_laserf`, `_laserb`, `_memwfbuf`, `_laserobj[0]` and the wave functions `phii`, `phit`
of `Run` (src/ProgOCT.h:94-108, src/ProgOCT.cpp:988-989). -/
structure St (V : Type) where
  lf : Fields
  lb : Fields
  buf : Buf V
  obj : ℝ
  phii : Nat → V
  phit : Nat → V

/-- The loop of `CalcCorr` over the targets (src/ProgOCT.cpp:312-331). -/
def corrLoop (c : Setup V) (wi wt : Nat → V) : Nat → ℝ
  | 0 => 0
  | t + 1 =>
    corrLoop c wi wt t +
      (if c.phase then (inner ℂ (wt t) (c.mu (wi t)) : ℂ)
        else (inner ℂ (wi t) (wt t) : ℂ) * inner ℂ (wt t) (c.mu (wi t))).im

/-- `CalcCorr` (src/ProgOCT.cpp:304-332). -/
def calcCorr (c : Setup V) (wi wt : Nat → V) : ℝ := corrLoop c wi wt c.ntargets

/-- The result of `CalcLaserField` (src/ProgOCT.cpp:337-370) at time step `s`. -/
def newField (c : Setup V) (s : Nat) (lb : Fields) (im : ℝ) : ℝ :=
  match c.method with
  | .krotov => lb 0 s - c.shape s / (c.alpha * c.ntargets) * im
  | .rabitz => -1 * c.shape s / (c.alpha * c.ntargets) * im
  | .rabitzfb => -1 * c.shape s / (c.alpha * c.ntargets) * im

/-- What `CalcLaserField` adds to `_laserobj[0]` (src/ProgOCT.cpp:350, 360). -/
def objTerm (c : Setup V) (s : Nat) (im res : ℝ) : ℝ :=
  match c.method with
  | .krotov => (c.shape s / c.alpha * im) * (c.shape s / c.alpha * im)
  | .rabitz => -1 / c.ntargets * im * res
  | .rabitzfb => -1 / c.ntargets * im * res

/-- Set all lasers at a time step, `_laserf[l]->Set(laser)` (src/ProgOCT.cpp:580-581). -/
def setField (f : Fields) (s : Nat) (x : ℝ) : Fields := fun l p => if p = s then x else f l p

/-- Set a position of the buffers, `_memwfbuf[t].Set` (src/ProgOCT.cpp:458-459). -/
def setBuf (b : Buf V) (pos : Nat) (wf : Nat → V) : Buf V := fun t p => if p = pos then wf t else b t p

/-- One step forward of one wave function (src/ProgOCT.cpp:464-468). -/
def stepF (c : Setup V) (f : Fields) (s : Nat) (x : V) : V :=
  match c.gobbler with
  | none => c.fwd s (fun l => f l s) x
  | some g => g (c.fwd s (fun l => f l s) x)

/-- One step backward of one wave function (src/ProgOCT.cpp:500-504). -/
def stepB (c : Setup V) (f : Fields) (s : Nat) (x : V) : V :=
  match c.gobbler with
  | none => c.bwd s (fun l => f l s) x
  | some g => g (c.bwd s (fun l => f l s) x)

/-- The loop of `PropagateForward` from time step `s` (src/ProgOCT.cpp:462-472). -/
def forwardLoop (c : Setup V) (f : Fields) : Nat → Nat → (Nat → V) → Buf V → (Nat → V) × Buf V
  | 0, _, wf, b => (wf, b)
  | k + 1, s, wf, b =>
    let wf' := fun t => stepF c f s (wf t)
    forwardLoop c f k (s + 1) wf' (setBuf b (s + 1) wf')

/-- `PropagateForward` (src/ProgOCT.cpp:454-473) with the fields `f` in `_laserf`. -/
def propagateForward (c : Setup V) (f : Fields) (wf : Nat → V) (b : Buf V) : (Nat → V) × Buf V :=
  forwardLoop c f c.steps 0 wf (setBuf b 0 wf)

/-- The loop of `PropagateBackward` from time step `s` down to zero, the argument is `s + 1`
(src/ProgOCT.cpp:498-508). -/
def backwardLoop (c : Setup V) (f : Fields) : Nat → (Nat → V) → Buf V → (Nat → V) × Buf V
  | 0, wf, b => (wf, b)
  | s + 1, wf, b =>
    let wf' := fun t => stepB c f s (wf t)
    backwardLoop c f s wf' (setBuf b s wf')

/-- `PropagateBackward` (src/ProgOCT.cpp:483-515): the lasers are exchanged before and behind the loop, so `_laserf`
holds the fields of `_laserb` meanwhile. -/
def propagateBackward (c : Setup V) (lb : Fields) (wf : Nat → V) (b : Buf V) : (Nat → V) × Buf V :=
  backwardLoop c lb c.steps wf (setBuf b c.steps wf)

/-- `SyncTargetOverlap` and `SyncTargetOperator` (src/ProgOCT.cpp:522-557), chosen as in lines 568-571. -/
def syncTarget (c : Setup V) (st : St V) : St V :=
  if c.operators then
    let r := propagateForward c st.lb st.phit st.buf
    let q := propagateBackward c st.lb (fun t => c.target t (r.1 t)) r.2
    { st with phit := q.1, buf := q.2 }
  else if c.moving then st
  else
    let q := propagateBackward c st.lb st.phit st.buf
    { st with phit := q.1, buf := q.2 }

/-- One pass of the loop of `Iterate` at time step `s` (src/ProgOCT.cpp:578-596). -/
def iteratePass (c : Setup V) (s : Nat) (st : St V) : St V :=
  let im := calcCorr c st.phii (fun t => st.buf t s)
  let laser := newField c s st.lb im
  let lf := setField st.lf s laser
  { st with lf := lf, obj := st.obj + objTerm c s im laser, phii := fun t => stepF c lf s (st.phii t) }

/-- The loop of `Iterate` over the time steps from `s` on (src/ProgOCT.cpp:577-597). -/
def iterateLoop (c : Setup V) : Nat → Nat → St V → St V
  | 0, _, st => st
  | k + 1, s, st => iterateLoop c k (s + 1) (iteratePass c s st)

/-- `Iterate` (src/ProgOCT.cpp:562-602). -/
def iterate (c : Setup V) (psiI : Nat → V) (st : St V) : St V :=
  let st := syncTarget c st
  let st := iterateLoop c c.steps 0 { st with phii := psiI }
  if c.moving then st else { st with phit := fun t => st.buf t c.steps }

/-- One pass of the backward loop of `IterateRabitzFB` at time step `s` (src/ProgOCT.cpp:634-658).  The lasers are
exchanged (lines 629-630): the propagator uses the fields of `_laserb`, the result is set in the other ones. -/
def fbBackPass (c : Setup V) (s : Nat) (st : St V) : St V :=
  let im := calcCorr c (fun t => st.buf t (s + 1)) st.phit
  let laser := newField c s st.lf im
  { st with
    lf := setField st.lf s laser
    obj := st.obj + objTerm c s im laser
    buf := setBuf st.buf (s + 1) st.phit
    phit := fun t => stepB c st.lb s (st.phit t) }

/-- The backward loop of `IterateRabitzFB`, the argument is the time step plus one (src/ProgOCT.cpp:634-658). -/
def fbBackLoop (c : Setup V) : Nat → St V → St V
  | 0, st => st
  | s + 1, st => fbBackLoop c s (fbBackPass c s st)

/-- One pass of the forward loop of `IterateRabitzFB` at time step `s` (src/ProgOCT.cpp:674-697). -/
def fbPass (c : Setup V) (s : Nat) (st : St V) : St V :=
  let im := calcCorr c st.phii (fun t => st.buf t s)
  let laser := newField c s st.lb im
  let lf := setField st.lf s laser
  { st with
    lf := lf
    obj := st.obj + objTerm c s im laser
    buf := setBuf st.buf s st.phii
    phii := fun t => stepF c lf s (st.phii t) }

/-- The forward loop of `IterateRabitzFB` (src/ProgOCT.cpp:674-697). -/
def fbLoop (c : Setup V) : Nat → Nat → St V → St V
  | 0, _, st => st
  | k + 1, s, st => fbLoop c k (s + 1) (fbPass c s st)

/-- `IterateRabitzFB` (src/ProgOCT.cpp:607-701). -/
def iterateFB (c : Setup V) (first : Bool) (st : St V) : St V :=
  let st := if first then
      let r := propagateForward c st.lf st.phii st.buf
      { st with phii := r.1, buf := r.2 }
    else st
  let st := { st with phii := fun t => st.buf t 0 }
  let st := if c.operators then { st with phit := fun t => c.target t (st.phii t) } else st
  let st := fbBackLoop c c.steps st
  let st := { st with buf := setBuf st.buf 0 st.phit }
  let st := { st with phit := fun t => st.buf t c.steps }
  let st := fbLoop c c.steps 0 st
  { st with buf := setBuf st.buf c.steps st.phii }

/-- `ov_sum` of `Report` (src/ProgOCT.cpp:408-436). -/
def ovSum (c : Setup V) (wi wt : Nat → V) : Nat → ℂ
  | 0 => 0
  | t + 1 =>
    ovSum c wi wt t +
      (if c.operators then ((‖(((inner ℂ (wi t) (c.target t (wi t)) : ℂ).re : ℝ) : ℂ)‖ : ℝ) : ℂ)
        else if c.phase then (inner ℂ (wi t) (wt t) : ℂ)
        else ((‖(inner ℂ (wi t) (wt t) : ℂ)‖ * ‖(inner ℂ (wi t) (wt t) : ℂ)‖ : ℝ) : ℂ))

/-- A line of the report (src/ProgOCT.cpp:376-447): the wave functions it is about, the value it returns (the yield),
the laser objective and the objective; with it the fields in `_laserf` at this time, which are written to the file if
`writel` is set (lines 1002-1005, 1065-1067). -/
structure Line (V : Type) where
  phii : Nat → V
  phit : Nat → V
  fields : Fields
  yield : ℝ
  laserObj : ℝ
  objective : ℝ

/-- `Report` (src/ProgOCT.cpp:376-447). -/
def report (c : Setup V) (st : St V) (wt : Nat → V) : Line V :=
  let sum := ovSum c st.phii wt c.ntargets
  { phii := st.phii, phit := wt, fields := st.lf, yield := ‖sum‖, laserObj := st.obj, objective := sum.re - st.obj }

/-- The part of a pass of the main loop before the report (src/ProgOCT.cpp:1033-1052). -/
def iteration (c : Setup V) (psiI psiT : Nat → V) (first : Bool) (st : St V) : St V :=
  let st := if c.method = .rabitzfb ∧ first = false then st
    else { st with phii := psiI, phit := if c.operators then psiI else psiT }
  let st := { st with obj := 0 }
  let st := if c.method = .rabitzfb then iterateFB c first st else iterate c psiI st
  { st with obj := st.obj * c.dt }

open Classical in
/-- The main loop (src/ProgOCT.cpp:1028-1075) with `k` iterations left; `d` is `deltaTarget`.  The result holds the
lines of the report, the state at the end and `delta`. -/
def mainLoop (c : Setup V) (psiI psiT : Nat → V) :
    Nat → Bool → ℝ → ℝ × ℝ × ℝ → St V → List (Line V) × St V × ℝ
  | 0, _, delta, _, st => ([], st, delta)
  | k + 1, first, delta, d, st =>
    if delta > c.convergence then
      let st := iteration c psiI psiT first st
      let line := report c st st.phit
      let d := (d.2.1, d.2.2, abs line.yield)
      let delta := abs (0 + abs (d.1 - d.2.1) + abs (d.2.1 - d.2.2))
      let r := mainLoop c psiI psiT k false delta d { st with lf := st.lb, lb := st.lf }
      (line :: r.1, r.2)
    else ([], st, delta)

/-- What the program leaves behind: the line for the guess, those of the iterations, the last laser file and whether
it says that convergence has been reached. -/
structure Result (V : Type) where
  guess : Line V
  lines : List (Line V)
  final : Nat → ℝ
  converged : Bool

/-- The wave functions moving targets are read from a series (src/ProgOCT.cpp:866-867, 879-883); without, the target
wave functions are those given. -/
def targets (c : Setup V) (psiT : Nat → V) (series : Nat → Nat → V) : Nat → V :=
  if c.moving && !c.operators then fun t => series t c.steps else psiT

/-- The state at the begin of the main loop and the line of the report for the guess (src/ProgOCT.cpp:835-841,
857-883, 933-936, 1014-1019).  The new wave functions `phii` and `phit` have no values before they are set; the model
takes the initial ones. -/
def start (c : Setup V) (psiI psiT : Nat → V) (series : Nat → Nat → V) (guess : Fields) (buf0 : Buf V) :
    Line V × St V :=
  let b := if c.moving && !c.operators then fun t p => if p ≤ c.steps then series t p else buf0 t p else buf0
  let r := propagateForward c guess psiI b
  let st : St V := { lf := guess, lb := guess, buf := r.2, obj := 0, phii := r.1, phit := psiI }
  (report c st (targets c psiT series), st)

open Classical in
/-- `Run` behind the initialisation (src/ProgOCT.cpp:1013-1083). -/
def run (c : Setup V) (psiI psiT : Nat → V) (series : Nat → Nat → V) (guess : Fields) (buf0 : Buf V) : Result V :=
  let s := start c psiI psiT series guess buf0
  let r := mainLoop c psiI (targets c psiT series) c.iterations true 1 (1, 1, 1) s.2
  { guess := s.1, lines := r.1, final := r.2.1.lb 0, converged := decide (r.2.2 ≤ c.convergence) }

end

end QDng.Oct
