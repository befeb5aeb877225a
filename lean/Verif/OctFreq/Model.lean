import Mathlib.Analysis.SpecialFunctions.Complex.Log
import Verif.GridFn.Model
import Verif.Oct.Model

/-
Model of the frequency shaping method of the optimal control program: `IterateFreq` and the main loop of
src/ProgOCT.cpp for the method freq, the transformation of a laser field to the frequency domain and back
(src/qdlib/Laser.cpp, src/fft/fft.cpp) and the frequency mask.

Everything but the shaping is shared with the model of the other methods (Verif/Oct/Model.lean), with the
simplifications told there.  The field `method` of the set-up is not looked at here.  The transformations of the FFTW
library are parameters of the program; here they are the sums the library documents (real to complex and complex to
real, without normalisation).
-/

namespace QDng.OctFreq

open QDng.Oct

noncomputable section

variable {V : Type} [NormedAddCommGroup V] [InnerProductSpace ℂ V]

/-! ### Transformation of a field -/

/-- The factor of the transformation. -/
def tw (N j k : Nat) : ℂ := Complex.exp (-(2 * Real.pi * Complex.I / N)) ^ (j * k)

/-- `FFT::forward` for real data (src/fft/fft.cpp:257-259, src/qdlib/Laser.cpp:89): component `k` of the spectrum. -/
def r2c (N : Nat) (x : Nat → ℝ) (k : Nat) : ℂ := ∑ j ∈ Finset.range N, (x j : ℂ) * tw N j k

/-- The library has only the components up to `N / 2`, the others are their conjugates. -/
def half (N : Nat) (X : Nat → ℂ) (k : Nat) : ℂ := if k ≤ N / 2 then X k else (starRingEnd ℂ) (X (N - k))

/-- `FFT::backward` to real data (src/fft/fft.cpp:280-282, src/qdlib/Laser.cpp:97-101). -/
def c2r (N : Nat) (X : Nat → ℂ) (j : Nat) : ℝ :=
  (∑ k ∈ Finset.range N, half N X k * (starRingEnd ℂ) (tw N j k)).re

/-- The values behind a transformation to the spectrum, a multiplication with `w` and the transformation back: the
`N` values in front are replaced (`downsize`, src/qdlib/Laser.cpp:84). -/
def filtered (N : Nat) (w : Nat → ℝ) (src dst : Nat → ℝ) (j : Nat) : ℝ :=
  if j < N then c2r N (fun k => r2c N src k * (w k : ℂ)) j else dst j

/-! ### The iteration -/

/-- What the iterations change.  `crossed`: a `Laser` makes the object for its transformations when `Spectrum` is
called for the first time (src/qdlib/Laser.cpp:81-92), and this object keeps the address of the storage
(src/fft/fft.cpp:132-134).  An exchange of the fields (`Vector::swap`, src/math/Vector.h:364-376) exchanges the storage, but not these
objects.  `some true`: the objects of `_laserf[0]` and `_laserb[0]` work on the storage of the other one. -/
structure FSt (V : Type) extends St V where
  crossed : Option Bool

/-- `_laserb[l]->swap(*(_laserf[l]))` at the end of an iteration (src/ProgOCT.cpp:1069-1071). -/
def exchange (st : FSt V) : FSt V := { st with lf := st.lb, lb := st.lf, crossed := st.crossed.map (!·) }

/-- Shaping of the old field (src/ProgOCT.cpp:715-731). -/
def shapeOld (N : Nat) (mask : Nat → ℝ) (st : FSt V) : FSt V :=
  let f0 := st.lb 0
  let b0 := st.lb 0
  let cr := st.crossed.getD false
  let w := fun k => mask k / N
  /- the storage the object of `_laserf[0]`, `_laserb[0]` works on -/
  let sf := if cr then b0 else f0
  let sb := if cr then f0 else b0
  let f1 := filtered N w sf sf
  let b1 := filtered N w sb sb
  let lf0 := if cr then b1 else f1
  let lb0 := if cr then f1 else b1
  { st with lf := fun _ => lf0, lb := fun _ => lb0, crossed := some cr }

/-- A pass of the loop that determines the correction field at time step `s` (src/ProgOCT.cpp:740-762), with the
shaped lasers `f`.  The third part are the values of `_gamma[0]`. -/
def gammaPass (c : Setup V) (f : Fields) (buf : Buf V) (s : Nat) (a : (Nat → V) × (Nat → V) × (Nat → ℝ)) :
    (Nat → V) × (Nat → V) × (Nat → ℝ) :=
  let g := calcCorr c a.1 (if c.moving then fun t => buf t s else a.2.1)
  let phii := fun t => stepF c f s (a.1 t)
  let phit := fun t => if c.moving then (match c.gobbler with | none => a.2.1 t | some g => g (a.2.1 t))
    else stepF c f s (a.2.1 t)
  (phii, phit, fun p => if p = s then g else a.2.2 p)

/-- The loop for the correction field (src/ProgOCT.cpp:739-762). -/
def gammaLoop (c : Setup V) (f : Fields) (buf : Buf V) :
    Nat → Nat → (Nat → V) × (Nat → V) × (Nat → ℝ) → (Nat → V) × (Nat → V) × (Nat → ℝ)
  | 0, _, a => a
  | k + 1, s, a => gammaLoop c f buf k (s + 1) (gammaPass c f buf s a)

/-- The result of `CalcLaserField` for the method freq (src/ProgOCT.cpp:349-351). -/
def freqField (c : Setup V) (gamma : Nat → ℝ) (s : Nat) (lb : Fields) (im : ℝ) : ℝ :=
  lb 0 s - c.shape s / (c.alpha * c.ntargets) * (im + gamma s)

/-- What `CalcLaserField` adds to `_laserobj[0]` for the method freq (src/ProgOCT.cpp:352). -/
def freqObj (c : Setup V) (s : Nat) (im : ℝ) : ℝ := (c.shape s / c.alpha * im) * (c.shape s / c.alpha * im)

/-- A pass of the second loop of `IterateFreq` at time step `s` (src/ProgOCT.cpp:778-797). -/
def freqPass (c : Setup V) (gamma : Nat → ℝ) (s : Nat) (st : FSt V) : FSt V :=
  let im := calcCorr c st.phii (fun t => st.buf t s)
  let lf := setField st.lf s (freqField c gamma s st.lb im)
  { st with lf := lf, obj := st.obj + freqObj c s im, phii := fun t => stepF c lf s (st.phii t) }

/-- The second loop of `IterateFreq` (src/ProgOCT.cpp:777-797). -/
def freqLoop (c : Setup V) (gamma : Nat → ℝ) : Nat → Nat → FSt V → FSt V
  | 0, _, st => st
  | k + 1, s, st => freqLoop c gamma k (s + 1) (freqPass c gamma s st)

/-- The correction field behind the band stop filter (src/ProgOCT.cpp:764-769). -/
def bandStop (N : Nat) (mask : Nat → ℝ) (g : Nat → ℝ) : Nat → ℝ := filtered N (fun k => (1 - mask k) / N) g g

/-- `IterateFreq` (src/ProgOCT.cpp:706-798). -/
def iterateFreq (c : Setup V) (mask : Nat → ℝ) (psiI : Nat → V) (st : FSt V) : FSt V :=
  let st := shapeOld c.steps mask st
  let st := { st with toSt := syncTarget c st.toSt }
  let g := gammaLoop c st.lf st.buf c.steps 0 (st.phii, st.phit, fun _ => 0)
  freqLoop c (bandStop c.steps mask g.2.2) c.steps 0 { st with phii := psiI, phit := g.2.1 }

/-- The part of a pass of the main loop before the report (src/ProgOCT.cpp:1033-1050). -/
def freqIteration (c : Setup V) (mask : Nat → ℝ) (psiI psiT : Nat → V) (st : FSt V) : FSt V :=
  let st := iterateFreq c mask psiI { st with phii := psiI, phit := if c.operators then psiI else psiT, obj := 0 }
  { st with obj := st.obj * c.dt }

open Classical in
/-- The main loop for the method freq (src/ProgOCT.cpp:1031-1075), see `Oct.mainLoop`. -/
def freqMainLoop (c : Setup V) (mask : Nat → ℝ) (psiI psiT : Nat → V) :
    Nat → ℝ → ℝ × ℝ × ℝ → FSt V → List (Line V) × FSt V × ℝ
  | 0, delta, _, st => ([], st, delta)
  | k + 1, delta, d, st =>
    if delta > c.convergence then
      let st := freqIteration c mask psiI psiT st
      let line := report c st.toSt st.phit
      let d := (d.2.1, d.2.2, abs line.yield)
      let delta := abs (0 + abs (d.1 - d.2.1) + abs (d.2.1 - d.2.2))
      let r := freqMainLoop c mask psiI psiT k delta d (exchange st)
      (line :: r.1, r.2)
    else ([], st, delta)

open Classical in
/-- `Run` behind the initialisation for the method freq (src/ProgOCT.cpp:1012-1084). -/
def freqRun (c : Setup V) (mask : Nat → ℝ) (psiI psiT : Nat → V) (series : Nat → Nat → V) (guess : Fields)
    (buf0 : Buf V) : Result V :=
  let s := start c psiI psiT series guess buf0
  let r := freqMainLoop c mask psiI (targets c psiT series) c.iterations 1 (1, 1, 1) { s.2 with crossed := none }
  { guess := s.1, lines := r.1, final := r.2.1.lb 0, converged := decide (r.2.2 ≤ c.convergence) }

/-! ### The mask -/

/-- The frequency as a position in the spectrum (src/ProgOCT.cpp:147, 158). -/
def cutoff (steps : Nat) (dt f : ℝ) : ℝ := |f| * ((steps : ℝ) - 1) * dt / (2 * Real.pi)

open GridFn (Num bwHigh bwLow mulNum) in
/-- The values of the mask: ones, multiplied with the high pass for the lower bound and with the low pass for the upper
bound (src/ProgOCT.cpp:139-165). -/
def maskOf (steps : Nat) (dt : ℝ) (freql freqh : Option ℝ) (i : Nat) : Num :=
  let m := match freql with
    | none => some 1
    | some f => mulNum (some 1) (bwHigh (cutoff steps dt f) 100 i)
  match freqh with
  | none => m
  | some f => mulNum m (bwLow (cutoff steps dt f) 100 i)

open GridFn (Num) in
open Classical in
/-- The mask from the parameters `freql` and `freqh` (src/ProgOCT.cpp:137-166), `none`: refused.  The bound
`steps / 2 + 1` is an integer division. -/
def buildMask (steps : Nat) (dt : ℝ) (freql freqh : Option ℝ) : Option (Nat → Num) :=
  if freql = none ∧ freqh = none then none
  else if ∃ f, freql = some f ∧ cutoff steps dt f > ((steps / 2 + 1 : Nat) : ℝ) then none
  else if ∃ f, freqh = some f ∧ cutoff steps dt f > ((steps / 2 + 1 : Nat) : ℝ) then none
  else some (maskOf steps dt freql freqh)

end

end QDng.OctFreq
