import Mathlib.Analysis.InnerProductSpace.Basic
import Mathlib.Analysis.SpecialFunctions.Trigonometric.Basic
import Verif.Common.Outcome

/-
Model of the report of a propagation and of the spectrum written at its end, src/Reporter.cpp.

Wave functions are vectors of a complex inner product space; `*Psi * Phi` is the scalar product conjugating `Psi`
(src/qdlib/WFLevel.cpp:85, src/qdlib/WFGridCartesian.cpp:62-110).  Numbers are exact.  A quotient with divisor zero
is not a finite number; it is `none` here.  The only source of a norm that is no number is floating point, so the
test of line 112 is a parameter.  The text layout of the table is not modelled, only the reported values.
The Fourier transform is the one FFTW documents for `FFTW_FORWARD`:  `Y_k = Σ_j X_j exp(-2πi jk/N)`.
-/

namespace QDng.Report

open QDng.Common
open Complex

variable {V : Type} [NormedAddCommGroup V] [InnerProductSpace ℂ V]

/-- The members of `Reporter` that matter here (src/Reporter.h:24-45).  `buf` is `_specbuf`; an entry `none` has not
been written since it was allocated.  `table` lists the reported projections. -/
structure Reporter (V : Type) where
  psi0 : Option V
  proj0 : Bool
  proj0Sq : Bool
  spectrum : Bool
  window : Bool
  step : Nat
  buf : List (Option ℂ)
  table : List ℂ

/-- Constructor (src/Reporter.cpp:14-18). -/
def Reporter.new (V : Type) : Reporter V :=
  { psi0 := none, proj0 := false, proj0Sq := false, spectrum := false, window := true, step := 0, buf := [],
    table := [] }

/-- `PsiInitial` (src/Reporter.cpp:35-51): a copy is kept. -/
def Reporter.psiInitial (r : Reporter V) (psi : V) : Reporter V := { r with psi0 := some psi }

/-- `Proj0` (src/Reporter.h:84). -/
def Reporter.setProj0 (r : Reporter V) (on : Bool) : Reporter V := { r with proj0 := on }

/-- `Proj0Square` (src/Reporter.h:87). -/
def Reporter.setProj0Sq (r : Reporter V) (on : Bool) : Reporter V := { r with proj0Sq := on, proj0 := on || r.proj0 }

/-- `Spectrum(name)` (src/Reporter.cpp:223-228). -/
def Reporter.setSpectrum (r : Reporter V) : Reporter V := { r with spectrum := true, proj0 := true }

/-- `Window` (src/Reporter.h:101). -/
def Reporter.setWindow (r : Reporter V) (on : Bool) : Reporter V := { r with window := on }

/-- The number kept for one wave function (src/Reporter.cpp:137-149). -/
noncomputable def Reporter.projection (r : Reporter V) (psi psi0 : V) : ℂ :=
  if r.proj0Sq then ((‖inner ℂ psi psi0‖ * ‖inner ℂ psi psi0‖ : ℝ) : ℂ) else inner ℂ psi psi0

/-- `_specbuf[_step-1] = …` (src/Reporter.cpp:143-149); `step` is already increased. -/
def Reporter.store (r : Reporter V) (z : ℂ) : Out (Reporter V) :=
  if r.spectrum then
    if r.step - 1 < r.buf.length then .ok { r with buf := r.buf.set (r.step - 1) (some z) } else .ub
  else .ok r

/-- `Analyze` (src/Reporter.cpp:64-154); `steps` is `clock->Steps()`, `bad` the test of line 112. -/
noncomputable def Reporter.analyze (bad : V → Bool) (steps : Int) (psi : V) (r : Reporter V) : Out (Reporter V) :=
  if r.step = 0 ∧ steps < 0 then .ub
  else
    let r : Reporter V := { r with buf := if r.step = 0 then List.replicate steps.toNat none else r.buf }
    let r : Reporter V := { r with step := r.step + 1 }
    if bad psi then .threw r
    else if r.proj0 then
      match r.psi0 with
      | none => .ub
      | some psi0 =>
        let z := r.projection psi psi0
        Reporter.store { r with table := r.table ++ [z] } z
    else .ok r

/-- Calls of `Analyze` for a list of wave functions, as in src/ProgPropa.cpp:320-323. -/
noncomputable def Reporter.analyzeAll (bad : V → Bool) (steps : Int) : List V → Reporter V → Out (Reporter V)
  | [], r => .ok r
  | psi :: l, r => (r.analyze bad steps psi).bind (Reporter.analyzeAll bad steps l)

/-- `FunctionGenerator::Hann` (src/math/math_functions.h:108-113), entry `n` of `size`.  For one entry the quotient
is 0/0; the entry is then no number. -/
noncomputable def hann (size n : Nat) (z : ℂ) : Option ℂ :=
  if size = 1 then none
  else some (z * ((0.5 * (1 - Real.cos (2 * Real.pi * n / ((size : ℝ) - 1))) : ℝ) : ℂ))

/-- The forward transform of FFTW (src/Reporter.cpp:172, src/fft/fft.cpp:61). -/
noncomputable def dft (x : List ℂ) (k : Nat) : ℂ :=
  ∑ j : Fin x.length, x[j] * exp (-(2 * Real.pi * I * (j : ℕ) * k / x.length))

/-- One line of the spectrum file; `none` is a number that is not finite. -/
structure Line where
  freq : Option ℝ
  abs : Option ℝ
  re : Option ℝ
  im : Option ℝ

/-- `x / (N/2)` with the integer quotient `N/2` (src/Reporter.cpp:184-186). -/
noncomputable def half (N : Nat) (x : ℝ) : Option ℝ := if N / 2 = 0 then none else some (x / ((N / 2 : Nat) : ℝ))

/-- `dw` (src/Reporter.cpp:175). -/
noncomputable def dw (dt : ℝ) (N : Nat) : Option ℝ :=
  if dt * N = 0 then none else some (2 * Real.pi / (dt * N))

/-- The frequency of line `i` (src/Reporter.cpp:179-182). -/
noncomputable def freq (dt : ℝ) (N i : Nat) : Option ℝ :=
  (dw dt N).map fun d => if i < N / 2 then (i : ℝ) * d else -(((N : ℝ) - i)) * d

/-- Line `i` of the file (src/Reporter.cpp:177-187). -/
noncomputable def line (dt : ℝ) (x : List ℂ) (i : Nat) : Line :=
  { freq := freq dt x.length i
    abs := half x.length ‖dft x i‖
    re := half x.length (dft x i).re
    im := half x.length (dft x i).im }

/-- Result of writing the spectrum. -/
inductive SpecOut where
  | lines (l : List Line)
  | nothing
  | terminated
  | ub

/-- `WriteSpectrum` (src/Reporter.cpp:160-192).  `opens`: the file could be opened.  Otherwise `throw;` without an
exception being handled calls `std::terminate` (line 170), the handler of line 190 is not reached. -/
noncomputable def writeSpectrum (opens : Bool) (dt : ℝ) (x : List ℂ) : SpecOut :=
  if opens then .lines ((List.range x.length).map (line dt x)) else .terminated

/-- The window over the whole buffer (src/Reporter.cpp:209-212). -/
noncomputable def windowed (x : List ℂ) : Option (List ℂ) := (x.mapIdx fun n z => hann x.length n z).mapM id

/-- `Finalize` (src/Reporter.cpp:200-217).  Entries that were never written are indeterminate.  If the window gives
no number all lines are no numbers. -/
noncomputable def Reporter.finalize (opens : Bool) (dt : ℝ) (r : Reporter V) : SpecOut :=
  if r.spectrum then
    match r.buf.mapM id with
    | none => .ub
    | some x =>
      if r.window then
        match windowed x with
        | none => if opens then .lines ((List.range x.length).map fun i => ⟨freq dt x.length i, none, none, none⟩)
          else .terminated
        | some y => writeSpectrum opens dt y
      else writeSpectrum opens dt x
  else .nothing

end QDng.Report
