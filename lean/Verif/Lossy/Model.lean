import Verif.Deriv.Model
import Mathlib.Analysis.SpecialFunctions.Pow.Real

/-
Model of the lossy part of the compression of wave functions: `Reduce` and `Restore` of the wave
functions on a grid and of the level wave functions (src/qdlib/WFGridSystem.cpp:28-46, 90-137,
src/qdlib/WFLevel.cpp:72-133, src/qdlib/WaveFunction.h:94-128, src/math/math_functions.cpp:53-61,
src/fft/fft.cpp:82-122, src/fft/FFTGlobal.cpp:42-75), as called when a compressed file is written and
read (src/qdlib/FileWF.cpp:138-150, 213-225, 284-296).

Double precision numbers are modelled as real numbers.  The Fourier transform is the model of
`Verif.Deriv.Model`.  The compression by the libraries themselves, which loses nothing, and the file
are the subject of C222 and C228.
-/

namespace QDng.Lossy

open QDng.Deriv

/-! ### The Fourier library -/

/-- The flags for the search of a plan (src/fft/FFTGlobal.cpp:45-48). -/
inductive Flag where
  | estimate
  | measure
  | patient
  deriving DecidableEq, Repr

/-- Models the choice of the flag in `FFTGlobal::FFTGlobal` from the option `fftwOptimize` and the
presence of a file with wisdom (src/fft/FFTGlobal.cpp:42-75). -/
def chooseFlag (optimize wisdomFile : Bool) : Flag :=
  if wisdomFile then .measure else if optimize then .patient else .estimate

/-- The library FFTW as seen by a constructor of a transform: the flag, whether wisdom is present for
the forward and the backward transform, and what the search for a plan leaves in the output array:
with other flags than FFTW_ESTIMATE both arrays are overwritten according to its documentation
(called in src/fft/fft.cpp:98-118). -/
structure Lib (s : Space) where
  flag : Flag
  knowsForward : Bool
  knowsBackward : Bool
  junkForward : s.Wf
  junkBackward : s.Wf

/-- The content of an array that is not saved after the search for a plan
(src/fft/fft.cpp:98-108, 112-120). -/
def searched {s : Space} (flag : Flag) (knows : Bool) (junk k : s.Wf) : s.Wf :=
  if knows then k else if flag = .estimate then k else junk

/-! ### Wave functions on a grid -/

/-- A wave function on a grid: the array for the coordinate space and the one for the momentum space
(the vector itself and `_spacebuffer`, which are swapped by `IsKspace(bool)`), the flag `_IsKspace`,
whether the object has a transform, and whether the arrays have the size of the grid already
(src/qdlib/WaveFunction.h:37-43, 118-128, src/qdlib/WFGridSystem.h:26-40). -/
structure Obj (s : Space) where
  x : s.Wf
  k : s.Wf
  isK : Bool
  fft : Bool
  sized : Bool

/-- The content of the vector (src/qdlib/WaveFunction.h:118-128). -/
def Obj.val {s : Space} (o : Obj s) : s.Wf := if o.isK then o.k else o.x

/-- Models the constructor of a transform (src/fft/fft.cpp:82-122): the input array, which is always
the one of the coordinate space (src/qdlib/WFGridSystem.cpp:40-44), is saved, the output array is
not. -/
def Obj.plan {s : Space} (lib : Lib s) (o : Obj s) : Obj s :=
  let k1 := searched lib.flag lib.knowsForward lib.junkForward o.k
  let k2 := searched lib.flag lib.knowsBackward lib.junkBackward k1
  { o with k := k2, fft := true }

/-- Models `WFGridSystem::CheckFFT` (src/qdlib/WFGridSystem.cpp:28-46): arrays of another size are
replaced and the transform with them. -/
def Obj.checkFFT {s : Space} (lib : Lib s) (o : Obj s) : Obj s :=
  let o := if o.sized then o else { o with sized := true, fft := false }
  if o.fft then o else o.plan lib

/-- Models `WaveFunction::IsKspace(bool)` (src/qdlib/WaveFunction.h:118-128). -/
def Obj.setK {s : Space} (b : Bool) (o : Obj s) : Obj s := { o with isK := b }

/-- The points of the grid in some order (the order of the array does not matter for the loops
below). -/
noncomputable def points (s : Space) : List s.Pt := Finset.univ.toList

/-- Models `VecMax(cVec&)` (src/math/math_functions.cpp:53-61).  The value for the empty vector, of
which the code reads the first element, is not used. -/
noncomputable def vecMax : List ℂ → ℝ
  | [] => 0
  | a :: l => l.foldl (fun d v => if ‖v‖ > d then ‖v‖ else d) ‖a‖

/-- Models the cut of a real or imaginary part in `WFGridSystem::Reduce`
(src/qdlib/WFGridSystem.cpp:108-116). -/
noncomputable def cutPart (thr size v : ℝ) : ℝ := if |v| < thr then 0 else v / size

/-- Models `WFGridSystem::Reduce` (src/qdlib/WFGridSystem.cpp:90-122): the new data and the object
afterwards. -/
noncomputable def Obj.reduce {s : Space} (lib : Lib s) (tol : ℝ) (o : Obj s) : s.Wf × Obj s :=
  let o := o.checkFFT lib
  let o := { o with k := forward s o.x }
  let o := o.setK true
  let thr := vecMax ((points s).map o.val) * tol
  let res : s.Wf := fun i =>
    ⟨cutPart thr (s.size : ℝ) (o.val i).re, cutPart thr (s.size : ℝ) (o.val i).im⟩
  (res, o.setK false)

/-- Models `WFGridSystem::Restore` (src/qdlib/WFGridSystem.cpp:124-137) of data on the grid `s`. -/
noncomputable def Obj.restore {s : Space} (lib : Lib s) (data : s.Wf) (o : Obj s) : Obj s :=
  let o := o.setK true
  let o := { o with k := data }
  let o := o.checkFFT lib
  let o := { o with x := backward s o.k }
  o.setK false

/-! ### Level wave functions -/

/-- Models `WFLevel::operator*` (src/qdlib/WFLevel.cpp:73-91) of a wave function with itself. -/
noncomputable def levelDot (psi : List ℂ) : ℂ :=
  psi.foldl (fun c a => c + (starRingEnd ℂ) a * a) 0

/-- Models `WaveFunction::Norm` of a level wave function (src/qdlib/WaveFunction.h:94-101). -/
noncomputable def levelNorm (psi : List ℂ) : ℝ := Real.sqrt (levelDot psi).re

/-- Models the cut of a real or imaginary part in `WFLevel::Reduce`
(src/qdlib/WFLevel.cpp:112-120). -/
noncomputable def levelCut (norm v : ℝ) : ℝ := if v < norm then 0 else v

/-- Models `WFLevel::Reduce` (src/qdlib/WFLevel.cpp:102-124). -/
noncomputable def levelReduce (tol : ℝ) (psi : List ℂ) : List ℂ :=
  let norm := levelNorm psi / (psi.length : ℝ) * tol
  psi.map fun a => ⟨levelCut norm a.re, levelCut norm a.im⟩

/-- Models `WFLevel::Restore` (src/qdlib/WFLevel.cpp:126-133): the content becomes that of the
stored object. -/
def levelRestore (data : List ℂ) (_ : List ℂ) : List ℂ := data

end QDng.Lossy
