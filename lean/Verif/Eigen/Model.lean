import Verif.Peak.Model
import Mathlib.Analysis.InnerProductSpace.Basic
import Mathlib.Analysis.SpecialFunctions.Complex.Circle
import Mathlib.Analysis.SpecialFunctions.Trigonometric.Basic
import Mathlib.LinearAlgebra.Matrix.Defs

/-
Model of the calculation of eigenfunctions: src/ProgEigen.cpp.

Wave functions are vectors of a complex inner product space, in exact arithmetic.  A wave function that is not a number (the result of
the normalization of the zero function) is `none`; every operation on it, the energy in particular, is not a number again.  The
propagator is a parameter, the discrete Fourier transform of FFTW and the diagonalization routine of LAPACK are described by what they
compute.
-/

namespace QDng.Eigen

variable {V : Type} [NormedAddCommGroup V] [InnerProductSpace ℂ V]

/-- `Normalize()` (src/qdlib/WaveFunction.h:94-106). -/
noncomputable def normalize (ψ : V) : Option V :=
  open Classical in if ψ = 0 then none else some (((1 / ‖ψ‖ : ℝ) : ℂ) • ψ)

/-- `Apply(dest, source)` of the projector (src/qdlib/OProjection.cpp:133-141) with the sign `+1` and not inverted, as `ProgEigen` creates
it (src/ProgEigen.cpp:38, 339-346). -/
noncomputable def project (S : List V) (ψ : V) : V := S.foldl (fun d φ => d + (inner ℂ φ ψ : ℂ) • φ) 0

/-- `Expec(Psi)` (src/qdlib/Operator.h:226-252). -/
noncomputable def expec (H : V → V) (ψ : V) : ℝ := (inner ℂ ψ (H ψ) : ℂ).re

/-- One round of the relaxation up to the normalization (src/ProgEigen.cpp:371-378). -/
noncomputable def relaxStep (U : V → V) (lower : Bool) (S : List V) (ψ : V) : Option V :=
  normalize (if lower then U ψ - project S (U ψ) else U ψ)

/-- The relaxation loop (src/ProgEigen.cpp:366-383): the number of steps left, the step `s`, `diff` and the function; the propagator may
depend on the time step.  If the function is not a number `diff` is not a number and the loop ends. -/
noncomputable def relax (U : Nat → V → V) (conv : ℝ) (lower : Bool) (S : List V) : Nat → Nat → ℝ → V → Option V
  | 0, _, _, ψ => some ψ
  | n + 1, s, diff, ψ =>
    if diff > conv then (relaxStep (U s) lower S ψ).bind fun ψ' => relax U conv lower S n (s + 1) ‖(1 : ℂ) - inner ℂ ψ ψ'‖ ψ'
    else some ψ

/-- What `ImagTimeEF` changes (src/ProgEigen.cpp:384-387): the projector, the files written and the energies.  In every round the
projector has just `i` functions (`Set(i, Psi)` appends). -/
structure St (V : Type) where
  P : List V
  files : List (Option V)
  energies : List ℝ

/-- The end of the calculation: regular or with an exception. -/
inductive Res (V : Type) where
  | ok (st : St V)
  | threw (st : St V)

/-- The body of the loop over the eigenfunctions behind the relaxation (src/ProgEigen.cpp:384-390). -/
noncomputable def store (H : V → V) (st : St V) : Option V → Res V
  | none => .threw { st with files := st.files ++ [none] }
  | some ψ => .ok { P := st.P ++ [ψ], files := st.files ++ [some ψ], energies := st.energies ++ [expec H ψ] }

/-- The loop over the eigenfunctions (src/ProgEigen.cpp:363-403): the number left and the number `i`. -/
noncomputable def efLoop (U : Nat → V → V) (H : V → V) (conv : ℝ) (maxSteps : Nat) (ψ0 : V) : Nat → Nat → St V → Res V
  | 0, _, st => .ok st
  | n + 1, i, st =>
    match store H st (relax U conv (decide (0 < i)) st.P maxSteps 0 1 ψ0) with
    | .ok st' => efLoop U H conv maxSteps ψ0 n (i + 1) st'
    | .threw st' => .threw st'

/-- `ImagTimeEF` (src/ProgEigen.cpp:318-409): with `start > 0` the first functions are read from the files of an earlier run. -/
noncomputable def imagTime (U : Nat → V → V) (H : V → V) (conv : ℝ) (maxSteps nef start : Nat) (disk : List V) (ψ0 : V) : Res V :=
  if (disk.take start).length ≠ start then .threw { P := disk.take start, files := [], energies := [] }
  else efLoop U H conv maxSteps ψ0 (nef - start) start
    { P := disk.take start, files := [], energies := (disk.take start).map (expec H) }

/-- The checks of the parameters for the method `imag` (src/ProgEigen.cpp:174-184, 200-201, 234-235). -/
noncomputable def paramsOk (nef start steps : Int) (conv : ℝ) : Bool :=
  open Classical in !(nef < 1) && !(start < 0) && !(start > nef) && !(decide (conv > 1)) && !(steps < 1)

/-- `Run()` with the method `imag` (src/ProgEigen.cpp:663, 703, 715-718). -/
noncomputable def runImag (U : Nat → V → V) (H : V → V) (conv : ℝ) (steps nef start : Int) (disk : List V) (ψ0 : V) : Res V :=
  if paramsOk nef start steps conv then
    match normalize ψ0 with
    | some ψ => imagTime U H conv steps.toNat nef.toNat start.toNat disk ψ
    | none => .threw { P := [], files := [], energies := [] }
  else .threw { P := [], files := [], energies := [] }

/-! ### Eigenfunctions from the autocorrelation -/

/-- `autocorr` (src/ProgEigen.cpp:444-452, 525-529) of the functions `traj 0, traj 1, …`. -/
noncomputable def autocorr (traj : Nat → V) (s : Nat) : ℂ := if s = 0 then 1 else inner ℂ (traj s) (traj 0)

/-- What the forward transform of FFTW computes (src/ProgEigen.cpp:539-543, src/fft/fft.cpp:57-71, 250-256). -/
noncomputable def dft (N : Nat) (a : Nat → ℂ) (k : Nat) : ℂ :=
  ((List.range N).map fun s => a s * Complex.exp (-(2 * Real.pi * Complex.I * s * k / N))).sum

/-- `PowerSpectrum` (src/ProgEigen.cpp:541-546); the window function is switched off (`win="no"`). -/
noncomputable def power (N : Nat) (traj : Nat → V) : List ℝ := (List.range N).map fun k => ‖dft N (autocorr traj) k‖

/-- The peaks (src/ProgEigen.cpp:548-550); `width` is `none` if it is not positive. -/
noncomputable def peaks (tol : ℝ) (width : Option Nat) (data : List ℝ) : List Int :=
  match width with
  | some w => (Peak.findWindow Real.sqrt tol w data).map fun i : Nat => Int.ofNat i
  | none => Peak.find Real.sqrt tol data

/-- The energy that belongs to a peak (src/ProgEigen.cpp:570-575) with the time step and the number of steps of the clock. -/
noncomputable def energyOf (clockDt : ℝ) (clockSteps N : Nat) (index : Int) : ℝ :=
  if index < ((N / 2 : Nat) : Int) then (index : ℝ) * (2 * Real.pi / (clockDt * clockSteps))
  else ((index - (N : Int) : Int) : ℝ) * (2 * Real.pi / (clockDt * clockSteps))

/-- The time integration (src/ProgEigen.cpp:578-581). -/
noncomputable def integrate (dt E : ℝ) (traj : Nat → V) : Nat → Nat → V → V
  | 0, _, ψ => ψ
  | n + 1, s, ψ => integrate dt E traj n (s + 1) (ψ + Complex.exp (Complex.I * (E * s * dt : ℝ)) • traj s)

/-- One eigenfunction: the estimate of the energy, the normalized function and its energy (src/ProgEigen.cpp:564-585). -/
noncomputable def extract (clockDt : ℝ) (clockSteps : Nat) (dt : ℝ) (N : Nat) (H : V → V) (traj : Nat → V) (index : Int) :
    ℝ × Option V × Option ℝ :=
  let E := energyOf clockDt clockSteps N index
  let ψ := normalize (integrate dt E traj (N - 1) 1 (traj 0))
  (E, ψ, ψ.map (expec H))

/-- `AutoCorrEF` (src/ProgEigen.cpp:414-602) behind the propagation. -/
noncomputable def autoCorrEF (clockDt : ℝ) (clockSteps : Nat) (dt tol : ℝ) (width : Option Nat) (N : Nat) (H : V → V) (traj : Nat → V) :
    List (ℝ × Option V × Option ℝ) :=
  (peaks tol width (power N traj)).map (extract clockDt clockSteps dt N H traj)

/-- The functions of the propagation (src/ProgEigen.cpp:440-463). -/
def propagated (U : V → V) (ψ0 : V) : Nat → V
  | 0 => ψ0
  | s + 1 => U (propagated U ψ0 s)

/-- `AutoCorrEF` without `read` (src/ProgEigen.cpp:436-465): the clock has the time step and the number of steps of the propagation
(src/ProgEigen.cpp:240-241). -/
noncomputable def runAutocorr (dt tol : ℝ) (width : Option Nat) (N : Nat) (H U : V → V) (ψ0 : V) : List (ℝ × Option V × Option ℝ) :=
  autoCorrEF dt N dt tol width N H (propagated U ψ0)

/-- `AutoCorrEF` with `read` (src/ProgEigen.cpp:466-530): the functions, their number and their time step come from the disk, the clock
keeps the values of the input. -/
noncomputable def runRead (inputDt : ℝ) (inputSteps : Nat) (fileDt tol : ℝ) (width : Option Nat) (N : Nat) (H : V → V) (files : Nat → V) :
    List (ℝ × Option V × Option ℝ) :=
  autoCorrEF inputDt inputSteps fileDt tol width N H files

/-! ### Diagonalization in the basis of the functions found -/

/-- The matrix (src/ProgEigen.cpp:100-112): the upper triangle and the diagonal. -/
noncomputable def hMatrix {n : Nat} (H : V → V) (P : Fin n → V) (raw : Fin n → ℝ) : Matrix (Fin n) (Fin n) ℝ := fun r c =>
  if r < c then (inner ℂ (P c) (H (P r)) : ℂ).re else if r = c then raw r else 0

/-- The matrix that LAPACK takes from the upper triangle (src/linalg/LapackDiag.cpp:36-42). -/
def symm {n : Nat} (M : Matrix (Fin n) (Fin n) ℝ) : Matrix (Fin n) (Fin n) ℝ := fun r c => if r ≤ c then M r c else M c r

/-- The linear combinations (src/ProgEigen.cpp:122-129). -/
noncomputable def combine {n : Nat} (P : Fin (n + 1) → V) (S : Matrix (Fin (n + 1)) (Fin (n + 1)) ℝ) (i : Fin (n + 1)) : V :=
  (List.finRange n).foldl (fun ψ j => ψ + ((S j.succ i : ℝ) : ℂ) • P j.succ) (((S 0 i : ℝ) : ℂ) • P 0)

end QDng.Eigen
