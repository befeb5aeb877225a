import Mathlib.Data.Real.Basic
import Mathlib.Algebra.Order.Floor.Defs
import Mathlib.Algebra.Order.Round
import Mathlib.Data.Real.Archimedean
import Verif.Common.Outcome

/-
Model of the clock, src/tools/QDClock.cpp.  Times are exact real numbers instead of floating point numbers; a
division by zero gives no finite number and the difference in `Sync` is then not zero.  Step numbers are `int`
with 32 bits; leaving that range is undefined behaviour.
-/

namespace QDng.Clock

open QDng.Common
open Classical

/-- `QDClock` (src/tools/QDClock.h:15-17). -/
structure Clock where
  dt : ℝ
  nsteps : Int
  step : Int

/-- Constructors (src/tools/QDClock.cpp:11-13). -/
def Clock.new (steps : Int) (dt : ℝ) : Clock := { dt := dt, nsteps := steps, step := 0 }

/-- A result of type `int` (used for src/tools/QDClock.cpp:85, 93, 102, 127). -/
def int {A : Type} (z : Int) (k : A) : Out A := if -2 ^ 31 ≤ z ∧ z < 2 ^ 31 then .ok k else .ub

/-- `Time()` (src/tools/QDClock.cpp:34-37). -/
def Clock.time (c : Clock) : ℝ := c.step * c.dt

/-- `TimeStep(step)` (src/tools/QDClock.cpp:50-53). -/
def Clock.setStep (c : Clock) (s : Int) : Clock := { c with step := s }

/-- `Dt(dt)` (src/tools/QDClock.cpp:26-29). -/
def Clock.setDt (c : Clock) (dt : ℝ) : Clock := { c with dt := dt }

/-- `Steps(n)` (src/tools/QDClock.cpp:66-69). -/
def Clock.setSteps (c : Clock) (n : Int) : Clock := { c with nsteps := n }

/-- `Begin()` (src/tools/QDClock.cpp:75-78). -/
def Clock.begin' (c : Clock) : Clock := { c with step := 0 }

/-- `End()` (src/tools/QDClock.cpp:83-86). -/
def Clock.end' (c : Clock) : Out Clock := int (c.nsteps - 1) { c with step := c.nsteps - 1 }

/-- `operator++` (src/tools/QDClock.cpp:91-95). -/
def Clock.inc (c : Clock) : Out Clock := int (c.step + 1) { c with step := c.step + 1 }

/-- `operator--` (src/tools/QDClock.cpp:100-104). -/
def Clock.dec (c : Clock) : Out Clock := int (c.step - 1) { c with step := c.step - 1 }

/-- `operator=` (src/tools/QDClock.cpp:109-115). -/
def Clock.assign (_c other : Clock) : Clock := { dt := other.dt, nsteps := other.nsteps, step := other.step }

/-- `Sync(master)` (src/tools/QDClock.cpp:120-128). -/
noncomputable def Clock.sync (c master : Clock) : Out Clock :=
  if c.dt = 0 then .threw c
  else
    let step := master.time / c.dt
    if step - round step ≠ 0 then .threw c
    else int (if 0 ≤ step then ⌊step⌋ else ⌈step⌉) { c with step := if 0 ≤ step then ⌊step⌋ else ⌈step⌉ }

end QDng.Clock
