import Mathlib.Data.Real.Basic

/-!
# Model of the energy bounds of the Raman operator and of the seed of the quantum jump operator

Sources: `/repo/src/qdlib/OGridRaman.cpp:36-54`, `/repo/src/math/math_functions.cpp:23-31`,
`/repo/src/qdlib/OJump.cpp:25-46`.

Simplifications: exact arithmetic; a vector is its first element and the others; the parameter `seed` can be read.
-/

namespace QDng.RamSeed

/-- `VecMax` (`/repo/src/math/math_functions.cpp:23-31`). -/
noncomputable def vecMax : ℝ → List ℝ → ℝ
  | d, [] => d
  | d, x :: l => vecMax (open Classical in if x > d then x else d) l

/-- The polarisability on the grid and the two laser fields (`/repo/src/qdlib/OGridRaman.cpp:13`). -/
structure Raman where
  /-- the polarisability at the first point -/
  a0 : ℝ
  /-- the polarisability at the other points -/
  a : List ℝ
  /-- the first field at the first time step -/
  e0 : ℝ
  /-- the first field at the other time steps -/
  e : List ℝ
  /-- the second field at the first time step -/
  f0 : ℝ
  /-- the second field at the other time steps -/
  f : List ℝ

/-- `Emax()` (`/repo/src/qdlib/OGridRaman.cpp:36-39`). -/
noncomputable def emax (r : Raman) : ℝ := (1 / 2) * vecMax r.a0 r.a * vecMax r.e0 r.e * vecMax r.f0 r.f

/-- `Emin()` (`/repo/src/qdlib/OGridRaman.cpp:41-44`). -/
def emin (_ : Raman) : ℝ := 0

/-- The factor by which `Apply` multiplies the wave function at a point with the polarisability `x` while the fields have the
values `y` and `z` (`/repo/src/qdlib/OGridRaman.cpp:46-54`). -/
noncomputable def factor (x y z : ℝ) : ℝ := x * ((-(1 / 2)) * y * z)

/-- `OJump::Init` (`/repo/src/qdlib/OJump.cpp:25-42`): the three words that are given to `seed48`; `none` is the exception. -/
def seedWords (seed : Int) : Option (Nat × Nat × Nat) :=
  if seed < 0 then none
  else some (seed.toNat % 2 ^ 16, seed.toNat / 2 ^ 16 % 2 ^ 16, seed.toNat / 2 ^ 32 % 2 ^ 16)

end QDng.RamSeed
