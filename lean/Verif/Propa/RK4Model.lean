import Verif.Ops.Model
import Mathlib.Data.Complex.Basic
import Mathlib.Algebra.Module.Defs

/-
Model of one time step of the Runge-Kutta propagator, src/qdlib/ORK4.cpp.

Wave functions are objects in a store; `b1` to `b4` are the scratch objects (`_buf[0]` is never used).  The
Hamiltonian is a function on wave functions.  Numbers are exact.
-/

namespace QDng.Propa

open QDng.Ops

/-- The Hamiltonian, exponent and time step of the propagator (src/qdlib/ORK4.h, src/qdlib/OPropagator.h). -/
structure RK4 (V : Type) where
  h : V → V
  exponent : ℂ
  dt : ℝ

/-- One stage (src/qdlib/ORK4.cpp:64-68, 72-76, 79-83): slope at `Psi` plus `f` times the slope in `k`. -/
noncomputable def RK4.stage {V : Type} [AddCommGroup V] [Module ℂ V] (r : RK4 V) (f : ℂ) (p k d : Nat)
    (σ : Store V) : Store V :=
  let σ := put σ d (σ k)
  let σ := put σ d (f • σ d)
  let σ := put σ d (σ d + σ p)
  let σ := put σ d (r.h (σ d))
  put σ d ((r.exponent / r.dt) • σ d)

/-- `Apply(Psi)` (src/qdlib/ORK4.cpp:54-101). -/
noncomputable def RK4.applyIn {V : Type} [AddCommGroup V] [Module ℂ V] (r : RK4 V) (b1 b2 b3 b4 p : Nat)
    (σ : Store V) : Store V :=
  let σ := put σ b1 (r.h (σ p))
  let σ := put σ b1 ((r.exponent / r.dt) • σ b1)
  let σ := r.stage (0.5 * r.dt) p b1 b2 σ
  let σ := r.stage (0.5 * r.dt) p b2 b3 σ
  let σ := r.stage r.dt p b3 b4 σ
  let σ := put σ b2 ((2 : ℂ) • σ b2)
  let σ := put σ b3 ((2 : ℂ) • σ b3)
  let σ := put σ b1 (σ b1 + σ b2)
  let σ := put σ b1 (σ b1 + σ b3)
  let σ := put σ b1 (σ b1 + σ b4)
  let σ := put σ b1 (((r.dt : ℂ) / 6) • σ b1)
  put σ p (σ p + σ b1)

/-- `Apply(destPsi, sourcePsi)` (src/qdlib/ORK4.cpp:47-51): the source receives the destination and is
propagated. -/
noncomputable def RK4.apply {V : Type} [AddCommGroup V] [Module ℂ V] (r : RK4 V) (b1 b2 b3 b4 d s : Nat)
    (σ : Store V) : Store V :=
  r.applyIn b1 b2 b3 b4 s (put σ s (σ d))

end QDng.Propa
