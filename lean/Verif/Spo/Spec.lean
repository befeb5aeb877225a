import Verif.Deriv.Spec
import Verif.Spo.Model

/-
Specification side of the split operator propagator: the exact exponential of the kinetic energy, the
symmetric product of exponentials, eigenvectors, and histories of calls.
-/

namespace QDng.Spo

open QDng.Deriv QDng.Common

/-- The exponential of `c` times the kinetic energy: the linear map that multiplies each plane wave of
the grid with `exp (c E)`, `E` being its kinetic energy. -/
def IsKinExp (s : Space) (mass : Fin s.d → ℝ) (c : ℂ) (K : s.Wf → s.Wf) : Prop :=
  (∀ (a : ℂ) φ ψ, K (a • φ + ψ) = a • K φ + K ψ) ∧
    ∀ q, K (wave s q) =
      Complex.exp (c * ((∑ i, wavenum s q i ^ 2 / (2 * mass i) : ℝ) : ℂ)) • wave s q

/-- The symmetric product `exp (c V / 2) K exp (c V / 2)`. -/
noncomputable def strang {s : Space} (K : s.Wf → s.Wf) (c : ℂ) (v : s.Pt → ℝ) (ψ : s.Wf) : s.Wf :=
  fun x => Complex.exp (c / 2 * (v x : ℂ)) * K (fun y => Complex.exp (c / 2 * (v y : ℂ)) * ψ y) x

/-- The potential energy at a time step: the potential plus the optional coupling on the diagonal. -/
def total {s : Space} (p : Pot s) (i : Option (Pot s)) (now : Int) (x : s.Pt) : ℝ :=
  p.val now x + match i with | some q => q.val now x | none => 0

/-- The operators of a single state system. -/
def single {s : Space} (t : KinOp s) (p : Pot s) (i : Option (Pot s)) : Args s :=
  { tkin := some t, vpot := .single p, vcoup := .missing,
    vcoupI := match i with | some q => .pot q | none => .missing }

/-- A potential that is not time dependent has the same values at all times. -/
def Pot.Honest {s : Space} (p : Pot s) : Prop :=
  p.timeDep = false → ∀ m n, p.val m = p.val n

/-- The calls a program makes on the propagator. -/
inductive Call (s : Space) where
  | exponent (c : ℂ)
  | init (a : Args s) (now : Int) (ψ : Psi s)
  | apply (now : Int) (ψ : Psi s)
  | update (now : Int)

/-- The propagator after a call; exceptions are caught, `none` is undefined behaviour. -/
noncomputable def after {s : Space} (o : Spo s) : Call s → Option (Spo s)
  | .exponent c => some (o.setExponent c)
  | .init a now ψ =>
    match o.init a now ψ with
    | .ok o' => some o'
    | .threw o' => some o'
    | .ub => none
  | .apply now ψ =>
    match o.apply now ψ with
    | .val (o', _) => some o'
    | .threw => some o
    | .ub => none
  | .update now =>
    match o.updateTime now with
    | .ok o' => some o'
    | .threw o' => some o'
    | .ub => none

/-- The propagator after a list of calls. -/
noncomputable def history {s : Space} : Spo s → List (Call s) → Option (Spo s)
  | o, [] => some o
  | o, c :: cs => (after o c).bind fun o' => history o' cs

/-- The columns of `e` are an orthonormal pair of eigenvectors of the symmetric matrix with diagonal
`m1`, `m2` and off diagonal element `m12`, with the eigenvalues `v0` and `v1`. -/
def IsEigen (m1 m2 m12 : ℝ) (d : Eig) : Prop :=
  (d.e00 ^ 2 + d.e10 ^ 2 = 1 ∧ d.e01 ^ 2 + d.e11 ^ 2 = 1 ∧ d.e00 * d.e01 + d.e10 * d.e11 = 0) ∧
  (m1 * d.e00 + m12 * d.e10 = d.v0 * d.e00 ∧ m12 * d.e00 + m2 * d.e10 = d.v0 * d.e10) ∧
  (m1 * d.e01 + m12 * d.e11 = d.v1 * d.e01 ∧ m12 * d.e01 + m2 * d.e11 = d.v1 * d.e11)

end QDng.Spo
