import Verif.Common.Outcome
import Verif.Deriv.Model

/-
Model of the split operator propagator for grids (src/qdlib/OSPO.cpp, OSPO.h) and of the
diagonalisation of symmetric 2x2 matrices (src/math/math_functions.h).

Numbers are exact.  All parts live on one grid, so the comparisons of sizes are left out.  The
operators in the list of the propagator are described by what the casts in `Init` find in them.  A
potential is described by the values it multiplies a wave function with at each time step of the
clock.  The limit of sixteen operators in a sum is left out.
-/

namespace QDng.Spo

open QDng.Deriv QDng.Common

/-! ### Diagonalisation -/

/-- Models `diag22symm` without eigenvectors (src/math/math_functions.h:133-138). -/
noncomputable def evals (m1 m2 m12 : ℝ) : ℝ × ℝ :=
  (0.5 * (m1 + m2 - Real.sqrt ((m1 - m2) * (m1 - m2) + 4 * m12 * m12)),
   0.5 * (m1 + m2 + Real.sqrt ((m1 - m2) * (m1 - m2) + 4 * m12 * m12)))

/-- The result of `diag22symm` (src/math/math_functions.h:146-149): `eij` is `evec[i][j]`. -/
structure Eig where
  v0 : ℝ
  v1 : ℝ
  e00 : ℝ
  e01 : ℝ
  e10 : ℝ
  e11 : ℝ

/-- Models `diag22symm` with eigenvectors (src/math/math_functions.h:149-183).  A negative zero, which
the code gets for `m1 = m2` and a negative `m12`, compares like zero. -/
noncomputable def diag22symm (m1 m2 m12 : ℝ) : Eig :=
  if m12 ≠ 0 then
    let v := evals m1 m2 m12
    let theta := (m2 - m1) / (2 * m12)
    let sgn : ℝ := if theta ≥ 0 then 1 else -1
    let t := sgn / (|theta| + Real.sqrt (theta * theta + 1))
    let c := 1 / Real.sqrt (t * t + 1)
    if m2 < m1 then { v0 := v.1, v1 := v.2, e00 := t * c, e01 := c, e10 := c, e11 := -t * c }
    else { v0 := v.1, v1 := v.2, e00 := c, e01 := t * c, e10 := -t * c, e11 := c }
  else { v0 := m1, v1 := m2, e00 := 1, e01 := 0, e10 := 0, e11 := 1 }

/-! ### The propagator -/

/-- A potential (src/qdlib/OGridsystem.h, OGridPotential.cpp:132-150, OGridDipole.cpp:46-60): the real
values it multiplies a wave function with, at a time step of the clock. -/
structure Pot (s : Space) where
  timeDep : Bool
  val : Int → s.Pt → ℝ

/-- A wave function: on the grid, with two states on the grid, or any other
(src/qdlib/OSPO.cpp:164-176). -/
inductive Psi (s : Space) where
  | one (ψ : s.Wf)
  | two (ψ0 ψ1 : s.Wf)
  | other

/-- What the casts find in the operator `Vpot` (src/qdlib/OSPO.cpp:202-227). -/
inductive VArg (s : Space) where
  | missing
  | bad
  | single (p : Pot s)
  | multi (n : Nat) (p0 p1 : Option (Pot s))

/-- What the casts find in the operator `Vcoup` (src/qdlib/OSPO.cpp:232-250): the elements `(0,1)` and
`(1,0)` of a multistate operator. -/
inductive CArg (s : Space) where
  | missing
  | bad
  | multi (c01 c10 : Option (Pot s))

/-- What the casts find in the operator `VcoupI` (src/qdlib/OSPO.cpp:253-263). -/
inductive IArg (s : Space) where
  | missing
  | bad
  | pot (p : Pot s)

/-- The named operators of the propagator (src/qdlib/OSPO.cpp:187-263).  `tkin` is the kinetic energy,
given alone or as the first state of a multistate operator; `none`: no such operator, or not of a
usable type. -/
structure Args (s : Space) where
  tkin : Option (KinOp s)
  vpot : VArg s
  vcoup : CArg s
  vcoupI : IArg s

/-- A member of the sum that represents the Hamilton operator (src/qdlib/OSPO.cpp:199, 229, 249, 262):
an operator on the grid or a multistate operator with its number of states. -/
inductive Mem where
  | grid
  | multi (n : Nat)
  deriving DecidableEq

/-- The data of the propagator (src/qdlib/OSPO.h:41-62, src/qdlib/OPropagator.h:22-35). -/
structure Spo (s : Space) where
  hasClock : Bool
  c0 : ℂ
  sum : List Mem
  buf : Bool
  tkin : Option (KinOp s)
  vpot0 : Option (Pot s)
  vpot1 : Option (Pot s)
  vcoup : Option (Pot s)
  vcoupI : Option (Pot s)
  coupling : Bool
  coupdiag : Bool
  timeDep : Bool
  cT : ℂ
  cV : ℂ
  lastTime : Int
  expT : Option s.Wf
  expV : Option (Psi s)
  expVcoup : Option (Psi s)
  expVcoupI : Option (Psi s)

/-- Models the constructor (src/qdlib/OSPO.cpp:15-22). -/
noncomputable def Spo.new (s : Space) : Spo s :=
  { hasClock := false, c0 := 0, sum := [], buf := false, tkin := none, vpot0 := none, vpot1 := none,
    vcoup := none, vcoupI := none, coupling := false, coupdiag := false, timeDep := false, cT := 0,
    cV := 0, lastTime := 0, expT := none, expV := none, expVcoup := none, expVcoupI := none }

/-- Models the calls that set the clock, the direction, the time mode or the exponent itself
(src/qdlib/OPropagator.h:44-150), by the exponent they end with (C30). -/
def Spo.setExponent {s : Space} (o : Spo s) (c : ℂ) : Spo s := { o with hasClock := true, c0 := c }

/-- The elements of `ExpElements` (src/math/codelets/ExpElements.h:6-34,
src/math/codelets/ExpElementsCDc.h:6-34). -/
noncomputable def expElements {s : Space} (v : s.Pt → ℝ) (c : ℂ) : s.Wf := fun p =>
  Complex.exp ((v p : ℂ) * c)

/-- Models `_InitT` (src/qdlib/OSPO.cpp:38-45). -/
noncomputable def Spo.initT {s : Space} (o : Spo s) : Out (Spo s) :=
  match o.tkin with
  | none => .ub
  | some t =>
    match t.dspace with
    | none => .threw o
    | some k => .ok { o with expT := some (expElements k o.cT) }

/-- The values of a potential as a wave function: it is applied to the constant 1
(src/qdlib/OSPO.cpp:58, 314). -/
def Pot.wf {s : Space} (p : Pot s) (now : Int) : s.Wf := fun x => (p.val now x : ℂ)

/-- Models `_InitV` (src/qdlib/OSPO.cpp:49-82) at the time step `now`; a missing potential or wave
function is a null pointer that is read. -/
noncomputable def Spo.initV {s : Space} (o : Spo s) (now : Int) : Out (Spo s) :=
  if o.coupling then
    match o.expV, o.expVcoup, o.vpot0, o.vpot1 with
    | some (.two _ _), some (.two _ _), some p0, some p1 =>
      match o.vcoup with
      | none => .ok { o with
          expV := some (.two (expElements (p0.val now) o.cV) (expElements (p1.val now) o.cV)) }
      | some c => .ok { o with
          expV := some (.two (p0.wf now) (p1.wf now))
          expVcoup := some (.two (c.wf now) (c.wf now)) }
    | _, _, _, _ => .ub
  else
    match o.expV, o.vpot0 with
    | some (.one _), some p0 =>
      let o1 := { o with expV := some (.one (expElements (p0.val now) o.cV)) }
      if o.coupdiag then
        match o.vcoupI, o.expVcoupI with
        | some p, some (.one _) =>
          .ok { o1 with expVcoupI := some (.one (expElements (p.val now) o.cV)) }
        | _, _ => .ub
      else .ok o1
    | _, _ => .ub

/-- Models the checks of the wave function at the start of `Init` (src/qdlib/OSPO.cpp:161-176). -/
def Spo.checkPsi {s : Space} (o : Spo s) (ψ : Psi s) : Out (Spo s) :=
  if !o.hasClock then .threw o
  else match ψ with
    | .one _ => .ok o
    | .two _ _ => .ok o
    | .other => .threw o

/-- Models the part of `Init` about the kinetic energy (src/qdlib/OSPO.cpp:190-199). -/
def Spo.parseT {s : Space} (o : Spo s) (a : Option (KinOp s)) : Out (Spo s) :=
  match a with
  | none => .threw { o with tkin := none }
  | some t => .ok { o with tkin := some t, sum := o.sum ++ [.grid] }

/-- Models the part of `Init` about the potential (src/qdlib/OSPO.cpp:202-229). -/
def Spo.parseV {s : Space} (o : Spo s) (a : VArg s) : Out (Spo s) :=
  match a with
  | .missing => .threw o
  | .bad => .threw { o with vpot0 := none }
  | .single p =>
    .ok { o with vpot0 := some p, timeDep := o.timeDep || p.timeDep, sum := o.sum ++ [.grid] }
  | .multi n p0 p1 =>
    if n > 2 then .threw o
    else match p0 with
      | none => .threw { o with vpot0 := none }
      | some p =>
        let o1 := { o with vpot0 := some p, timeDep := o.timeDep || p.timeDep }
        if n = 2 then
          match p1 with
          | none => .threw { o1 with vpot1 := none }
          | some q => .ok { o1 with
              vpot1 := some q, coupling := true, timeDep := o1.timeDep || q.timeDep,
              sum := o.sum ++ [.multi n] }
        else .ok { o1 with sum := o.sum ++ [.multi n] }

/-- Models the part of `Init` about the coupling of the states (src/qdlib/OSPO.cpp:232-250). -/
def Spo.parseC {s : Space} (o : Spo s) (a : CArg s) : Out (Spo s) :=
  match a with
  | .missing => .ok o
  | .bad => .threw o
  | .multi c01 c10 =>
    match (match c01 with | some c => some c | none => c10) with
    | none => .threw { o with vcoup := none }
    | some c => .ok { o with
        vcoup := some c, timeDep := o.timeDep || c.timeDep, coupling := true,
        sum := o.sum ++ [.grid] }

/-- Models the part of `Init` about the coupling on the diagonal (src/qdlib/OSPO.cpp:253-263). -/
def Spo.parseI {s : Space} (o : Spo s) (a : IArg s) : Out (Spo s) :=
  match a with
  | .missing => .ok o
  | .bad => .threw { o with vcoupI := none }
  | .pot p => .ok { o with
      vcoupI := some p, timeDep := o.timeDep || p.timeDep, coupdiag := true,
      sum := o.sum ++ [.grid] }

/-- Whether a member of the sum accepts a wave function (src/qdlib/OGridNablaSq.cpp:60-66,
OGridPotential.cpp:111-120, OMultistate.cpp:99-112): operators on the grid take wave functions on the
grid, multistate operators those with the same number of states. -/
def Mem.accepts {s : Space} (m : Mem) (ψ : Psi s) : Bool :=
  match m, ψ with
  | .grid, .one _ => true
  | .multi n, .two _ _ => n == 2
  | _, _ => false

/-- Models `_H->Init(Psi)` (src/qdlib/OSPO.cpp:266-267, src/qdlib/OList.cpp:170-175), which initialises
the kinetic energy too. -/
noncomputable def Spo.initSum {s : Space} (o : Spo s) (ψ : Psi s) : Out (Spo s) :=
  if o.sum.all (fun m => m.accepts ψ) then .ok { o with tkin := o.tkin.map KinOp.init }
  else .threw o

/-- Models the assignments of the exponents and the check that follows (src/qdlib/OSPO.cpp:269-284): the
buffer exists before the check. -/
noncomputable def Spo.setup {s : Space} (o : Spo s) : Out (Spo s) :=
  let o1 := { o with
    cV := if o.coupling then o.c0 else o.c0 / 2
    cT := if o.coupling then o.c0 / 2 else o.c0
    buf := true }
  if o1.vpot1.isNone && o1.coupling then .threw o1 else .ok o1

/-- Models the allocation of the exponentials (src/qdlib/OSPO.cpp:307-322); `ψ` stands for the
uninitialised content of a new wave function of the same kind. -/
def Spo.alloc {s : Space} (o : Spo s) (ψ : Psi s) : Spo s :=
  { o with
    expV := match o.expV with | none => some ψ | some v => some v
    expVcoup := match o.expVcoup with | none => some ψ | some v => some v
    expVcoupI := match o.expVcoupI with
      | none => if o.coupdiag then some ψ else none
      | some v => some v }

/-- Models `Init(Psi)` (src/qdlib/OSPO.cpp:159-325) at the time step `now` of the clock. -/
noncomputable def Spo.init {s : Space} (o : Spo s) (a : Args s) (now : Int) (ψ : Psi s) :
    Out (Spo s) :=
  (o.checkPsi ψ).bind fun o =>
    if o.buf then .ok o
    else
      (((((o.parseT a.tkin).bind fun o => o.parseV a.vpot).bind fun o => o.parseC a.vcoup).bind
        fun o => o.parseI a.vcoupI).bind fun o => o.initSum ψ).bind fun o =>
          o.setup.bind fun o => ((o.alloc ψ).initT).bind fun o => o.initV now

/-- Forward transformation, product with the exponential and backward transformation
(src/qdlib/OSPO.cpp:380-382, 426-428). -/
noncomputable def kinStep {s : Space} (e ψ : s.Wf) : s.Wf :=
  backward s (fun p => forward s ψ p * e p * ((1 / (s.size : ℝ) : ℝ) : ℂ))

/-- The product of the elements, `MultElements` (src/qdlib/OSPO.cpp:421, 423, 431, 433). -/
def mulElements {s : Space} (ψ e : s.Wf) : s.Wf := fun p => ψ p * e p

/-- The body of the loop over the grid points (src/qdlib/OSPO.cpp:399-406): the pair of values of the
states at one point. -/
noncomputable def mixPoint (cV : ℂ) (v0 v1 vc : ℝ) (a b : ℂ) : ℂ × ℂ :=
  let d := diag22symm v0 v1 vc
  let b0 := Complex.exp ((d.v0 : ℂ) * cV) * ((d.e00 : ℂ) * a + (d.e10 : ℂ) * b)
  let b1 := Complex.exp ((d.v1 : ℂ) * cV) * ((d.e01 : ℂ) * a + (d.e11 : ℂ) * b)
  ((d.e00 : ℂ) * b0 + (d.e01 : ℂ) * b1, (d.e10 : ℂ) * b0 + (d.e11 : ℂ) * b1)

/-- Models the step in `Apply(Psi)` with coupling (src/qdlib/OSPO.cpp:373-417). -/
noncomputable def Spo.coupled {s : Space} (o : Spo s) (ψ : Psi s) : Ans (Spo s × Psi s) :=
  match ψ, o.expT, o.expV, o.expVcoup with
  | .two a b, some e, some (.two v0 v1), some (.two vc _) =>
    let a1 := kinStep e a
    let b1 := kinStep e b
    let a2 : s.Wf := fun p => (mixPoint o.cV (v0 p).re (v1 p).re (vc p).re (a1 p) (b1 p)).1
    let b2 : s.Wf := fun p => (mixPoint o.cV (v0 p).re (v1 p).re (vc p).re (a1 p) (b1 p)).2
    .val (o, .two (kinStep e a2) (kinStep e b2))
  | _, _, _, _ => .ub

/-- Models the step in `Apply(Psi)` without coupling (src/qdlib/OSPO.cpp:419-433). -/
noncomputable def Spo.uncoupled {s : Space} (o : Spo s) (ψ : Psi s) : Ans (Spo s × Psi s) :=
  match ψ, o.expT, o.expV with
  | .one a, some e, some (.one v) =>
    if o.coupdiag then
      match o.expVcoupI with
      | some (.one w) =>
        .val (o, .one (mulElements (mulElements
          (kinStep e (mulElements (mulElements a v) w)) v) w))
      | _ => .ub
    else .val (o, .one (mulElements (kinStep e (mulElements a v)) v))
  | _, _, _ => .ub

/-- Models `Apply(Psi)` (src/qdlib/OSPO.cpp:361-435) at the time step `now` of the clock. -/
noncomputable def Spo.apply {s : Space} (o : Spo s) (now : Int) (ψ : Psi s) : Ans (Spo s × Psi s) :=
  if !o.hasClock then .ub
  else
    match (if o.lastTime ≠ now ∧ o.timeDep = true then
        ({ o with lastTime := now } : Spo s).initV now else .ok o) with
    | .ok o1 => if o1.coupling then o1.coupled ψ else o1.uncoupled ψ
    | .threw _ => .threw
    | .ub => .ub

/-- Models `Apply(destPsi, sourcePsi)` (src/qdlib/OSPO.cpp:357-359): the destination afterwards. -/
def Spo.applyTo {s : Space} (_ : Spo s) (dest _src : Psi s) : Psi s := dest

/-- Models `UpdateTime` (src/qdlib/OSPO.cpp:331-340). -/
noncomputable def Spo.updateTime {s : Space} (o : Spo s) (now : Int) : Out (Spo s) :=
  if !o.hasClock then .ub
  else if o.lastTime ≠ now then
    match o.vpot0 with
    | none => .ub
    | some p =>
      if p.timeDep then ({ o with lastTime := now } : Spo s).initV now
      else match o.vcoup with
        | none => .ub
        | some c =>
          if c.timeDep then ({ o with lastTime := now } : Spo s).initV now else .ok o
  else .ok o

/-- Models `Copy` from another propagator of this kind (src/qdlib/OSPO.cpp:444-467).  The assignments
between the parts of the two are taken to succeed if the parts exist. -/
def Spo.copyFrom {s : Space} (o r : Spo s) : Out (Spo s) :=
  match o.tkin, r.tkin, o.vpot0, r.vpot0, o.vpot1, r.vpot1 with
  | some _, some t, some _, some p, some _, some q =>
    match o.expT, r.expT, o.expV, r.expV with
    | some _, some e, some _, some v =>
      .ok { o with
        tkin := some t, vpot0 := some p, vpot1 := some q, expT := some e, expV := some v,
        hasClock := r.hasClock, c0 := r.c0 }
    | _, _, _, _ => .ub
  | _, _, _, _, _, _ => .ub

end QDng.Spo
