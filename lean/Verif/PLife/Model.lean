import Verif.Common.Outcome
import Mathlib.Data.Complex.Basic

/-
Model of the life of the propagators OCheby, OSIL, OArnoldi and ORK4: set-up with a clock, a wave function and a
Hamiltonian, the clocks of the lasers inside the Hamiltonian, repeated set-up, and copies (src/qdlib/OPropagator.h,
src/qdlib/OCheby.cpp, src/qdlib/OSIL.cpp, src/qdlib/OArnoldi.cpp, src/qdlib/ORK4.cpp, src/qdlib/OList.cpp,
src/qdlib/OLaser.cpp, src/qdlib/Laser.cpp).

What a step does with a wave function is the subject of C31, C73, C104, C105, C265-C274; here a step is known by what it
is computed from (`Used`).

Simplifications: exact arithmetic; a Hamiltonian is a tree of operators with one laser or none; the number of operators in
a list is not limited here (C28); what `Init(Psi)` of a member says about a wave function and what the Chebychev
propagator computes from the energy range are parameters.
-/

namespace QDng.PLife
open Common

/-! ### Clocks and lasers -/

/-- A clock (src/tools/QDClock.h:13-18). -/
structure Clk where
  steps : ℕ
  dt : ℝ
  step : ℕ

/-- The clock objects of the program by number; a pointer to a clock is the number or null (src/qdlib/Operator.h:75-90). -/
abbrev World := ℕ → Clk

/-- `Laser` (src/qdlib/Laser.h:20-34). -/
structure Field where
  clock : Option ℕ
  dt : ℝ
  vals : List ℝ
  scale : ℝ

/-- `Laser::Clock(clock)` (src/qdlib/Laser.cpp:106-112): the clock is kept before the check. -/
noncomputable def Field.setClock (W : World) (f : Field) : Option ℕ → Out Field
  | none => .ok f
  | some k =>
    if (W k).dt ≠ f.dt ∨ f.vals.length < (W k).steps then .threw { f with clock := some k }
    else .ok { f with clock := some k }

/-- `Laser::Get()` (src/qdlib/Laser.cpp:125-128): a null pointer or an index outside the array is not checked. -/
noncomputable def Field.get (W : World) (f : Field) : Ans ℝ :=
  match f.clock with
  | none => .ub
  | some k =>
    match f.vals[(W k).step]? with
    | none => .ub
    | some v => .val (v * f.scale)

/-- An operator: one without a laser, one with a laser (src/qdlib/OLaser.h:21-29, `gen` gives the values of a generated
pulse for the steps and the time step of a clock, `scale` the parameter of this name), or a sum or matrix of operators (src/qdlib/OList.h, src/qdlib/OMultistate.h). -/
inductive Op where
  | plain (clock : Option ℕ) (hermitian : Bool)
  | laser (clock : Option ℕ) (gen : Option (ℕ → ℝ → ℕ → ℝ)) (scale : Option ℝ) (field : Field)
  | many (clock : Option ℕ) (members : List Op)

/-- The scaling factor (src/qdlib/OLaser.cpp:124-130). -/
def setScale (s : Option ℝ) (f : Field) : Field :=
  match s with
  | none => f
  | some s => { f with scale := s }

/-- The generated field (src/qdlib/OLaser.cpp:63-72, 101-104). -/
noncomputable def generate (W : World) (k : ℕ) (g : ℕ → ℝ → ℕ → ℝ) (f : Field) : Field :=
  { f with clock := some k, dt := (W k).dt, vals := (List.range (W k).steps).map (g (W k).steps (W k).dt) }

mutual
/-- `Clock(cl)` of an operator: src/qdlib/Operator.h (no laser), src/qdlib/OLaser.cpp:27-131 (a generated pulse reads the
clock without a check), src/qdlib/OList.cpp:146-152 and src/qdlib/OMultistate.cpp:68-77 (members). -/
noncomputable def Op.setClock (W : World) (c : Option ℕ) : Op → Out Op
  | .plain _ h => .ok (.plain c h)
  | .laser _ (some g) s f =>
    match c with
    | none => .ub
    | some k => .ok (.laser c (some g) s (setScale s (generate W k g f)))
  | .laser _ none s f =>
    match f.setClock W c with
    | .ok f => .ok (.laser c none s (setScale s f))
    | .threw f => .threw (.laser c none s f)
    | .ub => .ub
  | .many _ ms =>
    match setClocks W c ms with
    | .ok ms => .ok (.many c ms)
    | .threw ms => .threw (.many c ms)
    | .ub => .ub

/-- The loop over the members (src/qdlib/OList.cpp:149-151, src/qdlib/OMultistate.cpp:71-76). -/
noncomputable def setClocks (W : World) (c : Option ℕ) : List Op → Out (List Op)
  | [] => .ok []
  | o :: os =>
    match o.setClock W c with
    | .ub => .ub
    | .threw o => .threw (o :: os)
    | .ok o =>
      match setClocks W c os with
      | .ub => .ub
      | .threw os => .threw (o :: os)
      | .ok os => .ok (o :: os)
end

mutual
/-- The field values an application of the operator uses, in order: `GetLaser()->Get()` of every laser
(src/qdlib/OGridDipole.cpp:46-60, src/qdlib/OMatDipole.cpp:51-61, src/qdlib/OSum.cpp:55-59). -/
noncomputable def Op.fields (W : World) : Op → Ans (List ℝ)
  | .plain _ _ => .val []
  | .laser _ _ _ f =>
    match f.get W with
    | .val v => .val [v]
    | .threw => .threw
    | .ub => .ub
  | .many _ ms => allFields W ms

/-- The loop over the members (src/qdlib/OSum.cpp:55-59). -/
noncomputable def allFields (W : World) : List Op → Ans (List ℝ)
  | [] => .val []
  | o :: os =>
    match o.fields W with
    | .threw => .threw
    | .ub => .ub
    | .val a =>
      match allFields W os with
      | .threw => .threw
      | .ub => .ub
      | .val b => .val (a ++ b)
end

mutual
/-- `Hermitian()` (src/qdlib/OList.cpp:127): a list is hermitian if its members are. -/
def Op.hermitian : Op → Bool
  | .plain _ h => h
  | .laser _ _ _ _ => true
  | .many _ ms => allHermitian ms

/-- All members (src/qdlib/OList.cpp:127). -/
def allHermitian : List Op → Bool
  | [] => true
  | o :: os => o.hermitian && allHermitian os
end

/-! ### Propagators -/

/-- The propagators (src/qdlib/OCheby.h, src/qdlib/OSIL.h, src/qdlib/OArnoldi.h, src/qdlib/ORK4.h). -/
inductive Kind where
  | cheby
  | sil
  | arnoldi
  | rk4
  deriving DecidableEq

/-- The pointer `H` (src/qdlib/OPropagator.h:35): null, to a member of the list, or to an operator of its own. -/
inductive HPtr where
  | null
  | member (i : ℕ)
  | own (o : Op)

/-- State of a propagator (src/qdlib/OPropagator.h:26-35, src/qdlib/OList.h): `names` and `members` are the list of
operators, `ready` tells if the buffers are allocated (`ket0`, `buf0`, `_buf[0]`), `slots` if the buffer of the Krylov
vectors was set up (`_Lzb`), `order` is `_order` or `_maxorder`, `eps` is `_err` or `_conv`, and `coef` is what the
Chebychev propagator computed when it was set up (`_coeff`, `_scaling`, `_offset`). -/
structure Propag (K : Type) where
  kind : Kind
  names : List (String × ℕ)
  members : List Op
  clock : Option ℕ
  c0 : ℂ
  forward : Bool
  imaginary : Bool
  ready : Bool
  slots : Bool
  order : ℕ
  eps : ℝ
  coef : Option K
  H : HPtr

variable {K : Type}

/-- Constructors (src/qdlib/OPropagator.h:37-39, src/qdlib/OCheby.cpp:22-27, src/qdlib/OSIL.cpp:13-16,
src/qdlib/OArnoldi.cpp:14-18, src/qdlib/ORK4.cpp:18-22, src/qdlib/OSIL.h:11-12, src/qdlib/OArnoldi.h:11-13). -/
noncomputable def Propag.new (kind : Kind) : Propag K :=
  { kind := kind, names := [], members := [], clock := none, c0 := 0, forward := true, imaginary := false,
    ready := false, slots := false, order := 20, eps := 1e-12, coef := none, H := .null }

/-- `Add(name, O)` (src/qdlib/OList.cpp:136-144). -/
def Propag.add (p : Propag K) (name : String) (o : Op) : Out (Propag K) :=
  match p.names.lookup name with
  | some _ => .threw p
  | none => .ok { p with names := (name, p.members.length) :: p.names, members := p.members ++ [o] }

/-- `Clock(cl)` (src/qdlib/OPropagator.h:44-55): the members do not get the clock. -/
noncomputable def Propag.setClock (W : World) (k : ℕ) (p : Propag K) : Propag K :=
  let c := Complex.I * ((W k).dt : ℂ)
  let c := if p.forward then c * (-1) else c
  let c := if p.imaginary then Complex.I * c else c
  { p with clock := some k, c0 := c }

/-- `Forward()` and `Backward()` (src/qdlib/OPropagator.h:62-97): without a clock an exception. -/
noncomputable def Propag.direct (W : World) (fwd : Bool) (p : Propag K) : Out (Propag K) :=
  match p.clock with
  | none => .threw p
  | some k =>
    let dt : ℂ := ((W k).dt : ℂ)
    .ok { p with
      c0 := if p.imaginary then (if fwd then dt else -dt)
            else (if fwd then (-1) * Complex.I * dt else 1 * Complex.I * dt)
      forward := fwd }

/-- The operator `H` points to (src/qdlib/OPropagator.h:35). -/
def Propag.target (p : Propag K) : Option Op :=
  match p.H with
  | .null => none
  | .member i => p.members[i]?
  | .own o => some o

/-- `Get("hamiltonian")` (src/qdlib/OList.cpp:59-70). -/
def Propag.find (p : Propag K) : Option ℕ := p.names.lookup "hamiltonian"

/-- `OList::Init(Psi)`: all members in order (src/qdlib/OList.cpp:170-175); `fit` is the outcome for a member. -/
def fitAll (fit : Op → Ans Unit) : List Op → Ans Unit
  | [] => .val ()
  | o :: os =>
    match fit o with
    | .val _ => fitAll fit os
    | .threw => .threw
    | .ub => .ub

/-- `OPropagator::Init(Psi)` (src/qdlib/OPropagator.h:171-183); `wf` tells if there is a wave function. -/
noncomputable def Propag.base (W : World) (fit : Bool → Op → Ans Unit) (wf : Bool) (p : Propag K) : Ans Unit :=
  match p.clock with
  | none => .threw
  | some k =>
    if (W k).dt = 0 then .threw
    else if !wf then .threw
    else fitAll (fit wf) p.members

/-- `H = Get("hamiltonian"); H->Clock(Operator::Clock())` behind the look-up (src/qdlib/OCheby.cpp:360-361,
src/qdlib/OSIL.cpp:77, src/qdlib/OArnoldi.cpp:80). -/
noncomputable def Propag.giveClock (W : World) (i : ℕ) (p : Propag K) : Out (Propag K) :=
  match p.members[i]? with
  | none => .ub
  | some o =>
    match o.setClock W p.clock with
    | .ok o => .ok { p with members := p.members.set i o }
    | .threw o => .threw { p with members := p.members.set i o }
    | .ub => .ub

/-- What the Chebychev propagator computes when it is set up, from the Hamiltonian, the exponent, the time step, the mode
and the order (src/qdlib/OCheby.cpp:382-491). -/
abbrev Series (K : Type) := Op → ℂ → ℝ → Bool → ℕ → Ans K

/-- The part of `OCheby::Init` behind the initialisation of the parent (src/qdlib/OCheby.cpp:371-491). -/
noncomputable def Propag.initSeries (W : World) (S : Series K) (p : Propag K) : Out (Propag K) :=
  if p.ready then .ok p
  else
    match p.target, p.clock with
    | some o, some k =>
      match S o p.c0 (W k).dt p.imaginary p.order with
      | .val c => .ok { p with ready := true, coef := some c }
      | .threw => .threw { p with ready := true }
      | .ub => .ub
    | _, _ => .ub

/-- `OCheby::Init(Psi)` (src/qdlib/OCheby.cpp:358-493). -/
noncomputable def Propag.initCheby (W : World) (fit : Bool → Op → Ans Unit) (S : Series K) (wf : Bool) (p : Propag K) :
    Out (Propag K) :=
  match p.find with
  | none => .threw p
  | some i =>
    match Propag.giveClock W i { p with H := .member i } with
    | .ub => .ub
    | .threw p => .threw p
    | .ok p =>
      match p.target with
      | none => .ub
      | some o =>
        match fit wf o with
        | .ub => .ub
        | .threw => .threw p
        | .val _ =>
          match p.base W fit wf with
          | .ub => .ub
          | .threw => .threw p
          | .val _ => p.initSeries W S

/-- `OSIL::Init(Psi)` (src/qdlib/OSIL.cpp:54-78) and `OArnoldi::Init(Psi)` (src/qdlib/OArnoldi.cpp:61-81). -/
noncomputable def Propag.initKrylov (W : World) (fit : Bool → Op → Ans Unit) (wf : Bool) (p : Propag K) : Out (Propag K) :=
  match p.base W fit wf with
  | .ub => .ub
  | .threw => .threw p
  | .val _ =>
    if p.ready then .ok p
    else
      match p.find with
      | none => .threw p
      | some i =>
        match p.members[i]? with
        | none => .ub
        | some o =>
          if p.kind = .sil ∧ o.hermitian = false then .threw { p with H := .member i }
          else Propag.giveClock W i { p with H := .member i, ready := true, slots := true }

/-- `ORK4::Init(Psi)` (src/qdlib/ORK4.cpp:30-45): the Hamiltonian does not get a clock. -/
noncomputable def Propag.initRK4 (W : World) (fit : Bool → Op → Ans Unit) (wf : Bool) (p : Propag K) : Out (Propag K) :=
  if !wf then .threw p
  else if p.ready then .ok p
  else
    match p.find with
    | none => .threw p
    | some i =>
      let p := { p with H := .member i, ready := true }
      match p.base W fit wf with
      | .ub => .ub
      | .threw => .threw p
      | .val _ =>
        match p.target with
        | none => .ub
        | some o =>
          match fit wf o with
          | .ub => .ub
          | .threw => .threw p
          | .val _ => .ok p

/-- `Init(Psi)` (src/qdlib/OCheby.cpp:358, src/qdlib/OSIL.cpp:54, src/qdlib/OArnoldi.cpp:61, src/qdlib/ORK4.cpp:30). -/
noncomputable def Propag.init (W : World) (fit : Bool → Op → Ans Unit) (S : Series K) (wf : Bool) (p : Propag K) :
    Out (Propag K) :=
  match p.kind with
  | .cheby => p.initCheby W fit S wf
  | .sil => p.initKrylov W fit wf
  | .arnoldi => p.initKrylov W fit wf
  | .rk4 => p.initRK4 W fit wf

/-- What a step is computed from: the field values the Hamiltonian uses, the exponent, the time step of the clock, the mode, the
order, the threshold, and what was computed at the set-up (src/qdlib/OCheby.cpp:92-120, src/qdlib/OSIL.cpp:83-185,
src/qdlib/OArnoldi.cpp:86-199, src/qdlib/ORK4.cpp:54-95). -/
structure Used (K : Type) where
  kind : Kind
  fields : List ℝ
  exponent : ℂ
  dt : ℝ
  imaginary : Bool
  order : ℕ
  eps : ℝ
  coef : Option K

/-- `Apply(Psi)`: null pointers `ket0`, `buf0`, `_buf[0]`, `H`, `clock` are not checked (src/qdlib/OCheby.cpp:306-311, 97-101,
src/qdlib/OSIL.cpp:87, 96, 112, src/qdlib/OArnoldi.cpp:88, 100, 124, src/qdlib/ORK4.cpp:57-61).  The Chebychev propagator
reads its coefficients without a check (src/qdlib/OCheby.cpp:107).  The third vector of the Lanczos propagator is taken
from the buffer before anything was stored there (src/qdlib/OSIL.cpp:129), which is an exception if the buffer was not
set up (src/qdlib/WFBuffer.cpp:259-260); the Arnoldi propagator only stores vectors, which makes the buffer larger
(src/qdlib/WFBuffer.cpp:227-229). -/
noncomputable def Propag.step (W : World) (p : Propag K) : Ans (Used K) :=
  if !p.ready then .ub
  else
    match p.target with
    | none => .ub
    | some o =>
      match o.fields W with
      | .ub => .ub
      | .threw => .threw
      | .val l =>
        match p.clock with
        | none => .ub
        | some k =>
          if p.kind = .sil ∧ p.slots = false ∧ 3 ≤ p.order then .threw
          else if p.kind = .cheby ∧ p.coef.isNone then .ub
          else .val { kind := p.kind, fields := l, exponent := p.c0, dt := (W k).dt, imaginary := p.imaginary,
                      order := p.order, eps := p.eps, coef := p.coef }

/-! ### Copies -/

/-- `OPropagator::Copy(O)` and `OList::Copy(O)` (src/qdlib/OPropagator.h:156-167, src/qdlib/OList.cpp:183-199): the names
are not copied.  `dup` is the copy of a member. -/
def Propag.copyBase (dup : Op → Op) (q p : Propag K) : Propag K :=
  { q with clock := p.clock, c0 := p.c0, forward := p.forward, imaginary := p.imaginary, members := p.members.map dup }

/-- `Copy(O)` of a propagator into another one of the same kind (src/qdlib/OCheby.cpp:330-356, src/qdlib/OSIL.cpp:207-227,
src/qdlib/OArnoldi.cpp:222-242, src/qdlib/ORK4.cpp:108-125).  A source that was never set up has null pointers that are
not checked (src/qdlib/OCheby.cpp:348, src/qdlib/OSIL.cpp:219, src/qdlib/OArnoldi.cpp:234, src/qdlib/ORK4.cpp:121). -/
def Propag.copy (dup : Op → Op) (q p : Propag K) : Out (Propag K) :=
  let b := q.copyBase dup p
  match p.kind with
  | .cheby =>
    match p.target with
    | none => .ub
    | some o => .ok { b with H := .own (dup o), order := p.order, coef := p.coef }
  | .sil =>
    if !p.ready then .ub
    else
      match p.target with
      | none => .ub
      | some o => .ok { b with H := .own (dup o), order := p.order, ready := true }
  | .arnoldi =>
    if !p.ready then .ub
    else
      match p.target with
      | none => .ub
      | some o => .ok { b with H := .own (dup o), order := p.order, ready := true }
  | .rk4 =>
    if !p.ready then .ub
    else .ok { b with ready := true }

/-- Calls after a copy was made: another clock, another direction, and `Init` with or without a wave function
(src/qdlib/OPropagator.h:44, 62, 82, 171). -/
inductive Call where
  | clock (k : ℕ)
  | direct (fwd : Bool)
  | init (wf : Bool)

/-- One call; an exception that the caller catches leaves the object as it is (src/qdlib/OPropagator.h:44-97, 171-183). -/
noncomputable def Propag.call (W : World) (fit : Bool → Op → Ans Unit) (S : Series K) (p : Propag K) : Call → Option (Propag K)
  | .clock k => some (p.setClock W k)
  | .direct f =>
    match p.direct W f with
    | .ok p => some p
    | .threw p => some p
    | .ub => none
  | .init wf =>
    match p.init W fit S wf with
    | .ok p => some p
    | .threw p => some p
    | .ub => none

/-- A history of calls; nothing is left after undefined behaviour (src/qdlib/OPropagator.h:44-97, 171-183). -/
noncomputable def Propag.calls (W : World) (fit : Bool → Op → Ans Unit) (S : Series K) (p : Propag K) :
    List Call → Option (Propag K)
  | [] => some p
  | c :: cs =>
    match p.call W fit S c with
    | none => none
    | some p => p.calls W fit S cs

/-- The set-up in a program: the Hamiltonian is added, then clock and wave function are given (src/ProgPropa.cpp:235-236). -/
noncomputable def Propag.setUp (W : World) (fit : Bool → Op → Ans Unit) (S : Series K) (k : ℕ) (H : Op) (p : Propag K) :
    Out (Propag K) :=
  match p.add "hamiltonian" H with
  | .ok p => (p.setClock W k).init W fit S true
  | .threw p => .threw p
  | .ub => .ub

end QDng.PLife
