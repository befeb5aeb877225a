import Mathlib.Analysis.SpecialFunctions.Trigonometric.Basic
import Verif.Common.Outcome

/-
Model of the laser fields of an operator: where they come from (`OLaser::Init`), the pulses generated for a clock
(`OLaser::Clock`), the file with a generated field, copies, the power spectrum and the storage of polarisation vectors
(src/qdlib/OLaser.cpp, src/qdlib/Laser.cpp).

Simplifications: exact arithmetic, with NaN for zero divided by zero as the only special value; numbers in the input are
given as numbers; a file is known by its name and has the time step and the values as content (the bytes are the subject
of C14 and C107); a clock is known by its steps and time step, its current step is a parameter where a value is read.
-/

namespace QDng.LaserGen
open Common

/-! ### Generated pulses -/

/-- A clock (src/tools/QDClock.h:13-18). -/
structure Clk where
  steps : Nat
  dt : ℝ

/-- A number or NaN (the values of the field, src/qdlib/OLaser.cpp:71). -/
inductive Num where
  | num (x : ℝ)
  | nan

/-- Sum (src/qdlib/OLaser.cpp:103). -/
def Num.add : Num → Num → Num
  | .num x, .num y => .num (x + y)
  | _, _ => .nan

/-- Product with a number (src/qdlib/Laser.cpp:127). -/
def Num.scale (s : ℝ) : Num → Num
  | .num x => .num (x * s)
  | .nan => .nan

/-- The parameters of a pulse (src/qdlib/OLaser.cpp:38-43). -/
structure Pulse where
  emax : ℝ
  t0 : ℝ
  sigma : ℝ
  w0 : ℝ
  phi : ℝ
  b : ℝ

/-- The parameters of a pulse in the input, which may be missing (src/qdlib/OLaser.cpp:45-61, 83-99). -/
structure Given where
  emax : Option ℝ := none
  t0 : Option ℝ := none
  sigma : Option ℝ := none
  w0 : Option ℝ := none
  phi : Option ℝ := none
  b : Option ℝ := none

/-- The default values; the divisions are divisions of integers (src/qdlib/OLaser.cpp:38-43, 76-81). -/
noncomputable def defaults (cl : Clk) : Pulse :=
  { emax := 0.0001, t0 := ((cl.steps / 2 : Nat) : ℝ) * cl.dt, sigma := ((cl.steps / 8 : Nat) : ℝ) * cl.dt,
    w0 := 0.05695, phi := 0, b := 0 }

/-- Reading the parameters that are present (src/qdlib/OLaser.cpp:45-61, 83-99). -/
noncomputable def readPulse (cl : Clk) (g : Given) : Pulse :=
  { emax := g.emax.getD (defaults cl).emax, t0 := g.t0.getD (defaults cl).t0, sigma := g.sigma.getD (defaults cl).sigma,
    w0 := g.w0.getD (defaults cl).w0, phi := g.phi.getD (defaults cl).phi, b := g.b.getD (defaults cl).b }

open Classical in
/-- The value at the time `t` (src/qdlib/OLaser.cpp:71, 103).  With `sigma = 0` the exponent is `-0/0` or minus infinity. -/
noncomputable def Pulse.at (p : Pulse) (t : ℝ) : Num :=
  if p.sigma = 0 then (if t = p.t0 then .nan else .num 0)
  else .num (p.emax * Real.exp (-(t - p.t0) * (t - p.t0) / 2 / (p.sigma * p.sigma)) *
    Real.cos (p.w0 * (t - p.t0) + p.phi + p.b * (t - p.t0) * (t - p.t0)))

/-! ### Lasers -/

/-- The content of a file: what `Laser::Serialize` writes (src/qdlib/Laser.cpp:206-217), nothing for an empty field. -/
inductive FileData where
  | data (dt : ℝ) (v : List Num)
  | nothing

/-- Files by name (src/qdlib/OLaser.cpp:114-117, 158-161). -/
abbrev Files := String → Option FileData

/-- `Laser` (src/qdlib/Laser.h:20-34, src/qdlib/Laser.cpp:11-12); a new one has no time step yet. -/
structure Laser where
  v : List Num := []
  dt : Option ℝ := none
  scale : ℝ := 1

open Classical in
/-- `Laser::Clock(clock)` (src/qdlib/Laser.cpp:106-112): accepted or not.  A time step without a value does not matter if
the field is too short. -/
noncomputable def Laser.setClock (l : Laser) (cl : Clk) : Ans Unit :=
  if l.v.length < cl.steps then .threw
  else match l.dt with
    | none => .ub
    | some dt => if cl.dt = dt then .val () else .threw

/-- `Laser::Get` at the step `i` (src/qdlib/Laser.cpp:125-128). -/
noncomputable def Laser.get (l : Laser) (i : Nat) : Ans Num :=
  match l.v[i]? with
  | none => .ub
  | some x => .val (x.scale l.scale)

open Classical in
/-- Reading a file into a laser (src/qdlib/Laser.cpp:219-239); reading nothing uses a size without a value. -/
noncomputable def Laser.load (fs : Files) (name : String) (l : Laser) : Ans Laser :=
  match fs name with
  | none => .threw
  | some .nothing => .ub
  | some (.data dt v) => if v = [] then .threw else if dt ≤ 0 then .threw else .val { l with v := v, dt := some dt }

/-- `Laser::operator=` (src/qdlib/Laser.cpp:154-169): the scaling factor is not copied. -/
def Laser.assign (l r : Laser) : Laser := { v := r.v, dt := r.dt, scale := l.scale }

/-- Writing a laser (src/qdlib/Laser.cpp:206-217). -/
noncomputable def Laser.save (l : Laser) : FileData :=
  if l.v.length = 0 then .nothing else .data (l.dt.getD 0) l.v

/-! ### Operators with lasers -/

/-- The parameters of an operator with a laser (src/qdlib/OLaser.cpp:32, 45-61, 83-99, 110, 125, 133-174). -/
structure Params where
  laser : Option String := none
  laserAt : Nat → Option String := fun _ => none
  gen : Option String := none
  first : Given := {}
  second : Given := {}
  lasero : Option String := none
  scale : Option ℝ := none

/-- `OLaser` (src/qdlib/OLaser.h:21-29) in an operator with the parameter `scale`; `gen` is the type of the pulse with
the parameters in `_genParams`. -/
structure OLaser where
  lasers : List Laser
  gen : Option (String × Params) := none
  scale : Option ℝ := none

/-- `OLaser(num)` (src/qdlib/OLaser.cpp:9-19). -/
def OLaser.new (num : Nat) : OLaser := { lasers := List.replicate num {} }

/-- The name of the file for the laser `i` (src/qdlib/OLaser.cpp:141-149). -/
def fileOf (p : Params) (i : Nat) : Option String := (p.laserAt i).or p.laser

/-- The loop over more than one laser, from the laser `i` on (src/qdlib/OLaser.cpp:137-153). -/
noncomputable def loadAll (fs : Files) (p : Params) : Nat → List Laser → Ans (List Laser)
  | _, [] => .val []
  | i, l :: ls =>
    match fileOf p i with
    | none => .threw
    | some name =>
      match l.load fs name with
      | .threw => .threw
      | .ub => .ub
      | .val l' =>
        match loadAll fs p (i + 1) ls with
        | .threw => .threw
        | .ub => .ub
        | .val ls' => .val (l' :: ls')

/-- The names of the pulses (src/qdlib/OLaser.cpp:36, 168). -/
def known (type : String) : Prop := type = "gauss" ∨ type = "gauss2"

instance (type : String) : Decidable (known type) := inferInstanceAs (Decidable (_ ∨ _))

/-- `Init(params)` for one laser (src/qdlib/OLaser.cpp:154-173). -/
noncomputable def initOne (fs : Files) (p : Params) (l : Laser) : Ans (Laser × Option (String × Params)) :=
  match p.laser with
  | some name =>
    match l.load fs name with
    | .threw => .threw
    | .ub => .ub
    | .val l' => .val (l', none)
  | none =>
    match p.gen with
    | none => .threw
    | some type => if known type then .val (l, some (type, p)) else .threw

/-- `OLaser::Init(params)` of an operator that is new (src/qdlib/OLaser.cpp:133-174); the other parts of the operator keep
its parameters (src/qdlib/OGridDipole.cpp:18-29). -/
noncomputable def OLaser.init (fs : Files) (p : Params) (o : OLaser) : Ans OLaser :=
  match o.lasers with
  | [] => .ub
  | [l] =>
    match initOne fs p l with
    | .threw => .threw
    | .ub => .ub
    | .val (l', g) => .val { lasers := [l'], gen := g, scale := p.scale }
  | l :: ls =>
    match loadAll fs p 0 (l :: ls) with
    | .threw => .threw
    | .ub => .ub
    | .val ls' => .val { lasers := ls', gen := none, scale := p.scale }

/-- The value of the generated field at the step `i` (src/qdlib/OLaser.cpp:70-71, 102-103). -/
noncomputable def genValue (cl : Clk) (type : String) (p : Params) (i : Nat) : Num :=
  if type = "gauss2" then ((readPulse cl p.first).at (i * cl.dt)).add ((readPulse cl p.second).at (i * cl.dt))
  else (readPulse cl p.first).at (i * cl.dt)

/-- The values of the generated field (src/qdlib/OLaser.cpp:65-66, 69-72, 101-104). -/
noncomputable def genField (cl : Clk) (type : String) (p : Params) : List Num :=
  (List.range cl.steps).map (genValue cl type p)

/-- The scaling factor (src/qdlib/OLaser.cpp:124-130). -/
noncomputable def setScale (s : Option ℝ) (l : Laser) : Laser :=
  match s with
  | none => l
  | some s => { l with scale := s }

/-- Whether all lasers accept the clock (src/qdlib/OLaser.cpp:120-121). -/
noncomputable def clockAll (cl : Clk) : List Laser → Ans Unit
  | [] => .val ()
  | l :: ls =>
    match l.setClock cl with
    | .val _ => clockAll cl ls
    | .threw => .threw
    | .ub => .ub

/-- Writing the generated field to the file `lasero` (src/qdlib/OLaser.cpp:110-118). -/
noncomputable def dump (p : Params) (l : Laser) (fs : Files) : Files :=
  match p.lasero with
  | none => fs
  | some name => fun n => if n = name then some l.save else fs n

/-- `OLaser::Clock(cl)` (src/qdlib/OLaser.cpp:27-131).  Only types that are known come through `Init`.  The generated
field has the time step and the number of steps of the clock, which `Laser::Clock` compares (line 67). -/
noncomputable def OLaser.clock (cl : Clk) (o : OLaser) (fs : Files) : Ans (OLaser × Files) :=
  match o.gen, o.lasers with
  | some (type, p), l :: ls =>
    .val ({ o with lasers := ({ l with v := genField cl type p, dt := some cl.dt } :: ls).map (setScale o.scale) },
      dump p { l with v := genField cl type p, dt := some cl.dt } fs)
  | some _, [] => .ub
  | none, ls =>
    match clockAll cl ls with
    | .val _ => .val ({ o with lasers := ls.map (setScale o.scale) }, fs)
    | .threw => .threw
    | .ub => .ub

/-- The value of the laser `k` at the step `i` (src/qdlib/OLaser.h:48, src/qdlib/Laser.cpp:125-128). -/
noncomputable def OLaser.field (o : OLaser) (k i : Nat) : Ans Num :=
  match o.lasers[k]? with
  | none => .ub
  | some l => l.get i

/-- Copying into a new operator with one laser (src/qdlib/OGridDipole.cpp:68-81, src/qdlib/OMatDipole.cpp:69-83,
src/qdlib/OLaser.cpp:211-222):
`_genParams` is not copied. -/
def OLaser.copyOf (r : OLaser) : OLaser :=
  match r.lasers with
  | [] => { lasers := [{}], gen := none, scale := r.scale }
  | l :: _ => { lasers := [Laser.assign {} l], gen := none, scale := r.scale }

/-- Calls of `OLaser::Clock` one after another, for instance by the propagator and the Hamiltonian (src/ProgOCT.cpp:898,
906). -/
noncomputable def clocks : List Clk → OLaser → Files → Ans (OLaser × Files)
  | [], o, fs => .val (o, fs)
  | c :: cs, o, fs =>
    match o.clock c fs with
    | .val (o, fs) => clocks cs o fs
    | .threw => .threw
    | .ub => .ub

/-! ### The power spectrum -/

/-- A laser with the number of its values, the steps of its clock, and the size of its spectrum if there is one
(src/qdlib/Laser.h:26-30). -/
structure Sizes where
  size : Nat
  steps : Option Nat
  spectrum : Option Nat

/-- `Laser::Spectrum` (src/qdlib/Laser.cpp:81-92, src/math/Vector.h:248-251): the sizes. -/
def Sizes.transform (l : Sizes) : Ans Sizes :=
  match l.spectrum, l.steps with
  | some _, _ => .val l
  | none, none => .ub
  | none, some n => .val { l with size := if n ≤ l.size then n else l.size, spectrum := some (n / 2 + 1) }

/-- `Laser::PowerSpectrum` (src/qdlib/Laser.cpp:65-74): the loop runs over all values of the field. -/
def Sizes.power (l : Sizes) : Ans Nat :=
  match l.transform with
  | .threw => .threw
  | .ub => .ub
  | .val l =>
    match l.steps, l.spectrum with
    | some n, some m => if l.size ≤ n / 2 + 1 ∧ l.size ≤ m then .val (n / 2 + 1) else .ub
    | _, _ => .ub

/-! ### Polarisation vectors -/

/-- The pointer `_Pol`: null, to an array, or to an array that was deleted; and `_UsePol` (src/qdlib/OLaser.h:26-27). -/
inductive Ptr where
  | null
  | live
  | dangling
  deriving DecidableEq

/-- The polarisation vectors of an operator (src/qdlib/OLaser.h:26-27). -/
structure Pol where
  ptr : Ptr
  use : Bool

/-- A new operator (src/qdlib/OLaser.cpp:9-19). -/
def Pol.new : Pol := { ptr := .null, use := false }

/-- Calls (src/qdlib/OLaser.cpp:181-206). -/
inductive Call where
  | usePol (use : Bool)
  | numLaser (num : Nat)

/-- `delete[] _Pol` if it is not null (src/qdlib/OLaser.cpp:24, 186, 200): `false` if this deletes an array twice. -/
def Ptr.canDelete : Ptr → Bool
  | .null => true
  | .live => true
  | .dangling => false

/-- `NumLaser(num)` leaves the pointer as it is if polarisation is not used (src/qdlib/OLaser.cpp:200-203). -/
def Pol.renew (s : Pol) : Pol :=
  if s.use then { s with ptr := .live } else if s.ptr = .null then s else { s with ptr := .dangling }

/-- A call (src/qdlib/OLaser.cpp:181-189, 197-206). -/
def Pol.call (s : Pol) : Call → Option Pol
  | .usePol false => some { s with use := false }
  | .usePol true => if s.ptr.canDelete then some { ptr := .live, use := true } else none
  | .numLaser _ => if s.ptr.canDelete then some s.renew else none

/-- Calls and the destructor (src/qdlib/OLaser.cpp:21-25): `false` if an array is deleted twice. -/
def Pol.life (s : Pol) : List Call → Bool
  | [] => s.ptr.canDelete
  | c :: cs =>
    match s.call c with
    | none => false
    | some s => s.life cs

end QDng.LaserGen
