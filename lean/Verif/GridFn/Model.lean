import Verif.Common.Outcome
import Verif.Deriv.Model

/-
Model of the operators that multiply a wave function with a function of the coordinates: the
Butterworth mask and absorber, the momentum kick, the position operator and the potential, and of the
flux operator built from such a mask (src/qdlib/OGobbler.cpp, OGridKick.cpp, OGridPosition.cpp,
OGridPotential.cpp, OFlux.cpp).  Double precision numbers are modelled as real numbers; the mask can
contain values that are not a number, modelled as `none`.  A vector over the grid is modelled as a
function of the grid point, as in the model of the derivative operators.
-/

namespace QDng.GridFn

open QDng.Common QDng.Deriv

/-! ### Butterworth mask -/

/-- A double that may be not a number (`none`). -/
abbrev Num := Option ℝ

/-- A value of `FunctionGenerator::BwLowpass` (src/math/math_functions.h:60-69).  The quotient
`i / center` with `center` zero is infinite, or not a number for `i` zero. -/
noncomputable def bwLow (center : ℝ) (order i : Nat) : Num :=
  if center = 0 then (if i = 0 then none else some 0)
  else some (1 / (1 + ((i : ℝ) / center) ^ (2 * order)))

/-- A value of `FunctionGenerator::BwHighpass` (src/math/math_functions.h:38-48).  The quotient
`center / i` with `i` zero is infinite, or not a number for `center` zero. -/
noncomputable def bwHigh (center : ℝ) (order i : Nat) : Num :=
  if i = 0 then (if center = 0 then none else some 0)
  else some (1 / (1 + (center / (i : ℝ)) ^ (2 * order)))

/-- Product of two doubles (src/math/VectorView.h:187). -/
noncomputable def mulNum (a b : Num) : Num := a.bind fun x => b.map fun y => x * y

/-- Sum of two doubles (src/math/VectorView.h:205). -/
noncomputable def addNum (a b : Num) : Num := a.bind fun x => b.map fun y => x + y

/-- The parameters `lp<i>` and `rp<i>` (src/qdlib/OGobbler.cpp:141-160). -/
structure Edges (s : Space) where
  lp : Fin s.d → Option ℝ
  rp : Fin s.d → Option ℝ

/-- A mask operator: the number of dimensions from the input (zero: none), the options and the vector
(`none`: no grid yet, `Size()` is zero) (src/qdlib/OGobbler.h:31-43, src/qdlib/Operator.h:80-105). -/
structure Gobbler (s : Space) where
  dims : Nat
  order : Nat
  gain : ℝ
  nip : Bool
  residue : Bool
  conj : Bool
  hermitian : Bool
  vals : Option (s.Pt → Num)

/-- The options of the input (src/qdlib/OGobbler.cpp:85-122). -/
structure GobblerIn where
  dims : Nat
  order : Option Int
  gain : Option ℝ
  nip : Bool
  residue : Bool

/-- The constructor (src/qdlib/OGobbler.cpp:14-22).  `_residue` is left uninitialised there; it is set
by `Init(params)`. -/
def Gobbler.new (s : Space) : Gobbler s :=
  { dims := 0, order := 0, gain := 1, nip := false, residue := false, conj := false,
    hermitian := true, vals := none }

/-- Models `OGobbler::Init(params)` (src/qdlib/OGobbler.cpp:85-122) on a new operator. -/
def Gobbler.create (s : Space) (p : GobblerIn) : Except Unit (Gobbler s) :=
  match p.order with
  | some n => if n < 1 then .error () else
      .ok { Gobbler.new s with dims := p.dims, order := n.toNat, gain := p.gain.getD 1, nip := p.nip, residue := p.residue, hermitian := !p.nip }
  | none =>
      .ok { Gobbler.new s with dims := p.dims, order := 20, gain := p.gain.getD 1, nip := p.nip, residue := p.residue, hermitian := !p.nip }

/-- The position of an edge in units of grid points (src/qdlib/OGobbler.cpp:51, 62). -/
noncomputable def edgePos (s : Space) (i : Fin s.d) (x : ℝ) : ℝ :=
  (x - (s.axes i).xmin) / (s.axes i).dx

/-- The check of the position (src/qdlib/OGobbler.cpp:52, 63); the conversion to `int` rounds to
zero. -/
def offGrid (n : Nat) (x : ℝ) : Prop := (n : ℝ) + 1 ≤ x ∨ x ≤ -1

open Classical in
/-- The left pass part of the loop body in `OGobbler::_Init` (src/qdlib/OGobbler.cpp:50-60); `none`: an
exception. -/
noncomputable def leftStep (s : Space) (order : Nat) (e : Edges s) (i : Fin s.d) (v : s.Pt → Num) :
    Option (s.Pt → Num) :=
  match e.lp i with
  | none => some v
  | some x =>
    if offGrid (s.axes i).n (edgePos s i x) then none
    else some (fun p => mulNum (v p) (bwLow (edgePos s i x) order (p i)))

open Classical in
/-- The right pass part of the loop body in `OGobbler::_Init` (src/qdlib/OGobbler.cpp:61-75). -/
noncomputable def rightStep (s : Space) (order : Nat) (nip : Bool) (e : Edges s) (i : Fin s.d)
    (v : s.Pt → Num) : Option (s.Pt → Num) :=
  match e.rp i with
  | none => some v
  | some x =>
    if offGrid (s.axes i).n (edgePos s i x) then none
    else if nip then some (fun p => addNum (v p) (bwHigh (edgePos s i x) order (p i)))
    else some (fun p => mulNum (v p) (bwHigh (edgePos s i x) order (p i)))

/-- The loop over the dimensions in `OGobbler::_Init` (src/qdlib/OGobbler.cpp:49-77): the vector, and
whether the loop came to its end without an exception. -/
noncomputable def buildLoop (s : Space) (order : Nat) (nip : Bool) (e : Edges s) :
    List (Fin s.d) → (s.Pt → Num) → (s.Pt → Num) × Bool
  | [], v => (v, true)
  | i :: rest, v =>
    match leftStep s order e i v with
    | none => (v, false)
    | some v1 =>
      match rightStep s order nip e i v1 with
      | none => (v1, false)
      | some v2 => buildLoop s order nip e rest v2

/-- Models `OGobbler::Init(Psi)` and `_Init` (src/qdlib/OGobbler.cpp:32-82, 124-164) for a wave
function on the grid. -/
noncomputable def Gobbler.init {s : Space} (o : Gobbler s) (e : Edges s) : Out (Gobbler s) :=
  match o.vals with
  | some _ => .ok o
  | none =>
    if o.dims ≠ 0 ∧ o.dims ≠ s.d then .threw o
    else
      let r := buildLoop s o.order o.nip e (List.finRange s.d)
        (fun _ => if o.nip then some 0 else some 1)
      if r.2 = false then .threw { o with dims := s.d, vals := some r.1 }
      else if o.gain ≠ 1 then
        .ok { o with dims := s.d, vals := some (fun p => mulNum (r.1 p) (some o.gain)) }
      else .ok { o with dims := s.d, vals := some r.1 }

/-- Models `OGobbler::Apply(dest, source)` (src/qdlib/OGobbler.cpp:195-204) at a grid point. -/
noncomputable def Gobbler.apply {s : Space} (o : Gobbler s) (v : s.Pt → Num) (ψ : s.Wf) (p : s.Pt) :
    Option ℂ :=
  (v p).map fun g : ℝ =>
    if o.nip then ψ p * ((g : ℂ) * Complex.I) * ((if o.conj then (1 : ℝ) else -1 : ℝ) : ℂ)
    else ψ p * (g : ℂ)

/-- Models `OGobbler::Apply(Psi)` (src/qdlib/OGobbler.cpp:206-214) at a grid point. -/
noncomputable def Gobbler.applyInPlace {s : Space} (o : Gobbler s) (v : s.Pt → Num) (ψ : s.Wf)
    (p : s.Pt) : Option ℂ :=
  (v p).map fun g : ℝ =>
    if o.nip then ψ p * (g : ℂ) * (⟨0, if o.conj then 1 else -1⟩ : ℂ)
    else ψ p * (g : ℂ)

/-- Models `OGobbler::Emax` (src/qdlib/OGobbler.cpp:183-186). -/
noncomputable def Gobbler.emax {s : Space} (o : Gobbler s) : ℂ := (o.gain : ℂ)

/-- Models `OGobbler::Emin` (src/qdlib/OGobbler.cpp:188-192). -/
noncomputable def Gobbler.emin {s : Space} (o : Gobbler s) : ℂ :=
  if o.nip then ⟨0, -o.gain⟩ else 0

/-- Models the scalar product of Cartesian grid wave functions (src/qdlib/WFGridCartesian.cpp:62-118),
coordinate space. -/
noncomputable def wfMul (s : Space) (φ ψ : s.Wf) : ℂ :=
  (List.finRange s.d).foldl (fun c i => c * (((s.axes i).dx : ℝ) : ℂ))
    (∑ x, (starRingEnd ℂ) (φ x) * ψ x)

open Classical in
/-- A wave function from its values, if all of them are numbers (the destination of `Apply` in
src/qdlib/OGobbler.cpp:171-173). -/
noncomputable def collect {s : Space} (f : s.Pt → Option ℂ) : Option s.Wf :=
  if ∀ p, (f p).isSome then some (fun p => (f p).getD 0) else none

/-- Models `OGobbler::Expec` (src/qdlib/OGobbler.cpp:166-181) with `Operator::MatrixElement`
(src/qdlib/Operator.h:226-239). -/
noncomputable def Gobbler.expec {s : Space} (o : Gobbler s) (v : s.Pt → Num) (ψ : s.Wf) : Num :=
  (collect (o.apply v ψ)).map fun ket =>
    if o.residue then (wfMul s ket ket).re else (wfMul s ψ ket).re

/-- Models `OGobbler::Copy` (src/qdlib/OGobbler.cpp:221-246, src/qdlib/OGridsystem.cpp:28-42).  The
edges are not part of the model of the operator; they are not used after the initialisation. -/
def Gobbler.copy {s : Space} (dst src : Gobbler s) : Gobbler s :=
  { dst with nip := src.nip, order := src.order, residue := src.residue, gain := src.gain, vals := src.vals, dims := src.dims }

/-! ### Momentum kick -/

/-- A kick operator: the number of dimensions from the input or the grid (zero: none), the momentum
vector and the exponential (`none`: the empty vector, the null pointer)
(src/qdlib/OGridKick.h:32-38). -/
structure Kick (s : Space) where
  dims : Nat
  kn : Option (Fin s.d → ℝ)
  exp : Option s.Wf

/-- The constructor (src/qdlib/OGridKick.cpp:10-13). -/
def Kick.new (s : Space) : Kick s := { dims := 0, kn := none, exp := none }

/-- The phase built by the loop over the dimensions (src/qdlib/OGridKick.cpp:93-110). -/
noncomputable def kickPhase (s : Space) (kn : Fin s.d → ℝ) (p : s.Pt) : ℝ :=
  (List.finRange s.d).foldl
    (fun a i => if kn i ≠ 0 then
        a + ((s.axes i).xmin + ((p i : Nat) : ℝ) * (s.axes i).dx) * kn i
      else a) 0

/-- Models `OGridKick::Init(Psi)` (src/qdlib/OGridKick.cpp:50-113) for a wave function on the grid,
with the parameters `k` and `scale`. -/
noncomputable def Kick.init {s : Space} (o : Kick s) (k : List ℝ) (scale : Option ℝ) : Out (Kick s) :=
  match o.exp with
  | some _ => .ok o
  | none =>
    if o.dims ≠ 0 ∧ o.dims ≠ s.d then .threw o
    else if k.length > s.d then .threw { o with dims := s.d }
    else
      let kn : Fin s.d → ℝ := fun i =>
        match k[(i : Nat)]? with
        | some x => x * scale.getD 1
        | none => 0
      .ok { dims := s.d, kn := some kn, exp := some (fun p => Complex.exp (((kickPhase s kn p : ℝ) : ℂ) * (1 * Complex.I))) }

/-- Models `OGridKick::Apply` (src/qdlib/OGridKick.cpp:144-152); a null pointer is dereferenced
without initialisation. -/
noncomputable def Kick.apply {s : Space} (o : Kick s) (ψ : s.Wf) : Ans s.Wf :=
  match o.exp with
  | none => .ub
  | some e => .val (fun p => ψ p * e p)

/-- Models `OGridKick::Copy` (src/qdlib/OGridKick.cpp:121-142): the loop writes the elements of the
momentum vector of the destination, which nobody has allocated in a new operator. -/
def Kick.copy {s : Space} (dst src : Kick s) : Out (Kick s) :=
  let e := match dst.exp with
    | none => src.exp
    | some x => some x
  if src.dims = 0 then .ok { dims := src.dims, kn := dst.kn, exp := e }
  else match dst.kn, src.kn with
    | some _, some k => .ok { dims := src.dims, kn := some k, exp := e }
    | _, _ => .ub

/-! ### Position operator -/

/-- A position operator: the dimension (negative: all), the prefactor and the vector (`none`: no
grid yet) (src/qdlib/OGridPosition.h:22-26). -/
structure Position (s : Space) where
  dim : Int
  scale : ℝ
  vals : Option (s.Pt → ℝ)

/-- The constructor (src/qdlib/OGridPosition.cpp:12-15). -/
noncomputable def Position.new (s : Space) : Position s := { dim := -1, scale := 1, vals := none }

/-- Models `OGridPosition::Init(params)` (src/qdlib/OGridPosition.cpp:23-36). -/
def Position.params {s : Space} (o : Position s) (dim : Option Int) (scale : Option ℝ) :
    Out (Position s) :=
  match dim with
  | some n => if n < 0 then .threw { o with dim := n }
      else .ok { o with dim := n, scale := scale.getD o.scale }
  | none => .ok { o with scale := scale.getD o.scale }

/-- Models `OGridPosition::_InitDim` (src/qdlib/OGridPosition.cpp:40-53). -/
noncomputable def addCoord (s : Space) (scale : ℝ) (i : Fin s.d) (v : s.Pt → ℝ) : s.Pt → ℝ := fun p =>
  v p + ((s.axes i).xmin + (s.axes i).dx * ((p i : Nat) : ℝ)) * scale

/-- Models `OGridPosition::Init(Psi)` (src/qdlib/OGridPosition.cpp:55-84) for a wave function on the
grid. -/
noncomputable def Position.init {s : Space} (o : Position s) : Out (Position s) :=
  match o.vals with
  | some _ => .ok o
  | none =>
    if h : (s.d : Int) < o.dim + 1 then .threw { o with vals := some (fun _ => 0) }
    else if h0 : o.dim < 0 then
      .ok { o with vals := some ((List.finRange s.d).foldl (fun v i => addCoord s o.scale i v) (fun _ => 0)) }
    else
      .ok { o with vals := some (addCoord s o.scale ⟨o.dim.toNat, by omega⟩ (fun _ => 0)) }

/-- Models `OGridPosition::Apply` (src/qdlib/OGridPosition.cpp:97-105). -/
noncomputable def applyReal {s : Space} (v : s.Pt → ℝ) (ψ : s.Wf) : s.Wf := fun p => ψ p * (v p : ℂ)

/-- The axis of the dimension with number `dim`: an index outside of the grid is undefined
(src/qdlib/GridSystem.cpp:165-168, 186-189). -/
def axisAt (s : Space) (dim : Int) : Option (QDng.Grid.Axis ℝ) :=
  if h : 0 ≤ dim ∧ dim < s.d then some (s.axes ⟨dim.toNat, by omega⟩) else none

/-- Models `OGridPosition::Emax` (src/qdlib/OGridPosition.cpp:86-89); without initialisation the
operator has no dimensions. -/
def Position.emax {s : Space} (o : Position s) : Ans ℝ :=
  match o.vals, axisAt s o.dim with
  | some _, some a => .val a.xmax
  | _, _ => .ub

/-- Models `OGridPosition::Emin` (src/qdlib/OGridPosition.cpp:91-94). -/
def Position.emin {s : Space} (o : Position s) : Ans ℝ :=
  match o.vals, axisAt s o.dim with
  | some _, some a => .val a.xmin
  | _, _ => .ub

/-- Models `OGridPosition::Copy` (src/qdlib/OGridPosition.cpp:113-117). -/
def Position.copy {s : Space} (dst src : Position s) : Position s := { dst with vals := src.vals }

/-! ### Potential -/

/-- Models the modifiers in `OGridPotential::Init(params)` (src/qdlib/OGridPotential.cpp:56-76),
applied to the values of the file. -/
noncomputable def potModify {s : Space} (setzero : Bool) (offset scale : ℝ) (v : s.Pt → ℝ) : s.Pt → ℝ :=
  let v1 := if setzero then (let m := vecMin v; fun p => v p - m) else v
  let v2 := if offset ≠ 0 then fun p => v1 p + offset else v1
  if scale ≠ 1 then fun p => v2 p * scale else v2

/-- Models `OGridPotential::Emax` (src/qdlib/OGridPotential.cpp:124-127). -/
noncomputable def potEmax {s : Space} (v : s.Pt → ℝ) : ℝ := vecMax v

/-- Models `OGridPotential::Emin` (src/qdlib/OGridPotential.cpp:129-132). -/
noncomputable def potEmin {s : Space} (v : s.Pt → ℝ) : ℝ := vecMin v

/-- Models `OGridPotential::Apply(dest, source)` (src/qdlib/OGridPotential.cpp:134-137). -/
noncomputable def potApply {s : Space} (v : s.Pt → ℝ) (ψ : s.Wf) : s.Wf := fun p => ψ p * (v p : ℂ)

/-- Models `OGridPotential::ApplyAdd` (src/qdlib/OGridPotential.cpp:139-142). -/
noncomputable def potApplyAdd {s : Space} (v : s.Pt → ℝ) (out ψ : s.Wf) : s.Wf := fun p =>
  out p + ψ p * (v p : ℂ)

/-! ### Flux -/

/-- A flux operator: the listed operators, and whether the two wave functions it works with exist
(src/qdlib/OFlux.h:26-32). -/
structure Flux (s : Space) where
  ops : List (s.Wf → s.Wf)
  buf : Bool
  one : Option s.Wf

/-- The constructor (src/qdlib/OFlux.cpp:12-15), with the operators of the list. -/
def Flux.new (s : Space) (ops : List (s.Wf → s.Wf)) : Flux s := { ops := ops, buf := false, one := none }

/-- Models `OFlux::Init(Psi)` (src/qdlib/OFlux.cpp:30-46). -/
def Flux.init {s : Space} (o : Flux s) : Out (Flux s) :=
  if o.buf then .ok o
  else
    let o' : Flux s := { ops := o.ops, buf := true, one := some (fun _ => -2) }
    if o.ops.length ≠ 2 then .threw o' else .ok o'

/-- Models `OFlux::MatrixElement` (src/qdlib/OFlux.cpp:48-64) with `DirectProductConjugate`
(src/qdlib/WaveFunction.h:280-285, src/math/codelets/MultElementsConjugateCCd.h) and `Imag`. -/
noncomputable def Flux.matrixElement {s : Space} (o : Flux s) (bra ket : s.Wf) : Ans ℂ :=
  if o.buf = false then .ub
  else match o.ops[0]? with
    | none => .threw
    | some T =>
      let b1 := T ket
      let b2 : s.Wf := fun p => (starRingEnd ℂ) (b1 p) * bra p * ((1 : ℝ) : ℂ)
      let b3 : s.Wf := fun p => ((b2 p).im : ℂ)
      match o.ops[1]? with
      | none => .threw
      | some G =>
        match o.one with
        | none => .ub
        | some one => .val (wfMul s one (G b3))

/-- Models `OFlux::Copy` (src/qdlib/OFlux.cpp:81-98) with `OList::Copy` (src/qdlib/OList.cpp:183-199);
the pointer `_buf` keeps its value when the wave function is deleted. -/
def Flux.copy {s : Space} (dst src : Flux s) : Out (Flux s) :=
  if dst.buf then
    if src.buf then .ok { ops := src.ops, buf := true, one := dst.one } else .ub
  else .ok { ops := src.ops, buf := false, one := dst.one }

end QDng.GridFn
