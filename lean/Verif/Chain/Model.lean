import Verif.Common.OMap
import Verif.Common.Outcome
import Verif.Multi.Model
import Mathlib.Analysis.SpecialFunctions.Pow.Real
import Mathlib.Analysis.SpecialFunctions.Exp
import Mathlib.Analysis.SpecialFunctions.Complex.Circle

/-
Model of the part of the chain loader that builds wave functions from the input: src/ChainLoader.cpp:169-438.

The components of wave functions live in memory cells, because the loader shares them: the states of a multistate wave
function are the objects that were added, and a remapped wave function consists of the states of its input.

Simplifications: all components have the same size, numbers are real and complex numbers, one process, names of the
sections of a multistate wave function carry the number of the state, states of a multistate wave function read from a
file are plain wave functions, messages are left out.
-/

namespace QDng.Chain

open QDng.Common

/-- Options of a section that are handled for every kind of wave function: `normalize`, `phase`, `coeff`, `coeff2`,
`key` (src/ChainLoader.cpp:316-317, 393-431).  An empty key is the same as none. -/
structure Attr where
  normalize : Bool := false
  phase : Option ℝ := none
  coeff : Option ℝ := none
  coeff2 : Option ℝ := none
  key : Str := []

mutual
/-- A section of the input describing a wave function (src/ChainLoader.cpp:319-391): the content of a file (`multi`
tells if it is a multistate wave function, which may have more than one component), a linear combination, a multistate wave function with the parameter `states`
(0 if missing), a remapped one with `statemap` (empty if missing) and `coeffs`. -/
inductive Node (V : Type)
  | file (a : Attr) (multi : Bool) (first : V) (others : List V)
  | lc (a : Attr) (terms : Nodes V)
  | multistate (a : Attr) (states : Int) (parts : Nodes V)
  | multimap (a : Attr) (map : List Int) (coeffs : Option (List ℝ)) (input : Node V)
/-- The sections inside of a section; the number belongs to the name (src/ChainLoader.cpp:177-193, 263-281). -/
inductive Nodes (V : Type)
  | nil
  | cons (index : Int) (head : Node V) (tail : Nodes V)
end

/-- The options of a section (src/ChainLoader.cpp:312). -/
def Node.attr {V : Type} : Node V → Attr
  | .file a _ _ _ => a
  | .lc a _ => a
  | .multistate a _ _ => a
  | .multimap a _ _ _ => a

/-- A wave function object: is it a multistate wave function, and the cells of its components (the strides of
src/math/Vector.h:216-241; src/qdlib/WFMultistate.h:22-27). -/
structure Wf where
  multi : Bool
  cells : List Nat
  deriving DecidableEq, Repr

/-- Memory and the registered wave functions, the newest first (src/ChainLoader.cpp:428-431, registry in
Verif.Registry). -/
structure St (V : Type) where
  cell : Nat → V
  next : Nat
  reg : List (Str × Wf)

/-- What loading gives: a value, an exception, undefined behaviour, or numbers that are not numbers (src/ChainLoader.cpp:300). -/
inductive Res (A : Type)
  | val (a : A)
  | threw
  | ub
  | nan

/-- Sequence of two steps (src/ChainLoader.cpp:300-438). -/
def Res.bind {A B : Type} : Res A → (A → Res B) → Res B
  | .val a, f => f a
  | .threw, _ => .threw
  | .ub, _ => .ub
  | .nan, _ => .nan

/-- Assignment to one cell (src/math/Vector.h:378-401). -/
def St.set {V : Type} (st : St V) (k : Nat) (v : V) : St V :=
  { st with cell := fun j => if j = k then v else st.cell j }

/-- New storage with the given content: `NewInstance` and an assignment, or reading from a file
(src/ChainLoader.cpp:251-252, 273-274, 376-379). -/
def St.alloc {V : Type} (st : St V) : List V → List Nat × St V
  | [] => ([], st)
  | v :: vs =>
    let (cs, st') := ({ st.set st.next v with next := st.next + 1 } : St V).alloc vs
    (st.next :: cs, st')

/-- `MultElements(WF, c)`: every component times a number, one after the other (src/math/codelets/MultElementsCc.h:6-30,
src/math/codelets/MultElementsCd.h:6-30). -/
def St.scale {V : Type} [SMul ℂ V] (st : St V) (c : ℂ) : List Nat → St V
  | [] => st
  | k :: ks => (st.set k (c • st.cell k)).scale c ks

/-- `AddElements(A, B)` (src/math/codelets/AddElementsCC.h:6-33). -/
def St.addTo {V : Type} [Add V] (st : St V) : List Nat → List Nat → St V
  | a :: as, b :: bs => (st.set a (st.cell a + st.cell b)).addTo as bs
  | _, _ => st

/-- `*WF += wfadd` (src/qdlib/WaveFunction.h:247-254). -/
def addWf {V : Type} [Add V] (a b : Wf) (st : St V) : Res (St V) :=
  if a.cells.length ≠ b.cells.length then .threw else .val (st.addTo a.cells b.cells)

/-- `Norm()` squared: the sum over the components (src/qdlib/WaveFunction.h:94-101, src/qdlib/WFMultistate.cpp:158-174). -/
def normSq {V : Type} [Norm V] (st : St V) : List Nat → ℝ
  | [] => 0
  | k :: ks => ‖st.cell k‖ ^ 2 + normSq st ks

open Classical in
/-- `Normalize()` (src/qdlib/WaveFunction.h:103-106, src/qdlib/WFMultistate.cpp:176-182): zero times infinity is not a
number. -/
noncomputable def normalizeWf {V : Type} [Norm V] [SMul ℂ V] (w : Wf) (st : St V) : Res (St V) :=
  let norm := Real.sqrt (normSq st w.cells)
  if norm = 0 then .nan else .val (st.scale ((1 / norm : ℝ) : ℂ) w.cells)

open Classical in
/-- The variable `coeff` after the options were read (src/ChainLoader.cpp:408-416); the root of a negative number is not a
number. -/
noncomputable def coeffValue (a : Attr) : Res ℝ :=
  match a.coeff, a.coeff2 with
  | some c, _ => .val c
  | none, some c2 => if c2 < 0 then .nan else .val (Real.sqrt c2)
  | none, none => .val 0

/-- `*WF *= cexpI(phase * M_PI)` (src/ChainLoader.cpp:401-406). -/
noncomputable def applyPhase {V : Type} [SMul ℂ V] (a : Attr) (w : Wf) (st : St V) : St V :=
  match a.phase with
  | some p => st.scale (Complex.exp (Complex.I * ((p * Real.pi : ℝ) : ℂ))) w.cells
  | none => st

open Classical in
/-- `if (coeff != 0) MultElements(WF, coeff)` (src/ChainLoader.cpp:418-423). -/
noncomputable def applyCoeff {V : Type} [SMul ℂ V] (c : ℝ) (w : Wf) (st : St V) : St V :=
  if c ≠ 0 then st.scale (c : ℂ) w.cells else st

/-- The registration under a key (src/ChainLoader.cpp:426-429). -/
def register {V : Type} (a : Attr) (w : Wf) (st : St V) : St V :=
  if a.key ≠ [] then { st with reg := (a.key, w) :: st.reg } else st

/-- What happens to every wave function after it is loaded (src/ChainLoader.cpp:393-431). -/
noncomputable def finish {V : Type} [Norm V] [SMul ℂ V] (a : Attr) (w : Wf) (st : St V) : Res (Wf × St V) :=
  (if a.normalize then normalizeWf w st else .val st).bind fun st =>
    (coeffValue a).bind fun c => .val (w, register a w (applyCoeff c w (applyPhase a w st)))

/-- `WFMultistate::Add` for a wave function object (src/qdlib/WFMultistate.cpp:43-59): the array of states (`none` is a null
pointer), as in Verif.Multi. -/
def addState (m : Multi.MultiWF Nat) (w : Wf) (index : Int) : Res (Multi.MultiWF Nat) :=
  match m.add (w.cells.headD 0) w.cells.length index with
  | .ok m' => .val m'
  | .threw _ => .threw
  | .ub => .ub

/-- The missing states among the first ones become new ones with zeros (src/qdlib/WFMultistate.cpp:94-123).
Simplification: the order in which they are created; the two passes are modelled in Verif.Multi. -/
def fillCells {V : Type} [Zero V] : List (Option Nat) → St V → List Nat × St V
  | [], st => ([], st)
  | some k :: l, st =>
    let (cs, st') := fillCells l st
    (k :: cs, st')
  | none :: l, st =>
    let (cs, st') := fillCells l { st.set st.next 0 with next := st.next + 1 }
    (st.next :: cs, st')

/-- `WFMultistate::Init(reqsize)` (src/qdlib/WFMultistate.cpp:89-139). -/
def initMulti {V : Type} [Zero V] (m : Multi.MultiWF Nat) (reqsize : Int) (st : St V) : Res (Wf × St V) :=
  if (m.states.take m.nstates).all (·.isNone) then .threw
  else if reqsize > Multi.maxStates then .ub
  else
    let n := if (m.nstates : Int) < reqsize then reqsize.toNat else m.nstates
    let (cs, st') := fillCells (m.states.take m.nstates ++ List.replicate (n - m.nstates) none) st
    .val (⟨true, cs⟩, st')

open Classical in
/-- The loop over the map (src/ChainLoader.cpp:224-237), beginning with input state `i`; `ins` are the states of the
input. -/
noncomputable def mapLoop {V : Type} [SMul ℂ V] (ins : List Nat) (coeffs : List ℝ) :
    Nat → List Int → Multi.MultiWF Nat → St V → Res (Multi.MultiWF Nat × St V)
  | _, [], m, st => .val (m, st)
  | i, t :: ts, m, st =>
    if t ≥ ins.length ∨ t < 0 then .threw
    else (addState m ⟨false, [ins.getD i 0]⟩ t).bind fun m =>
      match coeffs[i]? with
      | none => mapLoop ins coeffs (i + 1) ts m (st.scale 0 [ins.getD i 0])
      | some c => mapLoop ins coeffs (i + 1) ts m (st.scale (c : ℂ) [ins.getD i 0])

/-- A map with at most one entry (src/ChainLoader.cpp:243-254). -/
noncomputable def pickOne {V : Type} [SMul ℂ V] (map : List Int) (coeffs : List ℝ) (win : Wf) (st : St V) :
    Res (Wf × St V) :=
  match map, coeffs with
  | [], _ => .ub
  | t :: _, [] => if t ≥ win.cells.length ∨ t < 0 then .threw else .ub
  | t :: _, c :: _ =>
    if t ≥ win.cells.length ∨ t < 0 then .threw
    else
      let r := st.alloc [st.cell (win.cells.getD t.toNat 0)]
      .val (⟨false, r.1⟩, r.2.scale (c : ℂ) r.1)

/-- `LoadWFMultimap_` after the input is loaded (src/ChainLoader.cpp:204-254). -/
noncomputable def multimap {V : Type} [Zero V] [SMul ℂ V] (map : List Int) (coeffs : Option (List ℝ)) (win : Wf)
    (st : St V) : Res (Wf × St V) :=
  if ¬ win.multi then .threw
  else if map.length > win.cells.length then .threw
  else if map.length > 1 then
    (mapLoop win.cells (coeffs.getD (List.replicate map.length 1)) 0 map (Multi.MultiWF.new Nat) st).bind fun r =>
      initMulti r.1 0 r.2
  else pickOne map (coeffs.getD (List.replicate map.length 1)) win st

/-- The first use of a term of a linear combination: it is copied, or added to what is there (src/ChainLoader.cpp:272-277). -/
def lcTerm {V : Type} [Add V] (acc : Option Wf) (w : Wf) (st : St V) : Res (Wf × St V) :=
  match acc with
  | none =>
    let (cs, st') := st.alloc (w.cells.map st.cell)
    .val (⟨w.multi, cs⟩, st')
  | some s => (addWf s w st).bind fun st' => .val (s, st')

/-- The end of a linear combination; without terms there is no wave function (src/tools/XmlNode.cpp:43-57,
src/ChainLoader.cpp:360-363). -/
noncomputable def finishLC {V : Type} [Norm V] [SMul ℂ V] (a : Attr) (acc : Option Wf) (st : St V) : Res (Wf × St V) :=
  match acc with
  | none => .ub
  | some w => finish a w st

/-- Are there no sections inside (src/tools/XmlNode.cpp:43-57)? -/
def Nodes.isEmpty {V : Type} : Nodes V → Bool
  | .nil => true
  | .cons _ _ _ => false

mutual
/-- `LoadWaveFunctionChain` (src/ChainLoader.cpp:300-438).  A section without the sections it needs leads to a null
pointer (src/tools/XmlNode.cpp:43-57). -/
noncomputable def load {V : Type} [Zero V] [Add V] [Norm V] [SMul ℂ V] : Node V → St V → Res (Wf × St V)
  | .file a multi first others, st =>
    let (cs, st') := st.alloc (first :: others)
    finish a ⟨multi, cs⟩ st'
  | .lc a terms, st =>
    (loadLC terms none st).bind fun r => finishLC a r.1 r.2
  | .multistate a states parts, st =>
    if parts.isEmpty then .ub
    else (loadStates parts (Multi.MultiWF.new Nat) st).bind fun r =>
      (initMulti r.1 states r.2).bind fun r => finish a r.1 r.2
  | .multimap a map coeffs input, st =>
    (load input st).bind fun r => (multimap map coeffs r.1 r.2).bind fun r => finish a r.1 r.2

/-- The loop of `LoadWFLC_` (src/ChainLoader.cpp:263-281).  The local coefficient is never set; a term that is not
registered is deleted, which no other object notices. -/
noncomputable def loadLC {V : Type} [Zero V] [Add V] [Norm V] [SMul ℂ V] :
    Nodes V → Option Wf → St V → Res (Option Wf × St V)
  | .nil, acc, st => .val (acc, st)
  | .cons _ n rest, acc, st =>
    (load n st).bind fun r =>
      (lcTerm acc r.1 r.2).bind fun q => (addWf q.1 r.1 q.2).bind fun st' => loadLC rest (some q.1) st'

/-- The loop of `LoadWFMultistate_` (src/ChainLoader.cpp:177-191). -/
noncomputable def loadStates {V : Type} [Zero V] [Add V] [Norm V] [SMul ℂ V] :
    Nodes V → Multi.MultiWF Nat → St V → Res (Multi.MultiWF Nat × St V)
  | .nil, m, st => .val (m, st)
  | .cons index n rest, m, st =>
    (load n st).bind fun r => (addState m r.1 index).bind fun m => loadStates rest m r.2
end

end QDng.Chain
