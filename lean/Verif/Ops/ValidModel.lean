/-
Model of the validity checks of composite operators: OList, OMultistate, OGSPO and OSPO.

What a wave function is matters only as far as the checks look at it: the null pointer, a wave function without
states, or a multistate wave function with its list of states.  A member of a composite operator is its own
check.  `none` as an answer: a state outside of the wave function is asked for.
-/

namespace QDng.Ops

/-- What a pointer to a wave function refers to (dynamic_cast in src/qdlib/OMultistate.cpp:328-331): a null
pointer, a wave function of one state, or a multistate wave function. -/
inductive WF (W : Type) where
  | null
  | single (w : W)
  | multi (l : List W)

/-- A check `Valid(Psi)` (src/qdlib/Operator.h:361). -/
abbrev Check (W : Type) := WF W → Bool

/-- Loop of `OList::Valid` (src/qdlib/OList.cpp:207-211). -/
def listValidLoop {W : Type} (psi : WF W) : List (Check W) → Bool → Bool
  | [], valid => valid
  | o :: l, valid =>
    let valid := valid && o psi
    if !valid then false else listValidLoop psi l valid

/-- `OList::Valid` (src/qdlib/OList.cpp:201-212). -/
def listValid {W : Type} (ops : List (Check W)) (psi : WF W) : Bool :=
  match psi with
  | .null => false
  | psi => listValidLoop psi ops true

/-- Loop over the columns of row `i` in `OMultistate::Valid` (src/qdlib/OMultistate.cpp:336-340), `n` rounds
left; every operator of the row is shown the state `s` with the number of the row. -/
def rowValid {W : Type} (m : Nat → Nat → Option (Check W)) (s : W) (i : Nat) : Nat → Nat → Bool
  | 0, _ => true
  | n + 1, j =>
    let valid := match m i j with
      | some o => o (.single s)
      | none => true
    if !valid then false else rowValid m s i n (j + 1)

/-- Loop over the rows (src/qdlib/OMultistate.cpp:335-341); the states from row `i` on. -/
def rowsValid {W : Type} (m : Nat → Nat → Option (Check W)) (nstates : Nat) : Nat → List W → Bool
  | _, [] => true
  | i, s :: l => if !rowValid m s i nstates 0 then false else rowsValid m nstates (i + 1) l

/-- `OMultistate::Valid` (src/qdlib/OMultistate.cpp:322-344) for an operator of `nstates` states with the blocks
`m`. -/
def multiValid {W : Type} (nstates : Nat) (m : Nat → Nat → Option (Check W)) (psi : WF W) : Bool :=
  match psi with
  | .multi l => if l.length ≠ nstates then false else rowsValid m nstates 0 l
  | _ => false

/-- `OGSPO::Valid` (src/qdlib/OGSPO.cpp:167-177). -/
def gspoValid {W : Type} (ops : List (Check W)) (psi : WF W) : Bool :=
  let valid := false
  match ops with
  | [] => valid
  | o :: l => if o psi == false then false else gspoValid l psi

/-- `OSPO::Valid` (src/qdlib/OSPO.cpp:469-489): kinetic operator and first potential. -/
def spoValid {W : Type} (coupling : Bool) (tkin vpot0 : Check W) (psi : WF W) : Bool :=
  match psi with
  | .null => false
  | psi =>
    if coupling then
      match psi with
      | .multi (a :: _b :: []) => (true && tkin (.single a)) && vpot0 (.single a)
      | _ => false
    else (true && tkin psi) && vpot0 psi

end QDng.Ops
