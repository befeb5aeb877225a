import Verif.PLife.Model

/-
Words for the properties of Verif.PLife.Props: the fields a driven Hamiltonian should use, and when its lasers fit a clock.
They do not use the functions of the model.
-/

namespace QDng.PLife

mutual
/-- Lasers that are read from a file have the time step of the clock and at least as many values as it has steps. -/
def Fits (c : Clk) : Op → Prop
  | .plain _ _ => True
  | .laser _ (some _) _ _ => True
  | .laser _ none _ f => c.dt = f.dt ∧ c.steps ≤ f.vals.length
  | .many _ ms => AllFit c ms

/-- All operators of a list. -/
def AllFit (c : Clk) : List Op → Prop
  | [] => True
  | o :: os => Fits c o ∧ AllFit c os
end

mutual
/-- The field values at the time step `c.step`: the value in the file or of the generated pulse, times the factor given
in the input (or the one the laser has). -/
noncomputable def drive (c : Clk) : Op → List ℝ
  | .plain _ _ => []
  | .laser _ (some g) s f => [g c.steps c.dt c.step * s.getD f.scale]
  | .laser _ none s f => [f.vals.getD c.step 0 * s.getD f.scale]
  | .many _ ms => drives c ms

/-- All operators of a list. -/
noncomputable def drives (c : Clk) : List Op → List ℝ
  | [] => []
  | o :: os => drive c o ++ drives c os
end

mutual
/-- There is a laser in the operator that no clock was given to. -/
def Unclocked : Op → Prop
  | .plain _ _ => False
  | .laser _ _ _ f => f.clock = none
  | .many _ ms => AnyUnclocked ms

/-- One of the operators of a list. -/
def AnyUnclocked : List Op → Prop
  | [] => False
  | o :: os => Unclocked o ∨ AnyUnclocked os
end

mutual
/-- No lasers at all. -/
def Static : Op → Prop
  | .plain _ _ => True
  | .laser _ _ _ _ => False
  | .many _ ms => AllStatic ms

/-- All operators of a list. -/
def AllStatic : List Op → Prop
  | [] => True
  | o :: os => Static o ∧ AllStatic os
end

/-- Two moments of the same clock: the time step shown may differ. -/
def SameClock (a b : Clk) : Prop := a.dt = b.dt ∧ a.steps = b.steps

end QDng.PLife
