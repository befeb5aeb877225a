import Mathlib.Tactic.Ring
import Mathlib.Tactic.FieldSimp
import Mathlib.Tactic.NormNum
import Mathlib.Tactic.Positivity
import Mathlib.Tactic.Linarith
import Verif.LaserGen.Spec

/-
Properties of the laser fields of operators.

C249: a generated field is the pulse of the handbook.
C250: where the field comes from, and clocks one after another.
C251: a generated field that was written to a file is read back.
C252: copies of operators with a generated field.
C253: the power spectrum stays inside its arrays.
C254: polarisation vectors are deleted once.
-/

namespace QDng.LaserGen
open Common Spec

/-! ### C249 -/

/-- An operator with a generated field behind `Init`. -/
def ready (type : String) (p : Params) : OLaser := { lasers := [{}], gen := some (type, p), scale := p.scale }

theorem init_gen (fs : Files) (p : Params) (type : String) (o : OLaser) (h : Generated fs p type o) :
    known type ∧ o = ready type p := by
  obtain ⟨h1, h2, h3⟩ := h
  simp only [OLaser.init, OLaser.new, List.replicate, initOne, h1, h2] at h3
  by_cases hk : known type
  · rw [if_pos hk] at h3
    injection h3 with h3
    exact ⟨hk, h3.symm⟩
  · rw [if_neg hk] at h3
    cases h3

/-- The laser of an operator with a generated field behind `Clock`. -/
noncomputable def genLaser (cl : Clk) (type : String) (p : Params) (l : Laser) : Laser :=
  setScale p.scale { l with v := genField cl type p, dt := some cl.dt }

theorem clock_ready (cl : Clk) (type : String) (p : Params) (l : Laser) (fs : Files) :
    OLaser.clock cl { lasers := [l], gen := some (type, p), scale := p.scale } fs =
      .val ({ lasers := [genLaser cl type p l], gen := some (type, p), scale := p.scale },
        dump p { l with v := genField cl type p, dt := some cl.dt } fs) := rfl

theorem genField_length (cl : Clk) (type : String) (p : Params) : (genField cl type p).length = cl.steps := by
  simp [genField]

theorem genField_get (cl : Clk) (type : String) (p : Params) (i : Nat) (h : i < cl.steps) :
    (genField cl type p)[i]? = some (genValue cl type p i) := by
  simp [genField, h]

theorem setScale_v (s : Option ℝ) (l : Laser) : (setScale s l).v = l.v := by cases s <;> rfl

theorem setScale_dt (s : Option ℝ) (l : Laser) : (setScale s l).dt = l.dt := by cases s <;> rfl

theorem setScale_scale (s : Option ℝ) (l : Laser) : (setScale s l).scale = s.getD l.scale := by cases s <;> rfl

theorem genLaser_get (cl : Clk) (type : String) (p : Params) (l : Laser) (i : Nat) (h : i < cl.steps) :
    (genLaser cl type p l).get i = .val ((genValue cl type p i).scale (p.scale.getD l.scale)) := by
  unfold Laser.get genLaser
  rw [setScale_v, setScale_scale]
  dsimp only
  rw [genField_get cl type p i h]

theorem at_eq (cl : Clk) (g : Given) (h : Fits cl g) (t : ℝ) :
    (readPulse cl g).at t = .num (handbook (duration cl) g t) := by
  obtain ⟨h1, h2, h3⟩ := h
  have e1 : (readPulse cl g).t0 = g.t0.getD (duration cl / 2) := by
    unfold readPulse defaults duration
    cases h : g.t0 with
    | some x => rfl
    | none =>
      obtain ⟨k, hk⟩ := h1 h
      simp only [Option.getD_none, hk]
      rw [Nat.mul_div_cancel_left _ (by norm_num)]
      push_cast
      ring
  have e2 : (readPulse cl g).sigma = g.sigma.getD (duration cl / 8) := by
    unfold readPulse defaults duration
    cases h : g.sigma with
    | some x => rfl
    | none =>
      obtain ⟨⟨k, hk⟩, _⟩ := h2 h
      simp only [Option.getD_none, hk]
      rw [Nat.mul_div_cancel_left _ (by norm_num)]
      push_cast
      ring
  have e3 : g.sigma.getD (duration cl / 8) ≠ 0 := by
    cases h : g.sigma with
    | some x =>
      intro e
      exact h3 (by rw [h]; exact congrArg some e)
    | none =>
      have := (h2 h).2
      simp only [Option.getD_none]
      intro e
      exact this (by linarith)
  unfold Pulse.at handbook pulse
  rw [if_neg (by rw [e2]; exact e3), e1, e2]
  congr 2
  · congr 2
    field_simp
  · congr 1
    simp only [readPulse, defaults]
    ring

/-- A single pulse: the field of the operator at each step is the one of the handbook times the parameter scale.  The
default values are these of the handbook only if the number of steps can be divided by 2 and 8. -/
theorem C249_single_partial (fs : Files) (p : Params) (o o' : OLaser) (cl : Clk) (fs' : Files)
    (hg : Generated fs p "gauss" o) (hc : o.clock cl fs = .val (o', fs')) (hf : Fits cl p.first) (i : Nat)
    (hi : i < cl.steps) :
    o'.field 0 i = .val (.num (handbook (duration cl) p.first (i * cl.dt) * p.scale.getD 1)) := by
  obtain ⟨_, rfl⟩ := init_gen fs p _ o hg
  rw [ready, clock_ready] at hc
  injection hc with hc
  obtain ⟨rfl, _⟩ := Prod.mk.inj hc
  show (genLaser cl "gauss" p {}).get i = _
  rw [genLaser_get cl _ p _ i hi, genValue, if_neg (by decide), at_eq cl p.first hf]
  rfl

/-- Two pulses: the field is their sum. -/
theorem C249_double_partial (fs : Files) (p : Params) (o o' : OLaser) (cl : Clk) (fs' : Files)
    (hg : Generated fs p "gauss2" o) (hc : o.clock cl fs = .val (o', fs')) (hf : Fits cl p.first)
    (hs : Fits cl p.second) (i : Nat) (hi : i < cl.steps) :
    o'.field 0 i = .val (.num ((handbook (duration cl) p.first (i * cl.dt) +
      handbook (duration cl) p.second (i * cl.dt)) * p.scale.getD 1)) := by
  obtain ⟨_, rfl⟩ := init_gen fs p _ o hg
  rw [ready, clock_ready] at hc
  injection hc with hc
  obtain ⟨rfl, _⟩ := Prod.mk.inj hc
  show (genLaser cl "gauss2" p {}).get i = _
  rw [genLaser_get cl _ p _ i hi, genValue, if_pos rfl, at_eq cl p.first hf, at_eq cl p.second hs]
  rfl

/-- The field read by an operator with a single pulse. -/
theorem single_get (fs : Files) (p : Params) (o o' : OLaser) (cl : Clk) (fs' : Files)
    (hg : Generated fs p "gauss" o) (hc : o.clock cl fs = .val (o', fs')) (i : Nat) (hi : i < cl.steps) :
    o'.field 0 i = .val (((readPulse cl p.first).at (i * cl.dt)).scale (p.scale.getD 1)) := by
  obtain ⟨_, rfl⟩ := init_gen fs p _ o hg
  rw [ready, clock_ready] at hc
  injection hc with hc
  obtain ⟨rfl, _⟩ := Prod.mk.inj hc
  show (genLaser cl "gauss" p {}).get i = _
  rw [genLaser_get cl _ p _ i hi, genValue, if_neg (by decide)]

/-- With fewer than 8 steps and without a width in the input the field is not a number at the middle step, and zero at
the others. -/
theorem C249_violated_short (fs : Files) (p : Params) (o o' : OLaser) (cl : Clk) (fs' : Files)
    (hg : Generated fs p "gauss" o) (hc : o.clock cl fs = .val (o', fs')) (ht : p.first.t0 = none)
    (hs : p.first.sigma = none) (hn : cl.steps < 8) (hd : cl.dt ≠ 0) (i : Nat) (hi : i < cl.steps) :
    o'.field 0 i = .val (if i = cl.steps / 2 then .nan else .num 0) := by
  rw [single_get fs p o o' cl fs' hg hc i hi]
  have e1 : (readPulse cl p.first).sigma = 0 := by
    simp [readPulse, defaults, hs, Nat.div_eq_of_lt hn]
  have e2 : (readPulse cl p.first).t0 = ((cl.steps / 2 : Nat) : ℝ) * cl.dt := by
    simp only [readPulse, defaults, ht, Option.getD_none]
  unfold Pulse.at
  rw [if_pos e1, e2]
  by_cases h : i = cl.steps / 2
  · rw [if_pos h, if_pos (by rw [h])]; rfl
  · rw [if_neg h, if_neg fun e => h (by exact_mod_cast mul_right_cancel₀ hd e)]
    simp [Num.scale]

/-- With an odd number of steps the pulse is not in the middle: with the other default values, the first half of the
steps (rounded down) is at its maximum, where the pulse of the handbook is smaller. -/
theorem C249_violated_center (fs : Files) (p : Params) (o o' : OLaser) (cl : Clk) (fs' : Files) (s : ℝ)
    (hg : Generated fs p "gauss" o) (hc : o.clock cl fs = .val (o', fs')) (hp : p.first = { sigma := some s })
    (hs : s ≠ 0) (hn : cl.steps % 2 = 1) (hd : cl.dt ≠ 0) (hsc : p.scale = none) :
    o'.field 0 (cl.steps / 2) = .val (.num 0.0001) ∧
    handbook (duration cl) p.first ((cl.steps / 2 : Nat) * cl.dt) < 0.0001 := by
  constructor
  · rw [single_get fs p o o' cl fs' hg hc _ (by omega), hp, hsc]
    simp [readPulse, defaults, Pulse.at, hs, Num.scale]
  · rw [hp]
    unfold handbook pulse duration
    simp only [Option.getD_none, Option.getD_some]
    have hk : (cl.steps : ℝ) = 2 * ((cl.steps / 2 : Nat) : ℝ) + 1 := by
      have : cl.steps = 2 * (cl.steps / 2) + 1 := by omega
      exact_mod_cast this
    have ht : ((cl.steps / 2 : Nat) : ℝ) * cl.dt - cl.steps * cl.dt / 2 = -(cl.dt / 2) := by rw [hk]; ring
    rw [ht]
    have hneg : -(-(cl.dt / 2)) ^ 2 / (2 * s ^ 2) < 0 := by
      apply div_neg_of_neg_of_pos
      · have : 0 < (-(cl.dt / 2)) ^ 2 := by rw [neg_sq]; positivity
        linarith
      · positivity
    have he : Real.exp (-(-(cl.dt / 2)) ^ 2 / (2 * s ^ 2)) < 1 := by
      rw [← Real.exp_zero]; exact Real.exp_lt_exp.mpr hneg
    have hp := Real.exp_pos (-(-(cl.dt / 2)) ^ 2 / (2 * s ^ 2))
    have hcos := Real.cos_le_one (0.05695 * -(cl.dt / 2) + 0 * (-(cl.dt / 2)) ^ 2 + 0)
    nlinarith

/-- If the number of steps is not a multiple of 8 the default width is too small: a pulse without oscillation at the
beginning of the time decays faster than the one of the handbook. -/
theorem C249_violated_width (fs : Files) (p : Params) (o o' : OLaser) (cl : Clk) (fs' : Files)
    (hg : Generated fs p "gauss" o) (hc : o.clock cl fs = .val (o', fs'))
    (hp : p.first = { t0 := some 0, w0 := some 0 }) (hn : cl.steps % 8 ≠ 0) (h8 : 8 ≤ cl.steps) (hd : 0 < cl.dt)
    (hsc : p.scale = none) (i : Nat) (h1 : 1 ≤ i) (hi : i < cl.steps) :
    ∃ x, o'.field 0 i = .val (.num x) ∧ x < handbook (duration cl) p.first (i * cl.dt) := by
  have hq : (0 : ℝ) < ((cl.steps / 8 : Nat) : ℝ) := by
    have : 0 < cl.steps / 8 := Nat.div_pos h8 (by norm_num)
    exact_mod_cast this
  have hlt : ((cl.steps / 8 : Nat) : ℝ) < cl.steps / 8 := by
    have : 8 * (cl.steps / 8) < cl.steps := by omega
    have : (8 : ℝ) * ((cl.steps / 8 : Nat) : ℝ) < cl.steps := by exact_mod_cast this
    linarith
  have hs : ((cl.steps / 8 : Nat) : ℝ) * cl.dt ≠ 0 := (mul_pos hq hd).ne'
  rw [single_get fs p o o' cl fs' hg hc i hi, hp, hsc]
  refine ⟨0.0001 * Real.exp (-(i * cl.dt) ^ 2 / (2 * (((cl.steps / 8 : Nat) : ℝ) * cl.dt) ^ 2)), ?_, ?_⟩
  · have e : (readPulse cl { t0 := some 0, w0 := some 0 }).at (i * cl.dt) =
        .num (0.0001 * Real.exp (-(i * cl.dt) ^ 2 / (2 * (((cl.steps / 8 : Nat) : ℝ) * cl.dt) ^ 2))) := by
      unfold Pulse.at
      rw [if_neg (show (readPulse cl { t0 := some 0, w0 := some 0 }).sigma ≠ 0 from hs)]
      simp only [readPulse, defaults, Option.getD_none, Option.getD_some, zero_mul, add_zero, Real.cos_zero, mul_one,
        sub_zero]
      congr 3
      field_simp
    rw [e]
    simp [Num.scale]
  · unfold handbook pulse duration
    simp only [Option.getD_none, Option.getD_some, zero_mul, add_zero, Real.cos_zero, mul_one, sub_zero]
    apply mul_lt_mul_of_pos_left _ (by norm_num)
    apply Real.exp_lt_exp.mpr
    have hi' : (0 : ℝ) < (i * cl.dt) ^ 2 := by
      have : (0 : ℝ) < i := by exact_mod_cast h1
      positivity
    rw [neg_div, neg_div]
    apply neg_lt_neg
    apply div_lt_div_of_pos_left hi'
    · have := mul_pos hq hd
      positivity
    · have a := mul_pos hq hd
      have b : ((cl.steps / 8 : Nat) : ℝ) * cl.dt < cl.steps * cl.dt / 8 := by nlinarith
      nlinarith

/-- An operator with several lasers does not generate pulses: without files it is refused, whatever pulse is asked for. -/
theorem C249_violated_several (fs : Files) (p : Params) (n : Nat) (hl : p.laser = none) (h0 : p.laserAt 0 = none) :
    (OLaser.new (n + 2)).init fs p = .threw := by
  simp [OLaser.init, OLaser.new, List.replicate_succ, loadAll, fileOf, hl, h0]

/-! ### C250 -/

/-- One laser: a file comes before a pulse; with neither, or an unknown pulse, or a file that can not be used, there is
an error. -/
theorem C250_source (fs : Files) (p : Params) :
    (∀ name dt v, p.laser = some name → fs name = some (.data dt v) → v ≠ [] → 0 < dt →
      ∃ o, (OLaser.new 1).init fs p = .val o ∧ o.gen = none ∧ ∀ i, o.field 0 i =
        match v[i]? with | none => .ub | some x => .val (x.scale 1)) ∧
    (∀ name, p.laser = some name → (fs name = none ∨ (∃ dt, fs name = some (.data dt [])) ∨
      ∃ dt v, fs name = some (.data dt v) ∧ dt ≤ 0) → (OLaser.new 1).init fs p = .threw) ∧
    (p.laser = none → ((OLaser.new 1).init fs p = .threw ↔ p.gen ≠ some "gauss" ∧ p.gen ≠ some "gauss2")) := by
  refine ⟨fun name dt v hl hf hv hd => ?_, fun name hl hf => ?_, fun hl => ?_⟩
  · refine ⟨{ lasers := [{ v := v, dt := some dt }], scale := p.scale }, ?_, rfl, fun i => rfl⟩
    simp only [OLaser.init, OLaser.new, List.replicate, initOne, hl, Laser.load, hf]
    rw [if_neg hv, if_neg (not_le.mpr hd)]
  · simp only [OLaser.init, OLaser.new, List.replicate, initOne, hl, Laser.load]
    rcases hf with h | ⟨dt, h⟩ | ⟨dt, v, h, hd⟩
    · rw [h]
    · rw [h]; dsimp only; rw [if_pos rfl]
    · rw [h]; dsimp only
      by_cases hv : v = []
      · rw [if_pos hv]
      · rw [if_neg hv, if_pos hd]
  · simp only [OLaser.init, OLaser.new, List.replicate, initOne, hl]
    cases hg : p.gen with
    | none => simp
    | some type =>
      dsimp only
      by_cases hk : known type
      · rw [if_pos hk]
        rcases hk with rfl | rfl <;> simp
      · rw [if_neg hk]
        unfold known at hk
        rw [not_or] at hk
        simp [hk.1, hk.2]

theorem clocks_ready (cs : List Clk) (c : Clk) (type : String) (p : Params) (l : Laser) (fs : Files)
    (hl : l.scale = 1 ∨ p.scale = some l.scale) :
    ∃ l' fs', clocks (cs ++ [c]) { lasers := [l], gen := some (type, p), scale := p.scale } fs =
      .val ({ lasers := [genLaser c type p l'], gen := some (type, p), scale := p.scale }, fs') ∧
        (l'.scale = 1 ∨ p.scale = some l'.scale) := by
  induction cs generalizing l fs with
  | nil => exact ⟨l, _, rfl, hl⟩
  | cons d ds ih =>
    show ∃ l' fs', (clocks (d :: (ds ++ [c])) _ _) = _ ∧ _
    rw [clocks, clock_ready]
    refine ih _ _ ?_
    unfold genLaser
    rw [setScale_scale]
    cases h : p.scale with
    | none => rcases hl with hl | hl
              · exact .inl hl
              · rw [h] at hl; cases hl
    | some s => exact .inr rfl

/-- A generated field follows the clock: no clock is refused, and behind any number of clocks the field is the one
generated for the last of them. -/
theorem C250_clocks (fs : Files) (p : Params) (type : String) (o : OLaser) (hg : Generated fs p type o) (cs : List Clk)
    (c : Clk) :
    ∃ o' fs', clocks (cs ++ [c]) o fs = .val (o', fs') ∧
      ∃ o1 fs1, o.clock c fs = .val (o1, fs1) ∧ ∀ i, i < c.steps → ∃ x, o'.field 0 i = .val x ∧ o1.field 0 i = .val x := by
  obtain ⟨_, rfl⟩ := init_gen fs p _ o hg
  obtain ⟨l', fs', h, hl⟩ := clocks_ready cs c type p {} fs (.inl rfl)
  refine ⟨_, fs', h, _, _, clock_ready c type p {} fs, fun i hi => ?_⟩
  refine ⟨(genValue c type p i).scale (p.scale.getD 1), ?_, genLaser_get c type p {} i hi⟩
  show (genLaser c type p l').get i = _
  rw [genLaser_get c type p l' i hi]
  rcases hl with hl | hl
  · rw [hl]
  · rw [hl]; rfl

/-- A field from a file does not: exactly the clocks with its time step and no more steps than values are accepted. -/
theorem C250_file (fs : Files) (p : Params) (name : String) (dt : ℝ) (v : List Num) (o : OLaser)
    (hl : p.laser = some name) (hf : fs name = some (.data dt v)) (hi : (OLaser.new 1).init fs p = .val o) (c : Clk) :
    (c.dt = dt ∧ c.steps ≤ v.length → ∃ o', o.clock c fs = .val (o', fs) ∧ ∀ i, i < c.steps → ∃ x, v[i]? = some x ∧
      o'.field 0 i = .val (x.scale (p.scale.getD 1))) ∧
    (¬ (c.dt = dt ∧ c.steps ≤ v.length) → o.clock c fs = .threw) := by
  have ho : o = { lasers := [{ v := v, dt := some dt }], scale := p.scale } := by
    simp only [OLaser.init, OLaser.new, List.replicate, initOne, hl, Laser.load, hf] at hi
    by_cases hv : v = []
    · rw [if_pos hv] at hi; cases hi
    · rw [if_neg hv] at hi
      by_cases hd : dt ≤ 0
      · rw [if_pos hd] at hi; cases hi
      · rw [if_neg hd] at hi
        injection hi with hi
        exact hi.symm
  subst ho
  refine ⟨fun ⟨h1, h2⟩ => ⟨{ lasers := [setScale p.scale { v := v, dt := some dt }], scale := p.scale }, ?_, fun i hi => ?_⟩,
    fun h => ?_⟩
  · simp only [OLaser.clock, clockAll, Laser.setClock]
    rw [if_neg (by omega), if_pos h1]
    rfl
  · refine ⟨v[i]'(by omega), List.getElem?_eq_getElem (by omega), ?_⟩
    show (setScale p.scale _).get i = _
    unfold Laser.get
    rw [setScale_v, setScale_scale]
    dsimp only
    rw [List.getElem?_eq_getElem (by omega)]
  · simp only [OLaser.clock, clockAll, Laser.setClock]
    by_cases h2 : v.length < c.steps
    · rw [if_pos h2]
    · rw [if_neg h2, if_neg fun e => h ⟨e, by omega⟩]

/-! ### C251 -/

/-- A generated field that was written to a file is the same at each step if it is read in another run with the same
clock and the same parameter scale. -/
theorem C251_reload_partial (fs : Files) (p : Params) (type : String) (o o1 : OLaser) (c : Clk) (fs1 : Files)
    (hg : Generated fs p type o) (hc : o.clock c fs = .val (o1, fs1)) (name : String) (hn : p.lasero = some name)
    (q : Params) (hq : q.laser = some name) (hs : q.scale = p.scale) (hd : 0 < c.dt) (h0 : 0 < c.steps) :
    ∃ r r1, (OLaser.new 1).init fs1 q = .val r ∧ r.clock c fs1 = .val (r1, fs1) ∧
      ∀ i, i < c.steps → ∃ x, o1.field 0 i = .val x ∧ r1.field 0 i = .val x := by
  obtain ⟨_, rfl⟩ := init_gen fs p _ o hg
  rw [ready, clock_ready] at hc
  injection hc with hc
  obtain ⟨rfl, rfl⟩ := Prod.mk.inj hc
  have hlen := genField_length c type p
  have hne : genField c type p ≠ [] := fun e => by rw [e] at hlen; simp at hlen; omega
  have hfile : dump p { v := genField c type p, dt := some c.dt } fs name = some (.data c.dt (genField c type p)) := by
    unfold dump Laser.save
    rw [hn]
    dsimp only
    rw [if_pos rfl, if_neg (by omega)]
    rfl
  obtain ⟨r, hr, _, _⟩ := (C250_source _ q).1 name c.dt _ hq hfile hne hd
  obtain ⟨r1, hr1, hv⟩ := (C250_file _ q name c.dt _ r hq hfile hr c).1 ⟨rfl, by omega⟩
  refine ⟨r, r1, hr, hr1, fun i hi => ⟨(genValue c type p i).scale (p.scale.getD 1), genLaser_get c type p {} i hi, ?_⟩⟩
  obtain ⟨x, hx, hx2⟩ := hv i hi
  rw [genField_get c type p i hi] at hx
  injection hx with hx
  rw [hx2, ← hx, hs]

/-- A time step that is not positive is accepted for generating and writing a field, but the file can not be read. -/
theorem C251_violated_backward (fs : Files) (p : Params) (type : String) (o : OLaser) (c : Clk)
    (hg : Generated fs p type o) (name : String) (hn : p.lasero = some name) (q : Params) (hq : q.laser = some name)
    (hd : c.dt ≤ 0) (h0 : 0 < c.steps) :
    ∃ o1 fs1, o.clock c fs = .val (o1, fs1) ∧ (OLaser.new 1).init fs1 q = .threw := by
  obtain ⟨_, rfl⟩ := init_gen fs p _ o hg
  refine ⟨_, _, clock_ready c type p {} fs, (C250_source _ q).2.1 name hq (.inr (.inr ⟨c.dt, genField c type p, ?_, hd⟩))⟩
  have hlen := genField_length c type p
  unfold dump Laser.save
  rw [hn]
  dsimp only
  rw [if_pos rfl, if_neg (by omega)]
  rfl

/-! ### C252 -/

/-- A copy that is made behind `Clock` has the same field with this clock. -/
theorem C252_copy_partial (fs : Files) (p : Params) (type : String) (o o1 : OLaser) (c : Clk) (fs1 : Files)
    (hg : Generated fs p type o) (hc : o.clock c fs = .val (o1, fs1)) :
    ∃ o2, o1.copyOf.clock c fs1 = .val (o2, fs1) ∧
      ∀ i, i < c.steps → ∃ x, o1.field 0 i = .val x ∧ o2.field 0 i = .val x := by
  obtain ⟨_, rfl⟩ := init_gen fs p _ o hg
  rw [ready, clock_ready] at hc
  injection hc with hc
  obtain ⟨rfl, rfl⟩ := Prod.mk.inj hc
  refine ⟨{ lasers := [setScale p.scale (Laser.assign {} (genLaser c type p {}))], scale := p.scale }, ?_, fun i hi =>
    ⟨(genValue c type p i).scale (p.scale.getD 1), genLaser_get c type p {} i hi, ?_⟩⟩
  · simp only [OLaser.copyOf, OLaser.clock, clockAll, Laser.setClock, Laser.assign, genLaser, setScale_v, setScale_dt]
    rw [genField_length, if_neg (by omega), if_pos trivial]
    rfl
  · show (setScale p.scale _).get i = _
    unfold Laser.get
    rw [setScale_v, setScale_scale]
    simp only [Laser.assign, genLaser, setScale_v]
    rw [genField_get c type p i hi]

/-- A copy that is made before `Clock` does not generate the field: it refuses each clock. -/
theorem C252_violated_early (fs : Files) (p : Params) (type : String) (o : OLaser) (hg : Generated fs p type o) (c : Clk)
    (h0 : 0 < c.steps) : o.copyOf.clock c fs = .threw ∧ ∃ o1 fs1, o.clock c fs = .val (o1, fs1) := by
  obtain ⟨_, rfl⟩ := init_gen fs p _ o hg
  refine ⟨?_, _, _, clock_ready c type p {} fs⟩
  simp only [ready, OLaser.copyOf, OLaser.clock, clockAll, Laser.setClock, Laser.assign]
  rw [if_pos (show ([] : List Num).length < c.steps from h0)]

/-- A copy that is made behind `Clock` refuses all clocks with more steps or another time step, the original does not. -/
theorem C252_violated_other (fs : Files) (p : Params) (type : String) (o o1 : OLaser) (c d : Clk) (fs1 : Files)
    (hg : Generated fs p type o) (hc : o.clock c fs = .val (o1, fs1)) (h : c.steps < d.steps ∨ d.dt ≠ c.dt) :
    o1.copyOf.clock d fs1 = .threw ∧ ∃ o2 fs2, o1.clock d fs1 = .val (o2, fs2) := by
  obtain ⟨_, rfl⟩ := init_gen fs p _ o hg
  rw [ready, clock_ready] at hc
  injection hc with hc
  obtain ⟨rfl, rfl⟩ := Prod.mk.inj hc
  refine ⟨?_, _, _, clock_ready d type p _ _⟩
  simp only [OLaser.copyOf, OLaser.clock, clockAll, Laser.setClock, Laser.assign, genLaser, setScale_v, setScale_dt]
  rw [genField_length]
  by_cases h1 : c.steps < d.steps
  · rw [if_pos h1]
  · rw [if_neg h1, if_neg (h.resolve_left h1)]

/-! ### C253 -/

/-- The power spectrum of a field with an accepted clock stays inside its arrays for up to two steps only. -/
theorem C253_bounds_partial (size steps : Nat) (h : steps ≤ size) :
    (steps ≤ 2 → Sizes.power ⟨size, some steps, none⟩ = .val (steps / 2 + 1)) ∧
    (3 ≤ steps → Sizes.power ⟨size, some steps, none⟩ = .ub) := by
  have e : Sizes.power ⟨size, some steps, none⟩ = if steps ≤ steps / 2 + 1 ∧ steps ≤ steps / 2 + 1 then .val (steps / 2 + 1)
      else .ub := by
    simp only [Sizes.power, Sizes.transform, if_pos h]
  rw [e]
  exact ⟨fun h => if_pos (by omega), fun h => if_neg (by omega)⟩

/-! ### C254 -/

/-- The state of the pointer that belongs to a history. -/
def Matches (s : Pol) (made on : Bool) : Prop :=
  s.use = on ∧ s.ptr = (if made then .live else .null) ∧ (on = true → made = true)

theorem life_dangling (cs : List Call) (use : Bool) : Pol.life ⟨.dangling, use⟩ cs = false := by
  induction cs generalizing use with
  | nil => rfl
  | cons c cs ih =>
    rw [Pol.life]
    rcases c with ⟨_ | _⟩ | n
    · exact ih false
    · rfl
    · rfl

theorem life_eq (cs : List Call) (s : Pol) (made on : Bool) (h : Matches s made on) : s.life cs = !lost made on cs := by
  induction cs generalizing s made on with
  | nil =>
    obtain ⟨_, h2, _⟩ := h
    rw [Pol.life, h2]
    cases made <;> rfl
  | cons c cs ih =>
    obtain ⟨h1, h2, h3⟩ := h
    rw [Pol.life]
    rcases c with ⟨_ | _⟩ | n
    · exact ih _ made false ⟨rfl, h2, fun e => by cases e⟩
    · have : s.call (.usePol true) = some { ptr := .live, use := true } := by
        unfold Pol.call
        rw [h2]
        cases made <;> rfl
      rw [this]
      exact ih _ true true ⟨rfl, rfl, fun _ => rfl⟩
    · have : s.call (.numLaser n) = some s.renew := by
        unfold Pol.call
        dsimp only
        rw [h2]
        cases made <;> rfl
      rw [this, lost]
      dsimp only
      unfold Pol.renew
      rw [h1]
      cases on
      · cases made
        · rw [if_neg (by decide), if_pos (show s.ptr = .null from h2)]
          exact ih _ false false ⟨h1, h2, fun e => by cases e⟩
        · rw [if_neg (by decide), if_neg (by rw [h2]; decide), life_dangling]
          rfl
      · obtain rfl := h3 rfl
        rw [if_pos rfl]
        exact ih _ true true ⟨rfl, rfl, fun _ => rfl⟩

/-- An operator deletes its polarisation vectors once exactly if the number of lasers is never changed while there are
vectors that are switched off. -/
theorem C254_once_partial (cs : List Call) : Pol.life Pol.new cs = !lost false false cs :=
  life_eq cs _ _ _ ⟨rfl, rfl, fun e => by cases e⟩

/-- Switching polarisation on and off and then changing the number of lasers deletes the vectors twice. -/
theorem C254_violated (n : Nat) (cs : List Call) :
    Pol.life Pol.new (.usePol true :: .usePol false :: .numLaser n :: cs) = false := by
  rw [C254_once_partial]
  rfl

/-! ### The hypotheses can be met -/

/-- A pulse with all default values. -/
def plain (type : String) : Params := { gen := some type }

theorem plain_ok (fs : Files) : Generated fs (plain "gauss") "gauss" (ready "gauss" (plain "gauss")) :=
  ⟨rfl, rfl, by
    simp only [OLaser.init, OLaser.new, List.replicate, initOne, plain]
    rw [if_pos (.inl rfl)]
    rfl⟩

/-- C249: 800 steps. -/
example (fs : Files) : ∃ o' fs', (ready "gauss" (plain "gauss")).clock ⟨800, 10⟩ fs = .val (o', fs') ∧
    o'.field 0 100 = .val (.num (handbook 8000 {} 1000 * 1)) := by
  refine ⟨_, _, rfl, ?_⟩
  have h := C249_single_partial fs (plain "gauss") _ _ ⟨800, 10⟩ _ (plain_ok fs) rfl
    ⟨fun _ => by norm_num, fun _ => ⟨by norm_num, by norm_num [duration]⟩, by simp [plain]⟩ 100 (by norm_num)
  rw [h]
  norm_num [duration, plain]

/-- C249: with 5 steps the value at step 2 is not a number. -/
example (fs : Files) : ∃ o' fs', (ready "gauss" (plain "gauss")).clock ⟨5, 10⟩ fs = .val (o', fs') ∧
    o'.field 0 2 = .val .nan := by
  refine ⟨_, _, rfl, ?_⟩
  rw [C249_violated_short fs (plain "gauss") _ _ ⟨5, 10⟩ _ (plain_ok fs) rfl rfl rfl (by norm_num) (by norm_num) 2
    (by norm_num)]
  rfl

/-- C250, C252: a longer clock behind a shorter one. -/
example (fs : Files) : ∃ o' fs', clocks [⟨10, 1⟩, ⟨20, 2⟩] (ready "gauss" (plain "gauss")) fs = .val (o', fs') := by
  obtain ⟨o', fs', h, _⟩ := C250_clocks fs (plain "gauss") "gauss" _ (plain_ok fs) [⟨10, 1⟩] ⟨20, 2⟩
  exact ⟨o', fs', h⟩

/-- C251: a pulse that is written. -/
example (fs : Files) : ∃ o, Generated fs { gen := some "gauss2", lasero := some "pulse", scale := some 2 } "gauss2" o :=
  ⟨_, rfl, rfl, by
    simp only [OLaser.init, OLaser.new, List.replicate, initOne]
    rw [if_pos (.inr rfl)]⟩

example : Pol.life Pol.new [.usePol true, .numLaser 2, .usePol false] = true := by decide

end QDng.LaserGen
