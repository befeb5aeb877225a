import Verif.PLife.Props
import Mathlib.Tactic.NormNum
import Mathlib.Tactic.NormNum.OfScientific

/-
Cases that meet the hypotheses of the theorems of Verif.PLife.Props.
-/

namespace QDng.PLife
open Common

/-- Two clocks: ten steps of 1/2, and ten steps of 1. -/
noncomputable def clocks2 : World := fun k => if k = 0 then ⟨10, 1 / 2, 3⟩ else ⟨10, 1, 3⟩

/-- A field of twelve values with the time step 1/2. -/
noncomputable def field12 : Field := ⟨none, 1 / 2, (List.range 12).map (fun (i : ℕ) => (i : ℝ)), 1⟩

/-- Kinetic energy, a laser read from a file with a factor, and a generated pulse. -/
noncomputable def driven : Op :=
  .many none [.plain none true, .laser none none (some 2) field12, .laser none (some fun _ dt i => dt * i) none ⟨none, 0, [], 1⟩]

/-- A matrix of two operators without lasers. -/
def still : Op := .many none [.plain none true, .many none [.plain none true]]

/-- Every member accepts the wave function. -/
def fine : Bool → Op → Ans Unit := fun _ _ => .val ()

/-- A series that shows which time step it was computed for. -/
noncomputable def serie : Series ℝ := fun _ _ d _ _ => .val d

theorem driven_fits : Fits (clocks2 0) driven := by
  simp [Fits, AllFit, driven, clocks2, field12]

theorem driven_hermitian : driven.hermitian = true := by simp [driven, Op.hermitian, allHermitian]

theorem still_static : Static still := by simp [Static, AllStatic, still]

theorem dt0 : (clocks2 0).dt ≠ 0 := by simp [clocks2]

theorem dt1 : (clocks2 1).dt ≠ 0 := by simp [clocks2]

/-- C275: for each of the three propagators, a step at the third time step uses `3 * 2` and `3 / 2`. -/
example (kind : Kind) (hk : kind ≠ .rk4) : ∃ q, (Propag.new kind).setUp clocks2 fine serie 0 driven = .ok q ∧
    ∃ u, q.step clocks2 = .val u ∧ u.fields = [3 * 2, 1 / 2 * 3 * 1] := by
  obtain ⟨q, h1, h2⟩ := C275_fields_partial clocks2 fine serie kind 0 driven hk (fun _ => rfl) (fun _ _ d _ _ => ⟨d, rfl⟩)
    dt0 driven_fits (fun _ => driven_hermitian)
  obtain ⟨u, h3, -, h4, -, -⟩ := h2 clocks2 ⟨rfl, rfl⟩ (by simp [clocks2])
  refine ⟨q, h1, u, h3, ?_⟩
  rw [h4]
  simp [drive, drives, driven, clocks2, field12]

/-- C275: the same Hamiltonian with the Runge-Kutta propagator. -/
example : ∃ q, (Propag.new .rk4).setUp clocks2 fine serie 0 driven = .ok q ∧ ∀ W', q.step W' = .ub :=
  C275_violated_rk4 clocks2 fine serie 0 driven (fun _ => rfl) dt0
    (by simp [Unclocked, AnyUnclocked, driven, field12])

/-- C275: the Hamiltonian given the clock before. -/
example : ∃ H', driven.setClock clocks2 (some 0) = .ok H' ∧
    ∃ q, (Propag.new .rk4).setUp clocks2 fine serie 0 H' = .ok q ∧ ∃ u, q.step clocks2 = .val u ∧
      u.fields = [3 * 2, 1 / 2 * 3 * 1] := by
  obtain ⟨H', h1, -⟩ := setClock_ok clocks2 0 driven driven_fits
  obtain ⟨q, h2, h3⟩ := C275_rk4_clocked_partial clocks2 fine serie 0 driven H' (fun _ => rfl) dt0 driven_fits h1
  obtain ⟨u, h4, h5, -, -⟩ := h3 clocks2 ⟨rfl, rfl⟩ (by simp [clocks2])
  refine ⟨H', h1, q, h2, u, h4, ?_⟩
  rw [h5]
  simp [drive, drives, driven, clocks2, field12]

/-- C276: copies of propagators of the four kinds that make steps themselves exist; three of them are dead after any calls. -/
example (kind : Kind) (hk : kind ≠ .arnoldi) (hr : kind ≠ .rk4) (cs : List Call) (r : Propag ℝ) :
    ∃ p q, (Propag.new kind).setUp clocks2 fine serie 0 still = .ok p ∧ (∃ u, p.step clocks2 = .val u) ∧
      (Propag.new kind).copy id p = .ok q ∧
      (q.calls clocks2 fine serie cs = some r → ∀ u, r.step clocks2 ≠ .val u) := by
  obtain ⟨H', h1, h2, h3⟩ := setClock_static clocks2 (some 0) still still_static
  cases kind with
  | arnoldi => exact absurd rfl hk
  | rk4 => exact absurd rfl hr
  | cheby =>
    refine ⟨_, _, setUp_cheby clocks2 fine serie 0 still H' _ (fun _ => rfl) dt0 h1 rfl,
      ⟨_, step_st clocks2 _ _ _ _ _ _ _ (fields_static _ _ h2) (by simp) (by simp)⟩, rfl, fun h u => ?_⟩
    exact C276_violated id (st .cheby 0 _ H' false _) _ r (by simp [st]) (by simp [st]) rfl clocks2 fine serie cs h
      clocks2 u
  | sil =>
    refine ⟨_, _, setUp_krylov clocks2 fine serie .sil 0 still H' (by simp) (fun _ => rfl) dt0 h1
        (fun _ => by simp [still, Op.hermitian, allHermitian]),
      ⟨_, step_st clocks2 _ _ _ _ _ _ _ (fields_static _ _ h2) (by simp) (by simp)⟩, rfl, fun h u => ?_⟩
    exact C276_violated id (st .sil 0 _ H' true none) _ r (by simp [st]) (by simp [st]) rfl clocks2 fine serie cs h
      clocks2 u

/-- C276: a copy of an Arnoldi propagator. -/
example : ∃ p q u, (Propag.new .arnoldi).setUp clocks2 fine serie 0 still = .ok p ∧ p.step clocks2 = .val u ∧
    (Propag.new .arnoldi).copy id p = .ok q ∧ q.step clocks2 = .val { u with eps := 1e-12 } := by
  obtain ⟨H', h1, h2, h3⟩ := setClock_static clocks2 (some 0) still still_static
  have hs := step_st clocks2 .arnoldi 0 (-Complex.I * ((clocks2 0).dt : ℂ)) H' true (none : Option ℝ) _
    (fields_static _ _ h2) (by simp) (by simp)
  obtain ⟨q, h4, h5⟩ := C276_arnoldi_partial id (st .arnoldi 0 (-Complex.I * ((clocks2 0).dt : ℂ)) H' true none) rfl rfl
    (fun _ _ => rfl) clocks2 _ hs
  exact ⟨_, q, _, setUp_krylov clocks2 fine serie .arnoldi 0 still H' (by simp) (fun _ => rfl) dt0 h1 (by simp), hs, h4,
    h5 _ _ hs⟩

/-- C276: a new propagator was never set up. -/
example : (Propag.new .sil).copy id (Propag.new .sil : Propag ℝ) = .ub :=
  C276_violated_early id _ _ rfl rfl

/-- C277: the Chebychev propagator uses the series for 1/2 with the clock of the time step 1. -/
example : ∃ q r s u v, (Propag.new .cheby).setUp clocks2 fine serie 0 still = .ok q ∧
    (q.setClock clocks2 1).init clocks2 fine serie true = .ok r ∧
    (Propag.new .cheby).setUp clocks2 fine serie 1 still = .ok s ∧ r.step clocks2 = .val u ∧ s.step clocks2 = .val v ∧
    u.exponent = v.exponent ∧ u.dt = v.dt ∧ u.coef = some (1 / 2) ∧ v.coef = some 1 :=
  C277_violated_cheby clocks2 fine serie 0 1 still (fun _ => rfl) dt0 dt1 still_static (1 / 2) 1
    (fun _ => by simp [serie, clocks2]) (fun _ => by simp [serie, clocks2])

/-- C277: the others follow the second clock. -/
example (kind : Kind) (hk : kind ≠ .cheby) : ∃ q r s u, (Propag.new kind).setUp clocks2 fine serie 0 still = .ok q ∧
    (q.setClock clocks2 1).init clocks2 fine serie true = .ok r ∧
    (Propag.new kind).setUp clocks2 fine serie 1 still = .ok s ∧ r.step clocks2 = .val u ∧ s.step clocks2 = .val u ∧
    u.dt = (clocks2 1).dt ∧ u.exponent = -Complex.I * ((clocks2 1).dt : ℂ) :=
  C277_partial clocks2 fine serie kind 0 1 still hk (fun _ => rfl) dt0 dt1 still_static
    (fun _ => by simp [still, Op.hermitian, allHermitian])

/-- C277: lasers still follow the first clock. -/
example : ∃ q r, (Propag.new .sil).setUp clocks2 fine serie 0 driven = .ok q ∧
    (q.setClock clocks2 1).init clocks2 fine serie true = .ok r ∧ ∃ u, r.step clocks2 = .val u ∧
      u.fields = drive (clocks2 0) driven ∧ u.dt = 1 := by
  obtain ⟨q, r, h1, h2, h3⟩ := C277_violated_lasers clocks2 fine serie .sil 0 1 driven (by simp) (fun _ => rfl) dt0 dt1
    driven_fits (fun _ => driven_hermitian)
  obtain ⟨u, h4, h5, h6⟩ := h3 clocks2 ⟨rfl, rfl⟩ (by simp [clocks2])
  exact ⟨q, r, h1, h2, u, h4, h5, by rw [h6]; simp [clocks2]⟩

/-- A propagator that has a Hamiltonian, and maybe a clock. -/
noncomputable def withH (kind : Kind) (c : Option ℕ) (o : Op) : Propag ℝ :=
  { (Propag.new kind) with names := [("hamiltonian", 0)], members := [o], clock := c }

/-- C278: a new propagator with a clock has no Hamiltonian. -/
example (kind : Kind) : ((Propag.new kind).setClock clocks2 0).init clocks2 fine serie true
    = .threw ((Propag.new kind).setClock clocks2 0) :=
  C278_hamiltonian clocks2 fine serie true _ (fun _ => by simp [fine]) (by simp [Propag.find, Propag.setClock, Propag.new])
    rfl

/-- C278: without a clock. -/
example : (withH .arnoldi none driven).init clocks2 fine serie true = .threw (withH .arnoldi none driven) :=
  C278_krylov clocks2 fine serie true _ (by simp [withH, Propag.new]) (Or.inl rfl)

/-- C278: an absorbing potential with the Lanczos propagator. -/
example : ∃ q, (withH .sil (some 0) (.many none [.plain none true, .plain none false])).init clocks2 fine serie true = .threw q ∧
    q.init clocks2 fine serie true = .threw q :=
  C278_hermitian clocks2 fine serie 0 0 _ _ rfl rfl (fun _ => rfl) rfl dt0 rfl rfl
    (by simp [Op.hermitian, allHermitian])

/-- C278: Chebychev without a clock. -/
example : ∃ q, (withH .cheby none still).init clocks2 fine serie true = .threw q :=
  C278_cheby_clock_partial clocks2 fine serie 0 still _ rfl (fun _ => rfl) rfl rfl rfl still_static

/-- C278: the same with a generated pulse. -/
example : (withH .cheby none (.laser none (some fun _ dt i => dt * i) none ⟨none, 0, [], 1⟩)).init clocks2 fine serie true = .ub :=
  C278_violated_cheby clocks2 fine serie 0 true _ none _ none _ rfl rfl rfl rfl

/-- C278: an order that is refused. -/
example : ∃ q r, (withH .cheby (some 0) still).init clocks2 fine (fun _ _ _ _ _ => .threw) true = .threw q ∧
    q.init clocks2 fine (fun _ _ _ _ _ => .threw) true = .ok r ∧ ∀ W', r.step W' = .ub :=
  C278_violated_order clocks2 fine (fun _ _ _ _ _ => .threw) 0 0 still _ rfl rfl rfl (fun _ => rfl) rfl dt0 rfl rfl
    still_static (fun _ _ _ _ _ => rfl)

/-- C278: Runge-Kutta without a clock. -/
example : ∃ q, (withH .rk4 none still).init clocks2 fine serie true = .threw q ∧ q.init clocks2 fine serie true = .ok q ∧
    ∀ W' u, q.step W' ≠ .val u :=
  C278_violated_rk4 clocks2 fine serie 0 _ rfl rfl rfl rfl

/-- C278: a field with the time step 1/2 and a clock with the time step 1. -/
example : ∃ q, (Propag.new .arnoldi).setUp clocks2 fine serie 1 (.laser none none none field12) = .threw q ∧
    q.init clocks2 fine serie true = .ok q ∧ ∃ u, q.step clocks2 = .val u ∧ u.fields = [3 * 1] := by
  obtain ⟨q, h1, h2, h3⟩ := C278_violated_laser clocks2 fine serie .arnoldi 1 none none field12 (by simp) (fun _ => rfl)
    dt1 (by simp [Fits, clocks2, field12])
  obtain ⟨u, h4, h5⟩ := h3 clocks2 3 (by simp [clocks2, field12])
  exact ⟨q, h1, h2, u, h4, h5⟩

/-- C276: with another threshold. -/
example : ∃ p q u v, (p : Propag ℝ).kind = .arnoldi ∧ p.step clocks2 = .val u ∧ (Propag.new .arnoldi).copy id p = .ok q ∧
    q.step clocks2 = .val v ∧ v.eps ≠ u.eps := by
  have hp : Propag.step clocks2 { st .arnoldi 0 0 still true (none : Option ℝ) with eps := 1 } = .val
      { kind := .arnoldi, fields := [], exponent := 0, dt := (clocks2 0).dt, imaginary := false, order := 20, eps := 1,
        coef := none } := by
    simp [st, Propag.step, Propag.target, fields_static clocks2 still still_static]
  obtain ⟨q, h1, h2⟩ := C276_arnoldi_partial id { st .arnoldi 0 0 still true (none : Option ℝ) with eps := 1 } rfl rfl
    (fun _ _ => rfl) clocks2 _ hp
  exact ⟨_, q, _, _, rfl, hp, h1, h2 _ _ hp,
    C276_violated_threshold id _ q rfl (by norm_num) h1 clocks2 clocks2 _ _ hp (h2 _ _ hp)⟩

end QDng.PLife
