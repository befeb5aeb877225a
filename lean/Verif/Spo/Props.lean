import Verif.Spo.Reach
import Mathlib.Analysis.SpecialFunctions.Trigonometric.Basic

/-
Properties C163-C171 of the split operator propagator for grids.
-/

namespace QDng.Spo

open QDng.Deriv QDng.Common

/-- Application at the time step of the initialisation. -/
theorem apply_ready {s : Space} {k : s.Pt → ℝ} {c : ℂ} {p : Pot s} {i : Option (Pot s)} {n : Int}
    {o : Spo s} (h : Ready k c p i n o) (ψ : s.Wf) :
    ∃ o', o.apply n (.one ψ) =
        .val (o', .one (strang (kinStep (expElements k c)) c (total p i n) ψ)) := by
  unfold Spo.apply
  rw [if_neg (by simp [h.clock])]
  by_cases hn : o.lastTime ≠ n ∧ o.timeDep = true
  · obtain ⟨o', h1, h2, h3⟩ := initV_ready h n
    refine ⟨o', ?_⟩
    rw [if_pos hn, h1]
    simp only [h2.coupling, Bool.false_eq_true, if_false]
    exact uncoupled_eq h2 ψ
  · refine ⟨o, ?_⟩
    rw [if_neg hn]
    simp only [h.coupling, Bool.false_eq_true, if_false]
    exact uncoupled_eq h ψ

/-! ### C163 -/

/-- **C163.**  A propagator with the exponent `c`, a kinetic energy, a potential and optionally a
coupling on the diagonal accepts a single state wave function, and one step is the symmetric product
of the exact exponentials of half the potential energy, the kinetic energy and half the potential
energy. -/
theorem C163_step {s : Space} (h : s.Ok) (mass : Fin s.d → ℝ) (t : KinOp s)
    (hc : KinOp.create s mass = .ok t) (c : ℂ) (p : Pot s) (i : Option (Pot s)) (n : Int) (ψ0 : s.Wf) :
    ∃ (o : Spo s) (K : s.Wf → s.Wf),
      ((Spo.new s).setExponent c).init (single t p i) n (.one ψ0) = .ok o ∧ IsKinExp s mass c K ∧
      ∀ ψ, ∃ o', o.apply n (.one ψ) = .val (o', .one (strang K c (total p i n) ψ)) := by
  obtain ⟨o, h1, h2, _⟩ := init_single h hc c p i n ψ0
  exact ⟨o, _, h1, kinStep_spec h hc c, fun ψ => apply_ready h2 ψ⟩

/-- Unit masses on the square are accepted. -/
theorem square_kin : ∃ t, KinOp.create square (fun _ => 1) = .ok t := by
  refine ⟨⟨fun _ => 1, fun _ => -1 / 2 / 1, none, none⟩, ?_⟩
  unfold KinOp.create initMass
  have h1 : ¬ square.d < 1 := by decide
  have h2 : ¬ ∃ i : Fin square.d, (fun _ : Fin square.d => (1 : ℝ)) i = 0 := by simp
  have h3 : ∃ i : Fin square.d, (fun _ : Fin square.d => (1 : ℝ)) i > 0 := ⟨0, by norm_num⟩
  rw [if_neg h1, if_neg h2, if_neg (not_not.2 h3)]

example : square.Ok ∧ ∃ t, KinOp.create square (fun _ => 1) = .ok t := ⟨square_ok, square_kin⟩

/-! ### C164 -/

theorem exp_half (c : ℂ) (v : ℝ) :
    Complex.exp (c / 2 * (v : ℂ)) * Complex.exp (-c / 2 * (v : ℂ)) = 1 := by
  rw [← Complex.exp_add]
  have : c / 2 * (v : ℂ) + -c / 2 * (v : ℂ) = 0 := by ring
  rw [this, Complex.exp_zero]

theorem kin_inverse {s : Space} (h : s.Ok) {mass : Fin s.d → ℝ} {c : ℂ} {K L : s.Wf → s.Wf}
    (hK : IsKinExp s mass c K) (hL : IsKinExp s mass (-c) L) (ψ : s.Wf) : L (K ψ) = ψ := by
  have hl : ∀ (a : ℂ) (φ : s.Wf), L (a • φ) = a • L φ := by
    intro a φ
    have hz : L 0 = 0 := by
      have := hL.1 (-1) 0 0
      simpa using this
    have := hL.1 a φ 0
    rwa [add_zero, hz, add_zero] at this
  have hcomp : (fun ψ => L (K ψ)) = fun ψ => ψ := by
    refine Lin.ext_wave h (Lin.comp hL.1 hK.1) (fun _ _ _ => rfl) (fun q => ?_)
    rw [hK.2, hl, hL.2, smul_smul, ← Complex.exp_add]
    rw [neg_mul, add_neg_cancel, Complex.exp_zero, one_smul]
  exact congrFun hcomp ψ

theorem strang_inverse {s : Space} (h : s.Ok) {mass : Fin s.d → ℝ} {c : ℂ} {K L : s.Wf → s.Wf}
    (hK : IsKinExp s mass c K) (hL : IsKinExp s mass (-c) L) (v : s.Pt → ℝ) (ψ : s.Wf) :
    strang L (-c) v (strang K c v ψ) = ψ := by
  funext x
  unfold strang
  have h1 : (fun y => Complex.exp (-c / 2 * (v y : ℂ)) * (Complex.exp (c / 2 * (v y : ℂ)) *
      K (fun y => Complex.exp (c / 2 * (v y : ℂ)) * ψ y) y)) =
      K (fun y => Complex.exp (c / 2 * (v y : ℂ)) * ψ y) := by
    funext y
    rw [← mul_assoc, mul_comm (Complex.exp (-c / 2 * (v y : ℂ))), exp_half, one_mul]
  rw [h1, kin_inverse h hK hL, ← mul_assoc, mul_comm (Complex.exp (-c / 2 * (v x : ℂ))), exp_half, one_mul]

/-- **C164.**  The propagator with the opposite exponent undoes a step. -/
theorem C164_reverse {s : Space} (h : s.Ok) (mass : Fin s.d → ℝ) (t : KinOp s)
    (hc : KinOp.create s mass = .ok t) (c : ℂ) (p : Pot s) (i : Option (Pot s)) (n : Int)
    (ψ0 ψ1 ψ : s.Wf) (o r : Spo s)
    (ho : ((Spo.new s).setExponent c).init (single t p i) n (.one ψ0) = .ok o)
    (hr : ((Spo.new s).setExponent (-c)).init (single t p i) n (.one ψ1) = .ok r) :
    ∃ o' r' φ, o.apply n (.one ψ) = .val (o', .one φ) ∧ r.apply n (.one φ) = .val (r', .one ψ) := by
  obtain ⟨o1, h1, h2, _⟩ := init_single h hc c p i n ψ0
  obtain ⟨r1, h3, h4, _⟩ := init_single h hc (-c) p i n ψ1
  rw [ho, Out.ok.injEq] at h1
  rw [hr, Out.ok.injEq] at h3
  subst h1 h3
  obtain ⟨o', h5⟩ := apply_ready h2 ψ
  obtain ⟨r', h6⟩ := apply_ready h4 (strang (kinStep (expElements (kinE s mass) c)) c (total p i n) ψ)
  rw [strang_inverse h (kinStep_spec h hc c) (kinStep_spec h hc (-c))] at h6
  exact ⟨o', r', _, h5, h6⟩

theorem scal_phase {s : Space} (dt : ℝ) (v : s.Pt → ℝ) (φ ψ : s.Wf) :
    scal s (fun x => Complex.exp (-Complex.I * (dt : ℂ) / 2 * (v x : ℂ)) * φ x)
      (fun x => Complex.exp (-Complex.I * (dt : ℂ) / 2 * (v x : ℂ)) * ψ x) = scal s φ ψ := by
  unfold scal
  refine congrArg _ (Finset.sum_congr rfl (fun x _ => ?_))
  rw [map_mul, ← Complex.exp_conj]
  have h1 : (starRingEnd ℂ) (-Complex.I * (dt : ℂ) / 2 * (v x : ℂ)) =
      -(-Complex.I * (dt : ℂ) / 2 * (v x : ℂ)) := by
    simp only [map_mul, map_div₀, map_neg, Complex.conj_I, Complex.conj_ofReal, Complex.conj_ofNat]
    ring
  rw [h1, Complex.exp_neg]
  have := Complex.exp_ne_zero (-Complex.I * (dt : ℂ) / 2 * (v x : ℂ))
  field_simp

/-- **C164.**  A step in real time conserves all scalar products, hence the norm. -/
theorem C164_unitary {s : Space} (h : s.Ok) (mass : Fin s.d → ℝ) (t : KinOp s)
    (hc : KinOp.create s mass = .ok t) (dt : ℝ) (p : Pot s) (i : Option (Pot s)) (n : Int)
    (ψ0 φ ψ φ' ψ' : s.Wf) (o o1 o2 : Spo s)
    (ho : ((Spo.new s).setExponent (-Complex.I * (dt : ℂ))).init (single t p i) n (.one ψ0) = .ok o)
    (h1 : o.apply n (.one φ) = .val (o1, .one φ')) (h2 : o.apply n (.one ψ) = .val (o2, .one ψ')) :
    scal s φ' ψ' = scal s φ ψ := by
  obtain ⟨o3, h3, h4, _⟩ := init_single h hc (-Complex.I * (dt : ℂ)) p i n ψ0
  rw [ho, Out.ok.injEq] at h3
  subst h3
  obtain ⟨_, h5⟩ := apply_ready h4 φ
  obtain ⟨_, h6⟩ := apply_ready h4 ψ
  rw [h1] at h5
  rw [h2] at h6
  simp only [Ans.val.injEq, Prod.mk.injEq, Psi.one.injEq] at h5 h6
  rw [h5.2, h6.2]
  unfold strang
  rw [scal_phase]
  rw [C135_unitary h mass t hc dt _ _ _ _ (kinStep_expo h hc _ _) (kinStep_expo h hc _ _)]
  rw [scal_phase]

theorem strang_wave {s : Space} {mass : Fin s.d → ℝ} {c : ℂ} {K : s.Wf → s.Wf}
    (hK : IsKinExp s mass c K) (v : ℝ) (w : s.Pt → ℝ) (hw : ∀ x, w x = v) (q : s.Pt) :
    strang K c w (wave s q) =
      Complex.exp (c * ((∑ i, wavenum s q i ^ 2 / (2 * mass i) + v : ℝ) : ℂ)) • wave s q := by
  have hl : ∀ (a : ℂ) (φ : s.Wf), K (a • φ) = a • K φ := by
    intro a φ
    have hz : K 0 = 0 := by
      have := hK.1 (-1) 0 0
      simpa using this
    have := hK.1 a φ 0
    rwa [add_zero, hz, add_zero] at this
  funext x
  unfold strang
  simp only [hw]
  have h1 : (fun y => Complex.exp (c / 2 * (v : ℂ)) * wave s q y) =
      Complex.exp (c / 2 * (v : ℂ)) • wave s q := rfl
  rw [h1, hl, hK.2]
  simp only [Pi.smul_apply, smul_eq_mul]
  rw [← mul_assoc, ← mul_assoc, ← Complex.exp_add, ← Complex.exp_add]
  congr 2
  push_cast
  ring

/-- **C164.**  If the potential energy is the same at all points, a step multiplies each plane wave with
the exponential of its total energy. -/
theorem C164_exact {s : Space} (h : s.Ok) (mass : Fin s.d → ℝ) (t : KinOp s)
    (hc : KinOp.create s mass = .ok t) (c : ℂ) (p : Pot s) (i : Option (Pot s)) (n : Int) (v : ℝ)
    (hv : ∀ x, total p i n x = v) (ψ0 : s.Wf) (o : Spo s)
    (ho : ((Spo.new s).setExponent c).init (single t p i) n (.one ψ0) = .ok o) (q : s.Pt) :
    ∃ o', o.apply n (.one (wave s q)) = .val (o', .one
      (Complex.exp (c * ((∑ j, wavenum s q j ^ 2 / (2 * mass j) + v : ℝ) : ℂ)) • wave s q)) := by
  obtain ⟨o1, h1, h2, _⟩ := init_single h hc c p i n ψ0
  rw [ho, Out.ok.injEq] at h1
  subst h1
  obtain ⟨o', h3⟩ := apply_ready h2 (wave s q)
  rw [strang_wave (kinStep_spec h hc c) v _ hv] at h3
  exact ⟨o', h3⟩

/-- A potential with two contributions. -/
def samplePot (s : Space) (v : Int → ℝ) (td : Bool) : Pot s := { timeDep := td, val := fun n _ => v n }

example : ∀ x, total (samplePot square (fun _ => 2) false)
    (some (samplePot square (fun n => n) true)) 3 x = 5 := by
  intro x
  show (2 : ℝ) + ((3 : Int) : ℝ) = 5
  norm_num

/-! ### C165 -/

/-- The history of a list of steps. -/
def steps {s : Space} (l : List (Int × s.Wf)) : List (Call s) := l.map fun a => .apply a.1 (.one a.2)

theorem fresh_steps {s : Space} {k : s.Pt → ℝ} {c : ℂ} {p : Pot s} {i : Option (Pot s)}
    (hp : p.Honest) (hi : ∀ q, i = some q → q.Honest) (l : List (Int × s.Wf)) : ∀ o : Spo s,
    Fresh k c p i o → ∃ o', history o (steps l) = some o' ∧ Fresh k c p i o' := by
  induction l with
  | nil => exact fun o h => ⟨o, rfl, h⟩
  | cons a l ih =>
    intro o h
    obtain ⟨o1, h1, h2⟩ := apply_fresh h hp hi a.1 a.2
    obtain ⟨o2, h3, h4⟩ := ih o1 h2
    refine ⟨o2, ?_, h4⟩
    show (after o (.apply a.1 (.one a.2))).bind _ = _
    simp only [after, h1, Option.bind_some]
    exact h3

/-- **C165.**  A propagator that was initialised at time step zero uses, in every step of every
history, the potential energy at the time step the clock shows in that step. -/
theorem C165_fresh_partial {s : Space} (h : s.Ok) (mass : Fin s.d → ℝ) (t : KinOp s)
    (hc : KinOp.create s mass = .ok t) (c : ℂ) (p : Pot s) (i : Option (Pot s)) (hp : p.Honest)
    (hi : ∀ q, i = some q → q.Honest) (ψ0 : s.Wf) :
    ∃ (o : Spo s) (K : s.Wf → s.Wf),
      ((Spo.new s).setExponent c).init (single t p i) 0 (.one ψ0) = .ok o ∧ IsKinExp s mass c K ∧
      ∀ l : List (Int × s.Wf), ∃ o1, history o (steps l) = some o1 ∧
        ∀ n ψ, ∃ o2, o1.apply n (.one ψ) = .val (o2, .one (strang K c (total p i n) ψ)) := by
  obtain ⟨o, h1, h2, h3⟩ := init_single h hc c p i 0 ψ0
  refine ⟨o, _, h1, kinStep_spec h hc c, fun l => ?_⟩
  have hf : Fresh (kinE s mass) c p i o := by
    show Ready _ _ _ _ o.lastTime o
    rw [h3]
    exact h2
  obtain ⟨o1, h4, h5⟩ := fresh_steps hp hi l o hf
  refine ⟨o1, h4, fun n ψ => ?_⟩
  obtain ⟨o2, h6, _⟩ := apply_fresh h5 hp hi n ψ
  exact ⟨o2, h6⟩

example : (samplePot square (fun n => n) true).Honest ∧
    ∀ q, some (samplePot square (fun _ => 2) false) = some q → q.Honest := by
  refine ⟨fun (h : true = false) => Bool.noConfusion h, fun q hq => ?_⟩
  cases hq
  exact fun _ m n => rfl

/-- A potential that compensates the kinetic energy of the plane wave `q` up to `e n`. -/
noncomputable def tuned (s : Space) (mass : Fin s.d → ℝ) (q : s.Pt) (e : Int → ℝ) (td : Bool) : Pot s :=
  samplePot s (fun n => e n - ∑ i, wavenum s q i ^ 2 / (2 * mass i)) td

theorem tuned_wave {s : Space} {mass : Fin s.d → ℝ} {c : ℂ} {K : s.Wf → s.Wf}
    (hK : IsKinExp s mass c K) (q : s.Pt) (e : Int → ℝ) (td : Bool) (n : Int) :
    strang K c (total (tuned s mass q e td) none n) (wave s q) =
      Complex.exp (c * (e n : ℂ)) • wave s q := by
  rw [strang_wave hK (e n - ∑ i, wavenum s q i ^ 2 / (2 * mass i)) _ (fun x => by
    show e n - _ + 0 = _
    rw [add_zero])]
  rw [add_sub_cancel]

theorem smul_wave_inj {s : Space} (q : s.Pt) {a b : ℂ} (h : a • wave s q = b • wave s q) : a = b := by
  have hx := congrFun h q
  simp only [Pi.smul_apply, smul_eq_mul] at hx
  exact mul_right_cancel₀ (Complex.exp_ne_zero _ : wave s q q ≠ 0) hx

/-- The exponent of a time step of a quarter period. -/
noncomputable def quarter : ℂ := -Complex.I * ((Real.pi / 2 : ℝ) : ℂ)

theorem exp_quarter : Complex.exp quarter = -Complex.I := by
  unfold quarter
  have : -Complex.I * ((Real.pi / 2 : ℝ) : ℂ) = -((Real.pi : ℂ) / 2 * Complex.I) := by
    push_cast
    ring
  rw [this, Complex.exp_neg, Complex.exp_pi_div_two_mul_I, Complex.inv_I]

/-- **C165.**  A propagator that was initialised at another time step uses the old potential energy if
the clock is set back to zero. -/
theorem C165_violated_reset :
    ∃ (t : KinOp square) (p : Pot square) (ψ : square.Wf) (o : Spo square) (K : square.Wf → square.Wf)
      (o' : Spo square) (φ : square.Wf),
      KinOp.create square (fun _ => 1) = .ok t ∧ p.Honest ∧ IsKinExp square (fun _ => 1) quarter K ∧
      ((Spo.new square).setExponent quarter).init (single t p none) 1 (.one ψ) = .ok o ∧
      o.apply 0 (.one ψ) = .val (o', .one φ) ∧ φ ≠ strang K quarter (total p none 0) ψ := by
  obtain ⟨t, ht⟩ := square_kin
  obtain ⟨q⟩ : Nonempty square.Pt := ⟨fun _ => (0 : Fin 4)⟩
  obtain ⟨o, h1, h2, h3⟩ := init_single square_ok ht quarter
    (tuned square (fun _ => 1) q (fun n => n) true) none 1 (wave square q)
  have hK := kinStep_spec square_ok ht quarter
  have ha : o.apply 0 (.one (wave square q)) = .val (o, .one
      (strang (kinStep (expElements (kinE square (fun _ => 1)) quarter)) quarter
        (total (tuned square (fun _ => 1) q (fun n => n) true) none 1) (wave square q))) := by
    unfold Spo.apply
    rw [if_neg (by simp [h2.clock]), if_neg (by simp [h3])]
    simp only [h2.coupling, Bool.false_eq_true, if_false]
    exact uncoupled_eq h2 _
  refine ⟨t, _, wave square q, o, _, o, _, ht,
    (fun (h : true = false) => Bool.noConfusion h), hK, h1, ha, ?_⟩
  rw [tuned_wave hK, tuned_wave hK]
  intro he
  have := smul_wave_inj q he
  simp only [Int.cast_one, Complex.ofReal_one, mul_one, Int.cast_zero, Complex.ofReal_zero, mul_zero,
    Complex.exp_zero, exp_quarter] at this
  have h4 := congrArg Complex.re this
  simp at h4

/-! ### C166 -/

/-- **C166.**  The single state case is accepted and can be propagated. -/
theorem C166_single_partial {s : Space} (h : s.Ok) (mass : Fin s.d → ℝ) (t : KinOp s)
    (hc : KinOp.create s mass = .ok t) (c : ℂ) (p : Pot s) (i : Option (Pot s)) (n : Int) (ψ0 : s.Wf) :
    ∃ o, ((Spo.new s).setExponent c).init (single t p i) n (.one ψ0) = .ok o ∧
      ∀ m ψ, ∃ o' φ, o.apply m (.one ψ) = .val (o', .one φ) := by
  obtain ⟨o, h1, _, _⟩ := init_single h hc c p i n ψ0
  have := init_post (D := True) ((Spo.new s).setExponent c) (single t p i) n (.one ψ0)
    ⟨rfl, rfl, rfl, rfl, by intro h; cases h⟩ (fun _ h => by cases h)
  rw [h1] at this
  refine ⟨o, h1, fun m ψ => ?_⟩
  obtain ⟨o', φ, h2, _⟩ := apply_done this m ψ
  exact ⟨o', φ, h2⟩

/-- **C166.**  No two state wave function is ever accepted by a new propagator, whatever operators it
has. -/
theorem C166_violated_init {s : Space} (c : ℂ) (a : Args s) (n : Int) (ψ0 ψ1 : s.Wf) (o : Spo s) :
    ((Spo.new s).setExponent c).init a n (.two ψ0 ψ1) ≠ .ok o := by
  intro h
  have hp := parseT_post (D := True) ((Spo.new s).setExponent c) a.tkin
    ⟨rfl, ⟨rfl, rfl, rfl, rfl, by intro h; cases h⟩, fun _ h => by cases h⟩
  have h1 := ((((hp.bind fun o h => parseV_post o a.vpot h).bind
    fun o h => parseC_post o a.vcoup h).bind fun o h => parseI_post o a.vcoupI h).bind
    fun o h => initSum_post o (.two ψ0 ψ1) h)
  have h2 : Post (fun _ => False) (fun _ => True) False
      (((((((Spo.new s).setExponent c).parseT a.tkin).bind fun o => o.parseV a.vpot).bind
        fun o => o.parseC a.vcoup).bind fun o => o.parseI a.vcoupI).bind
        fun o => o.initSum (.two ψ0 ψ1)) :=
    h1.imp (fun o ho => by obtain ⟨_, _, _, _, φ, hφ⟩ := ho; cases hφ) (fun _ _ => trivial) id
  have h3 : ((Spo.new s).setExponent c).init a n (.two ψ0 ψ1) =
      (((((((Spo.new s).setExponent c).parseT a.tkin).bind fun o => o.parseV a.vpot).bind
        fun o => o.parseC a.vcoup).bind fun o => o.parseI a.vcoupI).bind
        fun o => o.initSum (.two ψ0 ψ1)).bind fun o =>
          o.setup.bind fun o => ((o.alloc (.two ψ0 ψ1)).initT).bind fun o => o.initV n := rfl
  rw [h3] at h
  cases hr : (((((((Spo.new s).setExponent c).parseT a.tkin).bind fun o => o.parseV a.vpot).bind
        fun o => o.parseC a.vcoup).bind fun o => o.parseI a.vcoupI).bind
        fun o => o.initSum (.two ψ0 ψ1)) with
  | ok o1 =>
    rw [hr] at h2
    exact h2
  | threw o1 =>
    rw [hr] at h
    cases h
  | ub =>
    rw [hr] at h
    cases h

/-- **C166.**  In no history of calls a two state wave function is ever propagated. -/
theorem C166_violated_apply {s : Space} (cs : List (Call s)) (o : Spo s)
    (h : history (Spo.new s) cs = some o) (n : Int) (ψ0 ψ1 : s.Wf) : o.apply n (.two ψ0 ψ1) = .ub := by
  rcases inv_history cs _ _ (Or.inl (pre_new s)) h with h | h | h
  · exact apply_undone h.expT h.expV n _
  · exact apply_undone h.expT h.expV n _
  · exact apply_other h n _ (fun φ hφ => by cases hφ)

example : ∃ o, history (Spo.new square) [.exponent quarter] = some o := ⟨_, rfl⟩

/-! ### C167 -/

/-- **C167.**  A propagator whose first initialisation succeeded can propagate single state wave
functions at all times. -/
theorem C167_accepted_partial {s : Space} (c : ℂ) (a : Args s) (n : Int) (ψ0 : Psi s) (o : Spo s)
    (h : ((Spo.new s).setExponent c).init a n ψ0 = .ok o) (m : Int) (ψ : s.Wf) :
    ∃ o' φ, o.apply m (.one ψ) = .val (o', .one φ) := by
  have := init_post (D := True) ((Spo.new s).setExponent c) a n ψ0
    ⟨rfl, rfl, rfl, rfl, by intro h; cases h⟩ (fun _ h => by cases h)
  rw [h] at this
  obtain ⟨o', φ, h2, _⟩ := apply_done this m ψ
  exact ⟨o', φ, h2⟩

/-- **C167.**  The first initialisation never runs into undefined behaviour. -/
theorem C167_first {s : Space} (c : ℂ) (a : Args s) (n : Int) (ψ0 : Psi s) :
    ((Spo.new s).setExponent c).init a n ψ0 ≠ .ub := by
  intro h
  have := init_post (D := True) ((Spo.new s).setExponent c) a n ψ0
    ⟨rfl, rfl, rfl, rfl, by intro h; cases h⟩ (fun _ h => by cases h)
  rw [h] at this
  exact this trivial

/-- **C167.**  A coupling with a single potential is rejected, but the next attempt with the same
operators is accepted, and the propagation that follows is undefined. -/
theorem C167_violated_second {s : Space} (c : ℂ) (t : KinOp s) (p w : Pot s) (n m : Int) (ψ : s.Wf) :
    ∃ o, ((Spo.new s).setExponent c).init ⟨some t, .single p, .multi (some w) none, .missing⟩ n (.one ψ) =
        .threw o ∧
      o.init ⟨some t, .single p, .multi (some w) none, .missing⟩ n (.one ψ) = .ok o ∧
      ∀ φ, o.apply m φ = .ub := by
  refine ⟨⟨true, c, [.grid, .grid, .grid], true, some t.init, some p, none, some w, none, true, false,
    p.timeDep || w.timeDep, c / 2, c, 0, none, none, none, none⟩, ?_, ?_, ?_⟩
  · simp [Spo.init, Spo.checkPsi, Spo.setExponent, Spo.new, Out.bind, Spo.parseT, Spo.parseV,
      Spo.parseC, Spo.parseI, Spo.initSum, Mem.accepts, Spo.setup]
  · simp [Spo.init, Spo.checkPsi, Out.bind]
  · exact fun φ => apply_undone rfl rfl m φ

/-! ### C168 -/

/-- A history of steps and changes of the direction or exponent. -/
def turns {s : Space} (l : List ((Int × s.Wf) ⊕ ℂ)) : List (Call s) :=
  l.map fun a => match a with | .inl a => .apply a.1 (.one a.2) | .inr c => .exponent c

theorem fresh_turns {s : Space} {k : s.Pt → ℝ} {c : ℂ} {p : Pot s} {i : Option (Pot s)}
    (hp : p.Honest) (hi : ∀ q, i = some q → q.Honest) (l : List ((Int × s.Wf) ⊕ ℂ)) : ∀ o : Spo s,
    Fresh k c p i o → ∃ o', history o (turns l) = some o' ∧ Fresh k c p i o' := by
  induction l with
  | nil => exact fun o h => ⟨o, rfl, h⟩
  | cons a l ih =>
    intro o h
    cases a with
    | inl a =>
      obtain ⟨o1, h1, h2⟩ := apply_fresh h hp hi a.1 a.2
      obtain ⟨o2, h3, h4⟩ := ih o1 h2
      refine ⟨o2, ?_, h4⟩
      show (after o (.apply a.1 (.one a.2))).bind _ = _
      simp only [after, h1, Option.bind_some]
      exact h3
    | inr e =>
      have h2 : Fresh k c p i (o.setExponent e) :=
        ⟨rfl, h.buf, h.coupling, h.coupdiag, by have := h.timeDep; cases i <;> exact this, h.cV, h.vpot0, h.vcoup, h.vcoupI, h.expT, h.expV,
          h.expI⟩
      obtain ⟨o2, h3, h4⟩ := ih _ h2
      exact ⟨o2, h3, h4⟩

/-- **C168.**  What holds: the exponent at the time of the initialisation is used in all steps, whatever
direction or exponent is chosen later. -/
theorem C168_first_partial {s : Space} (h : s.Ok) (mass : Fin s.d → ℝ) (t : KinOp s)
    (hc : KinOp.create s mass = .ok t) (c : ℂ) (p : Pot s) (i : Option (Pot s)) (hp : p.Honest)
    (hi : ∀ q, i = some q → q.Honest) (ψ0 : s.Wf) :
    ∃ (o : Spo s) (K : s.Wf → s.Wf),
      ((Spo.new s).setExponent c).init (single t p i) 0 (.one ψ0) = .ok o ∧ IsKinExp s mass c K ∧
      ∀ l, ∃ o1, history o (turns l) = some o1 ∧
        ∀ n ψ, ∃ o2, o1.apply n (.one ψ) = .val (o2, .one (strang K c (total p i n) ψ)) := by
  obtain ⟨o, h1, h2, h3⟩ := init_single h hc c p i 0 ψ0
  refine ⟨o, _, h1, kinStep_spec h hc c, fun l => ?_⟩
  have hf : Fresh (kinE s mass) c p i o := by
    show Ready _ _ _ _ o.lastTime o
    rw [h3]
    exact h2
  obtain ⟨o1, h4, h5⟩ := fresh_turns hp hi l o hf
  refine ⟨o1, h4, fun n ψ => ?_⟩
  obtain ⟨o2, h6, _⟩ := apply_fresh h5 hp hi n ψ
  exact ⟨o2, h6⟩

/-- **C168.**  Changing to backward propagation after the initialisation has no effect: the step is not
the one with the new exponent. -/
theorem C168_violated_backward :
    ∃ (t : KinOp square) (p : Pot square) (ψ : square.Wf) (o : Spo square) (K : square.Wf → square.Wf)
      (o' : Spo square) (φ : square.Wf),
      KinOp.create square (fun _ => 1) = .ok t ∧ p.Honest ∧ IsKinExp square (fun _ => 1) (-quarter) K ∧
      ((Spo.new square).setExponent quarter).init (single t p none) 0 (.one ψ) = .ok o ∧
      (o.setExponent (-quarter)).apply 0 (.one ψ) = .val (o', .one φ) ∧
      φ ≠ strang K (-quarter) (total p none 0) ψ := by
  obtain ⟨t, ht⟩ := square_kin
  obtain ⟨q⟩ : Nonempty square.Pt := ⟨fun _ => (0 : Fin 4)⟩
  obtain ⟨o, h1, h2, h3⟩ := init_single square_ok ht quarter
    (tuned square (fun _ => 1) q (fun _ => 1) false) none 0 (wave square q)
  have h4 : Ready (kinE square (fun _ => 1)) quarter (tuned square (fun _ => 1) q (fun _ => 1) false) none 0
      (o.setExponent (-quarter)) :=
    ⟨rfl, h2.buf, h2.coupling, h2.coupdiag, h2.timeDep, h2.cV, h2.vpot0, h2.vcoup, h2.vcoupI, h2.expT,
      h2.expV, h2.expI⟩
  obtain ⟨o', h5⟩ := apply_ready h4 (wave square q)
  have hK := kinStep_spec square_ok ht (-quarter)
  refine ⟨t, _, wave square q, o, _, o', _, ht, fun _ _ _ => rfl, hK, h1, h5, ?_⟩
  rw [tuned_wave (kinStep_spec square_ok ht quarter), tuned_wave hK]
  intro he
  have := smul_wave_inj q he
  simp only [Complex.ofReal_one, mul_one, Complex.exp_neg, exp_quarter] at this
  rw [inv_neg, Complex.inv_I, neg_neg] at this
  have h6 := congrArg Complex.im this
  simp only [Complex.neg_im, Complex.I_im] at h6
  norm_num at h6

/-! ### C169 -/

/-- **C169.**  The application with a separate target does nothing: for a wave function that is not
zero the target, if it was zero before, differs from the result of the application in place. -/
theorem C169_violated_target {s : Space} (h : s.Ok) (mass : Fin s.d → ℝ) (t : KinOp s)
    (hc : KinOp.create s mass = .ok t) (dt : ℝ) (p : Pot s) (i : Option (Pot s)) (n : Int)
    (ψ0 ψ φ : s.Wf) (o o' : Spo s) (hψ : scal s ψ ψ ≠ 0)
    (ho : ((Spo.new s).setExponent (-Complex.I * (dt : ℂ))).init (single t p i) n (.one ψ0) = .ok o)
    (ha : o.apply n (.one ψ) = .val (o', .one φ)) : o.applyTo (.one 0) (.one ψ) ≠ .one φ := by
  intro he
  have h1 := C164_unitary h mass t hc dt p i n ψ0 ψ ψ φ φ o o' o' ho ha ha
  have h2 : φ = 0 := by
    have : Psi.one (0 : s.Wf) = .one φ := he
    simpa using this.symm
  rw [h2] at h1
  apply hψ
  rw [← h1]
  simp [scal]

example : scal square (wave square (fun _ => (0 : Fin 4))) (wave square (fun _ => (0 : Fin 4))) ≠ 0 := by
  have := scal_wave_pos square_ok (fun _ => (0 : Fin 4))
  intro h
  rw [h] at this
  simp at this

/-! ### C170 -/

/-- **C170.**  With a time dependent potential an update changes nothing about the following step. -/
theorem C170_update_partial {s : Space} (h : s.Ok) (mass : Fin s.d → ℝ) (t : KinOp s)
    (hc : KinOp.create s mass = .ok t) (c : ℂ) (p : Pot s) (i : Option (Pot s)) (hp : p.timeDep = true)
    (hi : ∀ q, i = some q → q.Honest) (ψ0 : s.Wf) :
    ∃ (o : Spo s) (K : s.Wf → s.Wf),
      ((Spo.new s).setExponent c).init (single t p i) 0 (.one ψ0) = .ok o ∧ IsKinExp s mass c K ∧
      ∀ n, ∃ o1, o.updateTime n = .ok o1 ∧
        ∀ m ψ, ∃ o2, o1.apply m (.one ψ) = .val (o2, .one (strang K c (total p i m) ψ)) := by
  obtain ⟨o, h1, h2, h3⟩ := init_single h hc c p i 0 ψ0
  have hh : p.Honest := fun hx => by rw [hp] at hx; cases hx
  refine ⟨o, _, h1, kinStep_spec h hc c, fun n => ?_⟩
  have key : ∃ o1, o.updateTime n = .ok o1 ∧ Fresh (kinE s mass) c p i o1 := by
    unfold Spo.updateTime
    rw [if_neg (by simp [h2.clock])]
    by_cases hn : o.lastTime ≠ n
    · obtain ⟨o1, h4, h5, h6⟩ := initV_ready h2 n
      refine ⟨o1, ?_, ?_⟩
      · rw [if_pos hn, h2.vpot0]
        dsimp only
        rw [if_pos hp, ← h4, h2.vpot0]
      · show Ready _ _ _ _ o1.lastTime o1
        rw [h6]
        exact h5
    · rw [if_neg hn]
      refine ⟨o, rfl, ?_⟩
      show Ready _ _ _ _ o.lastTime o
      rw [h3]
      exact h2
  obtain ⟨o1, h4, h5⟩ := key
  refine ⟨o1, h4, fun m ψ => ?_⟩
  obtain ⟨o2, h6, _⟩ := apply_fresh h5 hh hi m ψ
  exact ⟨o2, h6⟩

/-- **C170.**  For a potential that does not depend on time an update at any later time step reads a
null pointer. -/
theorem C170_violated_static {s : Space} (h : s.Ok) (mass : Fin s.d → ℝ) (t : KinOp s)
    (hc : KinOp.create s mass = .ok t) (c : ℂ) (p : Pot s) (i : Option (Pot s)) (hp : p.timeDep = false)
    (m n : Int) (hn : n ≠ 0) (ψ0 : s.Wf) (o : Spo s)
    (ho : ((Spo.new s).setExponent c).init (single t p i) m (.one ψ0) = .ok o) :
    o.updateTime n = .ub := by
  obtain ⟨o1, h1, h2, h3⟩ := init_single h hc c p i m ψ0
  rw [ho, Out.ok.injEq] at h1
  subst h1
  unfold Spo.updateTime
  rw [if_neg (by simp [h2.clock]), if_pos (by rw [h3]; exact fun hx => hn hx.symm), h2.vpot0]
  dsimp only
  rw [if_neg (by simp [hp]), h2.vcoup]

example : (samplePot square (fun n => n) true).timeDep = true ∧
    (samplePot square (fun _ => 2) false).timeDep = false := ⟨rfl, rfl⟩

/-! ### C171 -/

/-- **C171.**  No propagator can be copied, in whatever histories the source and the target were
used. -/
theorem C171_violated_copy {s : Space} (cs ds : List (Call s)) (o r : Spo s)
    (ho : history (Spo.new s) cs = some o) (_hr : history (Spo.new s) ds = some r) :
    o.copyFrom r = .ub := by
  have key : o.vpot1 = none ∨ o.expT = none := by
    rcases inv_history cs _ _ (Or.inl (pre_new s)) ho with h | h | h
    · exact Or.inr h.expT
    · exact Or.inr h.expT
    · exact Or.inl h.vpot1
  unfold Spo.copyFrom
  rcases key with hk | hk <;> rw [hk]
  · split <;> simp_all
  · split <;> rfl

/-- Histories with a successful initialisation exist. -/
example : ∃ cs o, history (Spo.new square) cs = some o ∧ o.expT.isSome = true := by
  obtain ⟨t, ht⟩ := square_kin
  obtain ⟨o, h1, h2, _⟩ := init_single square_ok ht quarter (samplePot square (fun n => n) true) none 0 0
  refine ⟨[.exponent quarter, .init (single t (samplePot square (fun n => n) true) none) 0 (.one 0)], o,
    ?_, ?_⟩
  · simp only [history, after, Option.bind_some, h1]
  · rw [h2.expT]
    rfl

end QDng.Spo
