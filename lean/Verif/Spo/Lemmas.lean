import Verif.Spo.Spec
import Verif.Deriv.KinProps

/-
Lemmas about the split operator propagator.
-/

namespace QDng.Spo

open QDng.Deriv QDng.Common

/-! ### The kinetic step -/

theorem init_dspace {s : Space} (h : s.Ok) {mass : Fin s.d → ℝ} {t : KinOp s}
    (hc : KinOp.create s mass = .ok t) : t.init.dspace = some (kinE s mass) := by
  obtain ⟨_, h2, h3, h4, _⟩ := create_ok hc
  unfold KinOp.init
  rw [h4]
  simp only
  rw [h2]
  exact congrArg some (funext (collective_eq h mass))

theorem init_init {s : Space} (t : KinOp s) : t.init.init = t.init := by
  have h : ∃ k, t.init.dspace = some k := by
    unfold KinOp.init
    cases hd : t.dspace with
    | none => exact ⟨_, rfl⟩
    | some k => exact ⟨k, hd⟩
  obtain ⟨k, hk⟩ := h
  generalize t.init = u at hk
  unfold KinOp.init
  rw [hk]

theorem kinStep_expo {s : Space} (h : s.Ok) {mass : Fin s.d → ℝ} {t : KinOp s}
    (hc : KinOp.create s mass = .ok t) (c : ℂ) (ψ : s.Wf) :
    t.init.expo c ψ = some (kinStep (expElements (kinE s mass) c) ψ) := by
  unfold KinOp.expo
  rw [init_init, init_dspace h hc]
  unfold kinStep expElements
  simp only [mul_assoc]

theorem kinStep_spec {s : Space} (h : s.Ok) {mass : Fin s.d → ℝ} {t : KinOp s}
    (hc : KinOp.create s mass = .ok t) (c : ℂ) :
    IsKinExp s mass c (kinStep (expElements (kinE s mass) c)) := by
  obtain ⟨U, h1, h2, h3⟩ := C135_exponential h mass t hc c
  have : U = kinStep (expElements (kinE s mass) c) := by
    funext ψ
    have := h1 ψ
    rw [kinStep_expo h hc, Option.some.injEq] at this
    exact this.symm
  subst this
  exact ⟨h2, h3⟩

/-- There is only one exponential. -/
theorem IsKinExp.unique {s : Space} (h : s.Ok) {mass : Fin s.d → ℝ} {c : ℂ} {K L : s.Wf → s.Wf}
    (hK : IsKinExp s mass c K) (hL : IsKinExp s mass c L) : K = L :=
  Lin.ext_wave h hK.1 hL.1 (fun q => by rw [hK.2, hL.2])

/-! ### The step without coupling -/

/-- The propagator is ready for single state wave functions, with the exponent `c`, the potential `p` and
the coupling `i`; the exponentials of the potentials belong to the time step `m`. -/
structure Ready {s : Space} (k : s.Pt → ℝ) (c : ℂ) (p : Pot s) (i : Option (Pot s)) (m : Int)
    (o : Spo s) : Prop where
  clock : o.hasClock = true
  buf : o.buf = true
  coupling : o.coupling = false
  coupdiag : o.coupdiag = i.isSome
  timeDep : o.timeDep = (p.timeDep || match i with | some q => q.timeDep | none => false)
  cV : o.cV = c / 2
  vpot0 : o.vpot0 = some p
  vcoup : o.vcoup = none
  vcoupI : o.vcoupI = i
  expT : o.expT = some (expElements k c)
  expV : o.expV = some (.one (expElements (p.val m) (c / 2)))
  expI : ∀ q, i = some q → o.expVcoupI = some (.one (expElements (q.val m) (c / 2)))

theorem uncoupled_eq {s : Space} {k : s.Pt → ℝ} {c : ℂ} {p : Pot s} {i : Option (Pot s)} {m : Int}
    {o : Spo s} (h : Ready k c p i m o) (ψ : s.Wf) :
    o.uncoupled (.one ψ) =
      .val (o, .one (strang (kinStep (expElements k c)) c (total p i m) ψ)) := by
  unfold Spo.uncoupled
  rw [h.expT, h.expV, h.coupdiag]
  cases i with
  | none =>
    simp only [Option.isSome_none, Bool.false_eq_true, if_false, Ans.val.injEq, Prod.mk.injEq, true_and,
      Psi.one.injEq]
    funext x
    simp only [mulElements, strang, total, add_zero, expElements]
    rw [mul_comm, mul_comm (p.val m x : ℂ)]
    congr 2
    funext y
    show ψ y * Complex.exp ((p.val m y : ℂ) * (c / 2)) = _
    rw [mul_comm, mul_comm (p.val m y : ℂ)]
  | some q =>
    rw [h.expI q rfl]
    simp only [Option.isSome_some, if_true, Ans.val.injEq, Prod.mk.injEq, true_and, Psi.one.injEq]
    funext x
    have key : ∀ z : s.Pt, Complex.exp (c / 2 * ((p.val m z + q.val m z : ℝ) : ℂ)) =
        expElements (p.val m) (c / 2) z * expElements (q.val m) (c / 2) z := by
      intro z
      unfold expElements
      rw [← Complex.exp_add]
      push_cast
      ring_nf
    simp only [mulElements, strang, total, key]
    rw [mul_assoc, mul_comm]
    refine congrArg _ (congrArg (fun f => kinStep (expElements k c) f x) ?_)
    funext y
    show ψ y * expElements (p.val m) (c / 2) y * expElements (q.val m) (c / 2) y = _
    ring

theorem initV_ready {s : Space} {k : s.Pt → ℝ} {c : ℂ} {p : Pot s} {i : Option (Pot s)} {m : Int}
    {o : Spo s} (h : Ready k c p i m o) (n : Int) :
    ∃ o', ({ o with lastTime := n } : Spo s).initV n = .ok o' ∧ Ready k c p i n o' ∧ o'.lastTime = n := by
  unfold Spo.initV
  simp only [h.coupling, Bool.false_eq_true, if_false, h.expV, h.vpot0, h.coupdiag]
  cases i with
  | none =>
    refine ⟨_, rfl, ⟨h.clock, h.buf, rfl, rfl, h.timeDep, h.cV, rfl, h.vcoup, h.vcoupI, h.expT, ?_, ?_⟩, rfl⟩
    · show some _ = _
      rw [h.cV]
    · intro q hq
      cases hq
  | some q =>
    simp only [Option.isSome_some, if_true, h.vcoupI, h.expI q rfl]
    refine ⟨_, rfl, ⟨h.clock, h.buf, rfl, rfl, h.timeDep, h.cV, rfl, h.vcoup, rfl, h.expT, ?_, ?_⟩, rfl⟩
    · show some _ = _
      rw [h.cV]
    · intro q' hq
      cases hq
      show some _ = _
      rw [h.cV]

/-- Values at two times agree if nothing depends on time. -/
theorem Ready.move {s : Space} {k : s.Pt → ℝ} {c : ℂ} {p : Pot s} {i : Option (Pot s)} {m : Int}
    {o : Spo s} (h : Ready k c p i m o) (hp : p.Honest) (hi : ∀ q, i = some q → q.Honest)
    (ht : o.timeDep = false) (n : Int) : Ready k c p i n o := by
  have h1 := h.timeDep
  rw [ht] at h1
  have hpt : p.timeDep = false := by
    cases hh : p.timeDep with
    | false => rfl
    | true => rw [hh] at h1; simp at h1
  refine ⟨h.clock, h.buf, h.coupling, h.coupdiag, h.timeDep, h.cV, h.vpot0, h.vcoup, h.vcoupI, h.expT,
    ?_, ?_⟩
  · rw [h.expV, hp hpt m n]
  · intro q hq
    have hqt : q.timeDep = false := by
      subst hq
      cases hh : q.timeDep with
      | false => rfl
      | true => simp [hh] at h1
    rw [h.expI q hq, hi q hq hqt m n]

/-- The invariant of a propagator that was initialised at time step zero: the exponentials belong to the
time step that is remembered. -/
def Fresh {s : Space} (k : s.Pt → ℝ) (c : ℂ) (p : Pot s) (i : Option (Pot s)) (o : Spo s) : Prop :=
  Ready k c p i o.lastTime o

theorem apply_fresh {s : Space} {k : s.Pt → ℝ} {c : ℂ} {p : Pot s} {i : Option (Pot s)} {o : Spo s}
    (h : Fresh k c p i o) (hp : p.Honest) (hi : ∀ q, i = some q → q.Honest) (n : Int) (ψ : s.Wf) :
    ∃ o', o.apply n (.one ψ) =
        .val (o', .one (strang (kinStep (expElements k c)) c (total p i n) ψ)) ∧
      Fresh k c p i o' := by
  unfold Spo.apply
  rw [if_neg (by simp [h.clock])]
  by_cases hn : o.lastTime ≠ n ∧ o.timeDep = true
  · obtain ⟨o', h1, h2, h3⟩ := initV_ready h n
    refine ⟨o', ?_, ?_⟩
    · rw [if_pos hn, h1]
      simp only [h2.coupling, Bool.false_eq_true, if_false]
      exact uncoupled_eq h2 ψ
    · show Ready k c p i o'.lastTime o'
      rw [h3]
      exact h2
  · refine ⟨o, ?_, h⟩
    rw [if_neg hn]
    simp only [h.coupling, Bool.false_eq_true, if_false]
    have hr : Ready k c p i n o := by
      by_cases ht : o.timeDep = true
      · have : o.lastTime = n := by
          by_contra hne
          exact hn ⟨hne, ht⟩
        rw [← this]
        exact h
      · exact Ready.move h hp hi (by simpa using ht) n
    exact uncoupled_eq hr ψ

/-- Initialisation of a new propagator. -/
theorem init_single {s : Space} (h : s.Ok) {mass : Fin s.d → ℝ} {t : KinOp s}
    (hc : KinOp.create s mass = .ok t) (c : ℂ) (p : Pot s) (i : Option (Pot s)) (n : Int) (ψ : s.Wf) :
    ∃ o, ((Spo.new s).setExponent c).init (single t p i) n (.one ψ) = .ok o ∧
      Ready (kinE s mass) c p i n o ∧ o.lastTime = 0 := by
  have hd := init_dspace h hc
  cases i with
  | none =>
    refine ⟨⟨true, c, [.grid, .grid], true, some t.init, some p, none, none, none, false,
      false, p.timeDep, c, c / 2, 0, some (expElements (kinE s mass) c),
      some (.one (expElements (p.val n) (c / 2))), some (.one ψ), none⟩, ?_, ?_, rfl⟩
    · simp [Spo.init, Spo.checkPsi, Spo.setExponent, Spo.new, Out.bind, Spo.parseT, single, Spo.parseV,
        Spo.parseC, Spo.parseI, Spo.initSum, Mem.accepts, Spo.setup, Spo.alloc, Spo.initT, hd, Spo.initV]
    · constructor <;> first | rfl | simp
  | some q =>
    refine ⟨⟨true, c, [.grid, .grid, .grid], true, some t.init, some p, none, none, some q, false,
      true, p.timeDep || q.timeDep, c, c / 2, 0, some (expElements (kinE s mass) c),
      some (.one (expElements (p.val n) (c / 2))), some (.one ψ), some (.one (expElements (q.val n) (c / 2)))⟩, ?_, ?_, rfl⟩
    · simp [Spo.init, Spo.checkPsi, Spo.setExponent, Spo.new, Out.bind, Spo.parseT, single, Spo.parseV,
        Spo.parseC, Spo.parseI, Spo.initSum, Mem.accepts, Spo.setup, Spo.alloc, Spo.initT, hd, Spo.initV]
    · constructor <;> first | rfl | simp

end QDng.Spo
