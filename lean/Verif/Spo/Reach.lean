import Verif.Spo.Lemmas

/-
Invariant of the split operator propagator over all histories of calls.
-/

namespace QDng.Spo

open QDng.Deriv QDng.Common

/-- What holds after a call: `P` after a normal return, `Q` after an exception, `U` says whether
undefined behaviour is possible. -/
def Post {S : Type} (P Q : S → Prop) (U : Prop) : Out S → Prop
  | .ok s => P s
  | .threw s => Q s
  | .ub => U

theorem Post.bind {S : Type} {P P' Q : S → Prop} {U : Prop} {r : Out S} {f : S → Out S}
    (h : Post P Q U r) (hf : ∀ s, P s → Post P' Q U (f s)) : Post P' Q U (r.bind f) := by
  cases r with
  | ok s => exact hf s h
  | threw s => exact h
  | ub => exact h

theorem Post.imp {S : Type} {P P' Q Q' : S → Prop} {U U' : Prop} {r : Out S} (h : Post P Q U r)
    (h1 : ∀ s, P s → P' s) (h2 : ∀ s, Q s → Q' s) (h3 : U → U') : Post P' Q' U' r := by
  cases r with
  | ok s => exact h1 s h
  | threw s => exact h2 s h
  | ub => exact h3 h

/-- Before a successful initialisation nothing is allocated, and a second potential comes with a
multistate operator in the sum. -/
structure Pre {s : Space} (o : Spo s) : Prop where
  buf : o.buf = false
  expT : o.expT = none
  expV : o.expV = none
  expI : o.expVcoupI = none
  vpot1 : o.vpot1.isSome = true → ∃ n, Mem.multi n ∈ o.sum

/-- After a failed consistency check: the buffer exists, the exponentials do not. -/
structure Half {s : Space} (o : Spo s) : Prop where
  buf : o.buf = true
  coupling : o.coupling = true
  vpot1 : o.vpot1 = none
  expT : o.expT = none
  expV : o.expV = none

/-- After a successful initialisation. -/
structure Done {s : Space} (o : Spo s) : Prop where
  clock : o.hasClock = true
  buf : o.buf = true
  coupling : o.coupling = false
  vpot0 : o.vpot0.isSome = true
  vpot1 : o.vpot1 = none
  expT : o.expT.isSome = true
  expV : ∃ v, o.expV = some (.one v)
  expI : o.coupdiag = true → o.vcoupI.isSome = true ∧ ∃ v, o.expVcoupI = some (.one v)

/-- The invariant. -/
def Inv {s : Space} (o : Spo s) : Prop := Pre o ∨ Half o ∨ Done o

/-- The diagonal coupling is known if it is used. -/
def Diag {s : Space} (o : Spo s) : Prop := o.coupdiag = true → o.vcoupI.isSome = true

/-- State during the evaluation of the operator list; `D` tells whether the diagonal coupling is
known. -/
structure Parse {s : Space} (D : Prop) (o : Spo s) : Prop where
  clock : o.hasClock = true
  pre : Pre o
  diag : D → Diag o

theorem parseT_post {s : Space} {D : Prop} (o : Spo s) (a : Option (KinOp s)) (h : Parse D o) :
    Post (fun o => Parse D o ∧ o.tkin.isSome = true ∧ Mem.grid ∈ o.sum) Inv False (o.parseT a) := by
  unfold Spo.parseT
  cases a with
  | none => exact Or.inl ⟨h.pre.buf, h.pre.expT, h.pre.expV, h.pre.expI, h.pre.vpot1⟩
  | some t =>
    refine ⟨⟨h.clock, ⟨h.pre.buf, h.pre.expT, h.pre.expV, h.pre.expI, ?_⟩, h.diag⟩, rfl, ?_⟩
    · intro hv
      obtain ⟨n, hn⟩ := h.pre.vpot1 hv
      exact ⟨n, List.mem_append_left _ hn⟩
    · exact List.mem_append_right _ (List.mem_singleton.2 rfl)

theorem parseV_post {s : Space} {D : Prop} (o : Spo s) (a : VArg s)
    (h : Parse D o ∧ o.tkin.isSome = true ∧ Mem.grid ∈ o.sum) :
    Post (fun o => Parse D o ∧ o.tkin.isSome = true ∧ Mem.grid ∈ o.sum ∧ o.vpot0.isSome = true) Inv False
      (o.parseV a) := by
  obtain ⟨h, ht, hg⟩ := h
  unfold Spo.parseV
  cases a with
  | missing => exact Or.inl h.pre
  | bad => exact Or.inl ⟨h.pre.buf, h.pre.expT, h.pre.expV, h.pre.expI, h.pre.vpot1⟩
  | single p =>
    refine ⟨⟨h.clock, ⟨h.pre.buf, h.pre.expT, h.pre.expV, h.pre.expI, ?_⟩, h.diag⟩, ht,
      List.mem_append_left _ hg, rfl⟩
    intro hv
    obtain ⟨n, hn⟩ := h.pre.vpot1 hv
    exact ⟨n, List.mem_append_left _ hn⟩
  | multi n p0 p1 =>
    dsimp only
    by_cases h2 : n > 2
    · rw [if_pos h2]
      exact Or.inl h.pre
    · rw [if_neg h2]
      cases p0 with
      | none => exact Or.inl ⟨h.pre.buf, h.pre.expT, h.pre.expV, h.pre.expI, h.pre.vpot1⟩
      | some p =>
        dsimp only
        by_cases h3 : n = 2
        · rw [if_pos h3]
          cases p1 with
          | none => exact Or.inl ⟨h.pre.buf, h.pre.expT, h.pre.expV, h.pre.expI, by intro hv; cases hv⟩
          | some q =>
            refine ⟨⟨h.clock, ⟨h.pre.buf, h.pre.expT, h.pre.expV, h.pre.expI, ?_⟩, h.diag⟩, ht,
              List.mem_append_left _ hg, rfl⟩
            intro _
            exact ⟨n, List.mem_append_right _ (List.mem_singleton.2 rfl)⟩
        · rw [if_neg h3]
          refine ⟨⟨h.clock, ⟨h.pre.buf, h.pre.expT, h.pre.expV, h.pre.expI, ?_⟩, h.diag⟩, ht,
            List.mem_append_left _ hg, rfl⟩
          intro _
          exact ⟨n, List.mem_append_right _ (List.mem_singleton.2 rfl)⟩

/-- The state before the sum is initialised. -/
def Ready0 {s : Space} (D : Prop) (o : Spo s) : Prop :=
  Parse D o ∧ o.tkin.isSome = true ∧ Mem.grid ∈ o.sum ∧ o.vpot0.isSome = true

theorem parseC_post {s : Space} {D : Prop} (o : Spo s) (a : CArg s) (h : Ready0 D o) :
    Post (Ready0 D) Inv False (o.parseC a) := by
  obtain ⟨h, ht, hg, hv0⟩ := h
  have key : ∀ c : Option (Pot s), Post (Ready0 D) Inv False
      (match c with
        | none => .threw { o with vcoup := none }
        | some c => .ok { o with
            vcoup := some c, timeDep := o.timeDep || c.timeDep, coupling := true,
            sum := o.sum ++ [.grid] }) := by
    intro c
    cases c with
    | none => exact Or.inl ⟨h.pre.buf, h.pre.expT, h.pre.expV, h.pre.expI, h.pre.vpot1⟩
    | some c =>
      refine ⟨⟨h.clock, ⟨h.pre.buf, h.pre.expT, h.pre.expV, h.pre.expI, ?_⟩, h.diag⟩, ht,
        List.mem_append_left _ hg, hv0⟩
      intro hv
      obtain ⟨n, hn⟩ := h.pre.vpot1 hv
      exact ⟨n, List.mem_append_left _ hn⟩
  unfold Spo.parseC
  cases a with
  | missing => exact ⟨h, ht, hg, hv0⟩
  | bad => exact Or.inl h.pre
  | multi c01 c10 => exact key _

theorem parseI_post {s : Space} {D : Prop} (o : Spo s) (a : IArg s) (h : Ready0 D o) :
    Post (Ready0 D) Inv False (o.parseI a) := by
  obtain ⟨h, ht, hg, hv0⟩ := h
  unfold Spo.parseI
  cases a with
  | missing => exact ⟨h, ht, hg, hv0⟩
  | bad => exact Or.inl ⟨h.pre.buf, h.pre.expT, h.pre.expV, h.pre.expI, h.pre.vpot1⟩
  | pot p =>
    refine ⟨⟨h.clock, ⟨h.pre.buf, h.pre.expT, h.pre.expV, h.pre.expI, ?_⟩, fun _ _ => rfl⟩, ht,
      List.mem_append_left _ hg, hv0⟩
    intro hv
    obtain ⟨n, hn⟩ := h.pre.vpot1 hv
    exact ⟨n, List.mem_append_left _ hn⟩

/-- The state after the sum is initialised: the wave function is a single state one. -/
def Ready1 {s : Space} (D : Prop) (ψ : Psi s) (o : Spo s) : Prop :=
  Parse D o ∧ (∃ t, o.tkin = some (KinOp.init t)) ∧ o.vpot0.isSome = true ∧ o.vpot1 = none ∧
    ∃ φ, ψ = .one φ

theorem initSum_post {s : Space} {D : Prop} (o : Spo s) (ψ : Psi s) (h : Ready0 D o) :
    Post (Ready1 D ψ) Inv False (o.initSum ψ) := by
  obtain ⟨h, ht, hg, hv0⟩ := h
  unfold Spo.initSum
  by_cases ha : o.sum.all (fun m => m.accepts ψ) = true
  · rw [if_pos ha]
    rw [List.all_eq_true] at ha
    obtain ⟨t, ht⟩ := Option.isSome_iff_exists.1 ht
    have hψ : ∃ φ, ψ = .one φ := by
      have := ha _ hg
      cases ψ with
      | one φ => exact ⟨φ, rfl⟩
      | two _ _ => simp [Mem.accepts] at this
      | other => simp [Mem.accepts] at this
    refine ⟨⟨h.clock, ⟨h.pre.buf, h.pre.expT, h.pre.expV, h.pre.expI, h.pre.vpot1⟩, h.diag⟩, ⟨t, ?_⟩, hv0,
      ?_, hψ⟩
    · show Option.map KinOp.init o.tkin = _
      rw [ht]
      rfl
    · cases hv : o.vpot1 with
      | none => rfl
      | some p =>
        obtain ⟨n, hn⟩ := h.pre.vpot1 (by rw [hv]; rfl)
        have := ha _ hn
        obtain ⟨φ, hφ⟩ := hψ
        subst hφ
        simp [Mem.accepts] at this
  · rw [if_neg ha]
    exact Or.inl h.pre

/-- The state before the exponentials are computed. -/
def Ready2 {s : Space} (D : Prop) (ψ : Psi s) (o : Spo s) : Prop :=
  Ready1 D ψ { o with buf := false } ∧ o.buf = true ∧ o.coupling = false

theorem setup_post {s : Space} {D : Prop} (o : Spo s) (ψ : Psi s) (h : Ready1 D ψ o) :
    Post (Ready2 D ψ) Inv False o.setup := by
  obtain ⟨h, ht, hv0, hv1, hψ⟩ := h
  unfold Spo.setup
  dsimp only
  rw [hv1]
  simp only [Option.isNone_none, Bool.true_and]
  by_cases hc : o.coupling = true
  · rw [if_pos hc]
    exact Or.inr (Or.inl ⟨rfl, hc, rfl, h.pre.expT, h.pre.expV⟩)
  · rw [if_neg hc]
    refine ⟨⟨⟨h.clock, ⟨rfl, h.pre.expT, h.pre.expV, h.pre.expI, ?_⟩, h.diag⟩, ht, hv0, rfl, hψ⟩, rfl,
      by simpa using hc⟩
    intro hv
    cases hv

theorem final_post {s : Space} {D : Prop} (o : Spo s) (ψ : Psi s) (now : Int) (h : Ready2 D ψ o) :
    Post Done Inv (¬ D) (((o.alloc ψ).initT).bind fun o => o.initV now) := by
  obtain ⟨⟨h, ⟨t, ht⟩, hv0, hv1, φ, rfl⟩, hb, hc⟩ := h
  have hd : ∃ k, (KinOp.init t).dspace = some k := by
    unfold KinOp.init
    cases hd : t.dspace with
    | none => exact ⟨_, rfl⟩
    | some k => exact ⟨k, hd⟩
  obtain ⟨k, hk⟩ := hd
  obtain ⟨p, hp⟩ := Option.isSome_iff_exists.1 hv0
  have ht' : o.tkin = some (KinOp.init t) := ht
  have hp' : o.vpot0 = some p := hp
  have hI : o.expVcoupI = none := h.pre.expI
  have hV : o.expV = none := h.pre.expV
  have hdiag : D → o.coupdiag = true → o.vcoupI.isSome = true := h.diag
  unfold Spo.initT Spo.alloc
  simp only [ht', hk, Out.bind, hV, hI]
  unfold Spo.initV
  simp only [hc, Bool.false_eq_true, if_false, hp']
  by_cases hcd : o.coupdiag = true
  · rw [if_pos hcd]
    cases hq : o.vcoupI with
    | none =>
      dsimp only
      intro hD
      have := hdiag hD hcd
      rw [hq] at this
      cases this
    | some q =>
      simp only [hcd, if_true]
      exact ⟨h.clock, hb, rfl, rfl, hv1, rfl, ⟨_, rfl⟩, fun _ => ⟨rfl, _, rfl⟩⟩
  · rw [if_neg hcd]
    exact ⟨h.clock, hb, rfl, rfl, hv1, rfl, ⟨_, rfl⟩, fun hx => absurd hx hcd⟩

theorem init_post {s : Space} {D : Prop} (o : Spo s) (a : Args s) (now : Int) (ψ : Psi s)
    (hpre : Pre o) (hd : D → Diag o) : Post Done Inv (¬ D) (o.init a now ψ) := by
  unfold Spo.init
  have h0 : Post (Parse D) Inv False (o.checkPsi ψ) := by
    unfold Spo.checkPsi
    cases hc : o.hasClock with
    | false => exact Or.inl hpre
    | true =>
      simp only [Bool.not_true, Bool.false_eq_true, if_false]
      cases ψ with
      | one _ => exact ⟨hc, hpre, hd⟩
      | two _ _ => exact ⟨hc, hpre, hd⟩
      | other => exact Or.inl hpre
  refine Post.bind (h0.imp (fun _ h => h) (fun _ h => h) False.elim) (fun o h => ?_)
  rw [if_neg (by rw [h.pre.buf]; simp)]
  have h1 := (((((parseT_post o a.tkin h).bind fun o h => parseV_post o a.vpot h).bind
    fun o h => parseC_post o a.vcoup h).bind fun o h => parseI_post o a.vcoupI h).bind
    fun o h => initSum_post o ψ h)
  refine Post.bind (h1.imp (fun _ h => h) (fun _ h => h) False.elim) (fun o h => ?_)
  exact Post.bind ((setup_post o ψ h).imp (fun _ h => h) (fun _ h => h) False.elim)
    (fun o h => final_post o ψ now h)

/-! ### The other calls -/

theorem initV_done {s : Space} {o : Spo s} (h : Done o) (n : Int) :
    ∃ o', ({ o with lastTime := n } : Spo s).initV n = .ok o' ∧ Done o' := by
  obtain ⟨p, hp⟩ := Option.isSome_iff_exists.1 h.vpot0
  obtain ⟨v, hv⟩ := h.expV
  unfold Spo.initV
  simp only [h.coupling, Bool.false_eq_true, if_false, hv, hp]
  by_cases hcd : o.coupdiag = true
  · obtain ⟨h1, w, hw⟩ := h.expI hcd
    obtain ⟨q, hq⟩ := Option.isSome_iff_exists.1 h1
    simp only [hcd, if_true, hq, hw]
    exact ⟨_, rfl, h.clock, h.buf, rfl, rfl, h.vpot1, h.expT, ⟨_, rfl⟩, fun _ => ⟨rfl, _, rfl⟩⟩
  · rw [if_neg hcd]
    exact ⟨_, rfl, h.clock, h.buf, rfl, rfl, h.vpot1, h.expT, ⟨_, rfl⟩, fun hx => absurd hx hcd⟩

theorem uncoupled_done {s : Space} {o : Spo s} (h : Done o) (ψ : s.Wf) :
    ∃ φ, o.uncoupled (.one ψ) = .val (o, .one φ) := by
  obtain ⟨e, he⟩ := Option.isSome_iff_exists.1 h.expT
  obtain ⟨v, hv⟩ := h.expV
  unfold Spo.uncoupled
  simp only [he, hv]
  by_cases hcd : o.coupdiag = true
  · obtain ⟨_, w, hw⟩ := h.expI hcd
    simp only [hcd, if_true, hw]
    exact ⟨_, rfl⟩
  · rw [if_neg hcd]
    exact ⟨_, rfl⟩

theorem apply_done {s : Space} {o : Spo s} (h : Done o) (n : Int) (ψ : s.Wf) :
    ∃ o' φ, o.apply n (.one ψ) = .val (o', .one φ) ∧ Done o' := by
  unfold Spo.apply
  rw [if_neg (by simp [h.clock])]
  by_cases hn : o.lastTime ≠ n ∧ o.timeDep = true
  · obtain ⟨o', h1, h2⟩ := initV_done h n
    obtain ⟨φ, hφ⟩ := uncoupled_done h2 ψ
    refine ⟨o', φ, ?_, h2⟩
    rw [if_pos hn, h1]
    simp only [h2.coupling, Bool.false_eq_true, if_false]
    exact hφ
  · obtain ⟨φ, hφ⟩ := uncoupled_done h ψ
    refine ⟨o, φ, ?_, h⟩
    rw [if_neg hn]
    simp only [h.coupling, Bool.false_eq_true, if_false]
    exact hφ

/-- Without exponentials, and with coupling or without potential exponential, each application is
undefined. -/
theorem apply_undone {s : Space} {o : Spo s} (hT : o.expT = none) (hV : o.expV = none) (n : Int)
    (ψ : Psi s) : o.apply n ψ = .ub := by
  have hi : ∀ o : Spo s, o.expV = none → o.initV n = .ub := by
    intro o h
    unfold Spo.initV
    rw [h]
    split_ifs <;> rfl
  have hu : (if o.coupling then o.coupled ψ else o.uncoupled ψ) = .ub := by
    unfold Spo.coupled Spo.uncoupled
    rw [hT]
    cases ψ <;> simp
  unfold Spo.apply
  by_cases hh : (!o.hasClock) = true
  · rw [if_pos hh]
  · rw [if_neg hh]
    by_cases hn : o.lastTime ≠ n ∧ o.timeDep = true
    · rw [if_pos hn, hi { o with lastTime := n } hV]
    · rw [if_neg hn]
      exact hu

/-- An initialised propagator can not be applied to anything else. -/
theorem apply_other {s : Space} {o : Spo s} (h : Done o) (n : Int) (ψ : Psi s)
    (hψ : ∀ φ, ψ ≠ .one φ) : o.apply n ψ = .ub := by
  have hu : ∀ o : Spo s, o.coupling = false →
      (if o.coupling then o.coupled ψ else o.uncoupled ψ) = .ub := by
    intro o hc
    rw [hc]
    simp only [Bool.false_eq_true, if_false]
    unfold Spo.uncoupled
    cases ψ with
    | one φ => exact absurd rfl (hψ φ)
    | two _ _ => rfl
    | other => rfl
  unfold Spo.apply
  rw [if_neg (by simp [h.clock])]
  by_cases hn : o.lastTime ≠ n ∧ o.timeDep = true
  · obtain ⟨o', h1, h2⟩ := initV_done h n
    rw [if_pos hn, h1]
    exact hu o' h2.coupling
  · rw [if_neg hn]
    exact hu o h.coupling

theorem update_done {s : Space} {o : Spo s} (h : Done o) (n : Int) :
    o.updateTime n = .ub ∨ ∃ o', o.updateTime n = .ok o' ∧ Done o' := by
  obtain ⟨p, hp⟩ := Option.isSome_iff_exists.1 h.vpot0
  obtain ⟨o', h1, h2⟩ := initV_done h n
  unfold Spo.updateTime
  rw [if_neg (by simp [h.clock])]
  by_cases hn : o.lastTime ≠ n
  · rw [if_pos hn, hp]
    dsimp only
    by_cases ht : p.timeDep = true
    · rw [if_pos ht]
      exact Or.inr ⟨o', by rw [← h1, hp], h2⟩
    · rw [if_neg ht]
      cases hc : o.vcoup with
      | none => exact Or.inl rfl
      | some c =>
        dsimp only
        by_cases ht : c.timeDep = true
        · rw [if_pos ht]
          exact Or.inr ⟨o', by rw [← h1, hp, hc], h2⟩
        · rw [if_neg ht]
          exact Or.inr ⟨o, rfl, h⟩
  · rw [if_neg hn]
    exact Or.inr ⟨o, rfl, h⟩

theorem initV_undone {s : Space} {o : Spo s} (hV : o.expV = none) (n : Int) : o.initV n = .ub := by
  unfold Spo.initV
  rw [hV]
  split_ifs <;> rfl

theorem update_undone {s : Space} {o : Spo s} (hV : o.expV = none) (n : Int) :
    o.updateTime n = .ub ∨ o.updateTime n = .ok o := by
  unfold Spo.updateTime
  by_cases hh : (!o.hasClock) = true
  · rw [if_pos hh]
    exact Or.inl rfl
  · rw [if_neg hh]
    by_cases hn : o.lastTime ≠ n
    · rw [if_pos hn]
      cases o.vpot0 with
      | none => exact Or.inl rfl
      | some p =>
        dsimp only
        by_cases ht : p.timeDep = true
        · rw [if_pos ht]
          exact Or.inl (initV_undone (by exact hV) n)
        · rw [if_neg ht]
          cases o.vcoup with
          | none => exact Or.inl rfl
          | some c =>
            dsimp only
            by_cases ht : c.timeDep = true
            · rw [if_pos ht]
              exact Or.inl (initV_undone (by exact hV) n)
            · rw [if_neg ht]
              exact Or.inr rfl
    · rw [if_neg hn]
      exact Or.inr rfl

theorem inv_exponent {s : Space} {o : Spo s} (h : Inv o) (c : ℂ) : Inv (o.setExponent c) := by
  rcases h with h | h | h
  · exact Or.inl ⟨h.buf, h.expT, h.expV, h.expI, h.vpot1⟩
  · exact Or.inr (Or.inl ⟨h.buf, h.coupling, h.vpot1, h.expT, h.expV⟩)
  · exact Or.inr (Or.inr ⟨rfl, h.buf, h.coupling, h.vpot0, h.vpot1, h.expT, h.expV, h.expI⟩)

/-- A further initialisation of a propagator with a buffer changes nothing. -/
theorem init_again {s : Space} {o : Spo s} (h : o.buf = true) (a : Args s) (now : Int) (ψ : Psi s) :
    o.init a now ψ = .ok o ∨ o.init a now ψ = .threw o := by
  unfold Spo.init Spo.checkPsi
  cases hc : o.hasClock with
  | false => exact Or.inr rfl
  | true =>
    simp only [Bool.not_true, Bool.false_eq_true, if_false]
    cases ψ with
    | one _ => exact Or.inl (by simp [Out.bind, h])
    | two _ _ => exact Or.inl (by simp [Out.bind, h])
    | other => exact Or.inr rfl

theorem inv_after {s : Space} {o o' : Spo s} (h : Inv o) (c : Call s) (ha : after o c = some o') :
    Inv o' := by
  cases c with
  | exponent c =>
    simp only [after, Option.some.injEq] at ha
    subst ha
    exact inv_exponent h c
  | init a now ψ =>
    by_cases hb : o.buf = true
    · have : o' = o := by
        simp only [after] at ha
        rcases init_again hb a now ψ with hi | hi <;> rw [hi] at ha <;> simpa using ha.symm
      rw [this]
      exact h
    · have hp : Pre o := by
        rcases h with h | h | h
        · exact h
        · exact absurd h.buf hb
        · exact absurd h.buf hb
      have := init_post (D := False) o a now ψ hp False.elim
      simp only [after] at ha
      cases hi : o.init a now ψ with
      | ok o1 =>
        rw [hi] at ha this
        simp only [Option.some.injEq] at ha
        subst ha
        exact Or.inr (Or.inr this)
      | threw o1 =>
        rw [hi] at ha this
        simp only [Option.some.injEq] at ha
        subst ha
        exact this
      | ub =>
        rw [hi] at ha
        cases ha
  | apply now ψ =>
    simp only [after] at ha
    rcases h with h | h | h
    · rw [apply_undone h.expT h.expV] at ha
      cases ha
    · rw [apply_undone h.expT h.expV] at ha
      cases ha
    · by_cases hψ : ∃ φ, ψ = .one φ
      · obtain ⟨φ, rfl⟩ := hψ
        obtain ⟨o1, χ, h1, h2⟩ := apply_done h now φ
        rw [h1] at ha
        simp only [Option.some.injEq] at ha
        subst ha
        exact Or.inr (Or.inr h2)
      · rw [apply_other h now ψ (fun φ hφ => hψ ⟨φ, hφ⟩)] at ha
        cases ha
  | update now =>
    simp only [after] at ha
    have key : ∀ o : Spo s, o.expV = none → Inv o →
        (match o.updateTime now with
          | .ok o' => some o' | .threw o' => some o' | .ub => none) = some o' → Inv o' := by
      intro o hV hI ha
      rcases update_undone hV now with hu | hu <;> rw [hu] at ha
      · cases ha
      · simp only [Option.some.injEq] at ha
        rw [← ha]
        exact hI
    rcases h with h | h | h
    · exact key o h.expV (Or.inl h) ha
    · exact key o h.expV (Or.inr (Or.inl h)) ha
    · rcases update_done h now with hu | ⟨o1, hu, h2⟩ <;> rw [hu] at ha
      · cases ha
      · simp only [Option.some.injEq] at ha
        subst ha
        exact Or.inr (Or.inr h2)

theorem pre_new (s : Space) : Pre (Spo.new s) := ⟨rfl, rfl, rfl, rfl, by intro h; cases h⟩

theorem inv_history {s : Space} (cs : List (Call s)) : ∀ (o o' : Spo s), Inv o →
    history o cs = some o' → Inv o' := by
  induction cs with
  | nil =>
    intro o o' h hh
    simp only [history, Option.some.injEq] at hh
    rw [← hh]
    exact h
  | cons c cs ih =>
    intro o o' h hh
    simp only [history] at hh
    cases ha : after o c with
    | none => rw [ha] at hh; cases hh
    | some o1 =>
      rw [ha] at hh
      exact ih o1 o' (inv_after h c ha) hh

end QDng.Spo
