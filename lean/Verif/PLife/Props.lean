import Verif.PLife.Lemmas

/-
C275: a driven Hamiltonian follows the clock of the propagator.
C276: copies of propagators.
C277: another clock for a propagator that was set up before.
C278: what a propagator refuses when it is set up.
-/

namespace QDng.PLife
open Common

variable {K : Type}

/-! ### C275 -/

/-- With the Chebychev, Lanczos and Arnoldi propagators: after the set-up with a clock that fits the lasers, every step uses the
field values of the time step the clock shows at that moment, for all Hamiltonians, and the time step of the clock. -/
theorem C275_fields_partial (W : World) (fit : Bool → Op → Ans Unit) (S : Series K) (kind : Kind) (k : ℕ) (H : Op)
    (hkind : kind ≠ .rk4) (hfit : ∀ o, fit true o = .val ()) (hS : ∀ o c d m n, ∃ x, S o c d m n = .val x)
    (hdt : (W k).dt ≠ 0) (hF : Fits (W k) H) (hherm : kind = .sil → H.hermitian = true) :
    ∃ q, (Propag.new kind).setUp W fit S k H = .ok q ∧
      ∀ W' : World, SameClock (W' k) (W k) → (W' k).step < (W' k).steps →
        ∃ u, q.step W' = .val u ∧ u.kind = kind ∧ u.fields = drive (W' k) H ∧ u.dt = (W k).dt ∧
          u.exponent = -Complex.I * ((W k).dt : ℂ) := by
  obtain ⟨H', h1, h2⟩ := setClock_ok W k H hF
  cases kind with
  | rk4 => exact absurd rfl hkind
  | cheby =>
    obtain ⟨x, hx⟩ := hS H' (-Complex.I * ((W k).dt : ℂ)) (W k).dt false 20
    refine ⟨_, setUp_cheby W fit S k H H' x hfit hdt h1 hx, fun W' hs hl => ?_⟩
    exact ⟨_, step_st W' _ _ _ _ _ _ _ (h2 W' hs hl) (by simp) (by simp), rfl, rfl, hs.1, rfl⟩
  | sil =>
    refine ⟨_, setUp_krylov W fit S .sil k H H' (by simp) hfit hdt h1 hherm, fun W' hs hl => ?_⟩
    exact ⟨_, step_st W' _ _ _ _ _ _ _ (h2 W' hs hl) (by simp) (by simp), rfl, rfl, hs.1, rfl⟩
  | arnoldi =>
    refine ⟨_, setUp_krylov W fit S .arnoldi k H H' (by simp) hfit hdt h1 hherm, fun W' hs hl => ?_⟩
    exact ⟨_, step_st W' _ _ _ _ _ _ _ (h2 W' hs hl) (by simp) (by simp), rfl, rfl, hs.1, rfl⟩

/-- With the Runge-Kutta propagator the set-up is accepted, but every step with a driven Hamiltonian reads a null pointer, for all
Hamiltonians with at least one laser that was not given a clock by someone else. -/
theorem C275_violated_rk4 (W : World) (fit : Bool → Op → Ans Unit) (S : Series K) (k : ℕ) (H : Op)
    (hfit : ∀ o, fit true o = .val ()) (hdt : (W k).dt ≠ 0) (hU : Unclocked H) :
    ∃ q, (Propag.new .rk4).setUp W fit S k H = .ok q ∧ ∀ W' : World, q.step W' = .ub := by
  exact ⟨_, setUp_rk4 W fit S k H hfit hdt, fun W' => step_st_ub W' _ _ _ _ _ _ (fields_unclocked W' H hU)⟩

/-- If the Hamiltonian is given the clock before (as the optimal control program does), the Runge-Kutta propagator uses the
field values of the time step the clock shows. -/
theorem C275_rk4_clocked_partial (W : World) (fit : Bool → Op → Ans Unit) (S : Series K) (k : ℕ) (H H' : Op)
    (hfit : ∀ o, fit true o = .val ()) (hdt : (W k).dt ≠ 0) (hF : Fits (W k) H)
    (hc : H.setClock W (some k) = .ok H') :
    ∃ q, (Propag.new .rk4).setUp W fit S k H' = .ok q ∧
      ∀ W' : World, SameClock (W' k) (W k) → (W' k).step < (W' k).steps →
        ∃ u, q.step W' = .val u ∧ u.fields = drive (W' k) H ∧ u.dt = (W k).dt ∧
          u.exponent = -Complex.I * ((W k).dt : ℂ) := by
  obtain ⟨H'', h1, h2⟩ := setClock_ok W k H hF
  have : H'' = H' := by rw [hc] at h1; cases h1; rfl
  subst this
  refine ⟨_, setUp_rk4 W fit S k _ hfit hdt, fun W' hs hl => ?_⟩
  exact ⟨_, step_st W' _ _ _ _ _ _ _ (h2 W' hs hl) (by simp) (by simp), rfl, hs.1, rfl⟩

/-! ### C276 -/

/-- A state that never makes a step: the Chebychev propagator without names and buffers, the Lanczos propagator with buffers but
without the buffer of the vectors, the Runge-Kutta propagator with buffers but without a Hamiltonian. -/
def Dead (p : Propag K) : Prop :=
  (p.kind = .cheby ∧ p.names = [] ∧ p.ready = false) ∨
  (p.kind = .sil ∧ p.ready = true ∧ p.slots = false ∧ 3 ≤ p.order) ∨
  (p.kind = .rk4 ∧ p.ready = true ∧ p.target = none)

theorem Dead.step {p : Propag K} (h : Dead p) (W : World) (u : Used K) : p.step W ≠ .val u := by
  rcases h with ⟨_, _, h⟩ | ⟨h1, h2, h3, h4⟩ | ⟨h1, h2, h3⟩
  · simp [Propag.step, h]
  · cases ht : p.target with
    | none => simp [Propag.step, h2, ht]
    | some o =>
      cases hf : o.fields W with
      | ub => simp [Propag.step, h2, ht, hf]
      | threw => simp [Propag.step, h2, ht, hf]
      | val l => cases hc : p.clock <;> simp [Propag.step, h2, ht, hf, hc, h1, h3, h4]
  · simp [Propag.step, h2, h3]

theorem Dead.call {p q : Propag K} (h : Dead p) (W : World) (fit : Bool → Op → Ans Unit) (S : Series K) (c : Call)
    (hq : p.call W fit S c = some q) : Dead q := by
  cases c with
  | clock k =>
    simp only [Propag.call, Option.some.injEq] at hq
    subst hq
    simpa [Dead, Propag.setClock, Propag.target] using h
  | direct f =>
    simp only [Propag.call, Propag.direct] at hq
    cases hc : p.clock with
    | none => simp only [hc, Option.some.injEq] at hq; exact hq ▸ h
    | some k =>
      simp only [hc, Option.some.injEq] at hq
      subst hq
      simpa [Dead, Propag.target] using h
  | init wf =>
    simp only [Propag.call, Propag.init] at hq
    rcases h with ⟨h1, h2, h3⟩ | ⟨h1, h2, h3, h4⟩ | ⟨h1, h2, h3⟩
    · simp only [h1, Propag.initCheby, Propag.find, h2, List.lookup, Option.some.injEq] at hq
      subst hq
      exact Or.inl ⟨h1, h2, h3⟩
    · have : Dead p := Or.inr (Or.inl ⟨h1, h2, h3, h4⟩)
      simp only [h1, Propag.initKrylov, h2, if_true] at hq
      cases hb : p.base W fit wf <;> simp only [hb] at hq <;> first | (cases hq; exact this) | cases hq
    · have : Dead p := Or.inr (Or.inr ⟨h1, h2, h3⟩)
      simp only [h1, Propag.initRK4, h2, if_true] at hq
      cases wf <;> simp at hq <;> exact hq ▸ this

theorem Dead.calls {p q : Propag K} (h : Dead p) (W : World) (fit : Bool → Op → Ans Unit) (S : Series K) (cs : List Call)
    (hq : p.calls W fit S cs = some q) : Dead q := by
  induction cs generalizing p with
  | nil =>
    simp only [Propag.calls, Option.some.injEq] at hq
    exact hq ▸ h
  | cons c cs ih =>
    simp only [Propag.calls] at hq
    cases hc : p.call W fit S c with
    | none => simp [hc] at hq
    | some r =>
      simp only [hc] at hq
      exact ih (h.call W fit S c hc) hq

/-- A copy of a Chebychev, Lanczos or Runge-Kutta propagator never makes a step, whatever clocks, directions and wave functions it
is given afterwards, for all propagators that were set up. -/
theorem C276_violated (dup : Op → Op) (p q r : Propag K) (hk : p.kind ≠ .arnoldi) (ho : p.kind = .sil → 3 ≤ p.order)
    (hq : (Propag.new p.kind).copy dup p = .ok q) (W : World) (fit : Bool → Op → Ans Unit) (S : Series K)
    (cs : List Call) (hr : q.calls W fit S cs = some r) (W' : World) (u : Used K) : r.step W' ≠ .val u := by
  refine Dead.step ((Dead.calls ?_ W fit S cs hr)) W' u
  cases hkind : p.kind with
  | arnoldi => exact absurd hkind hk
  | cheby =>
    simp only [hkind, Propag.copy] at hq
    cases ht : p.target with
    | none => simp [ht] at hq
    | some o =>
      simp only [ht] at hq
      cases hq
      exact Or.inl ⟨rfl, rfl, rfl⟩
  | sil =>
    simp only [hkind, Propag.copy] at hq
    cases hr : p.ready with
    | false => simp [hr] at hq
    | true =>
      cases ht : p.target with
      | none => simp [hr, ht] at hq
      | some o =>
        simp only [hr, ht] at hq
        cases hq
        exact Or.inr (Or.inl ⟨rfl, rfl, rfl, ho hkind⟩)
  | rk4 =>
    simp only [hkind, Propag.copy] at hq
    cases hr : p.ready with
    | false => simp [hr] at hq
    | true =>
      simp only [hr] at hq
      cases hq
      exact Or.inr (Or.inr ⟨rfl, rfl, rfl⟩)

/-- A copy of an Arnoldi propagator that makes steps makes the same steps, up to the threshold, which is the one of a new propagator;
the copy of the Hamiltonian has to use the same field values. -/
theorem C276_arnoldi_partial (dup : Op → Op) (p : Propag K) (hk : p.kind = .arnoldi) (hn : p.coef = none)
    (hdup : ∀ o W, (dup o).fields W = o.fields W) (W : World) (u : Used K) (hu : p.step W = .val u) :
    ∃ q, (Propag.new .arnoldi).copy dup p = .ok q ∧
      ∀ W' v, p.step W' = .val v → q.step W' = .val { v with eps := 1e-12 } := by
  have hr : p.ready = true := by
    cases h : p.ready with
    | true => rfl
    | false => simp [Propag.step, h] at hu
  cases ht : p.target with
  | none => simp [Propag.step, hr, ht] at hu
  | some o =>
    refine ⟨_, by simp only [Propag.copy, hk, hr, ht]; rfl, fun W' v hv => ?_⟩
    simp only [Propag.step, hr, ht, hk] at hv
    cases hf : o.fields W' with
    | ub => simp [hf] at hv
    | threw => simp [hf] at hv
    | val l =>
      cases hc : p.clock with
      | none => simp [hf, hc] at hv
      | some k =>
        simp [hf, hc] at hv
        subst hv
        simp [Propag.step, Propag.copyBase, Propag.target, hdup, hf, hc, Propag.new, hn]

/-- With another threshold the copy of an Arnoldi propagator is computed with a different threshold than the original. -/
theorem C276_violated_threshold (dup : Op → Op) (p q : Propag K) (hk : p.kind = .arnoldi) (he : p.eps ≠ 1e-12)
    (hq : (Propag.new .arnoldi).copy dup p = .ok q) (W W' : World) (u v : Used K) (hu : p.step W = .val u)
    (hv : q.step W' = .val v) : v.eps ≠ u.eps := by
  have key : ∀ (r : Propag K) (V : World) (w : Used K), r.step V = .val w → w.eps = r.eps := by
    intro r V w hw
    simp only [Propag.step] at hw
    cases hr : r.ready with
    | false => simp [hr] at hw
    | true =>
      cases ht : r.target with
      | none => simp [hr, ht] at hw
      | some o =>
        cases hf : o.fields V with
        | ub => simp [hr, ht, hf] at hw
        | threw => simp [hr, ht, hf] at hw
        | val l =>
          cases hc : r.clock with
          | none => simp [hr, ht, hf, hc] at hw
          | some k =>
            simp only [hr, ht, hf, hc] at hw
            split at hw
            · simp at hw
            · split at hw
              · cases hw
              · split at hw
                · cases hw
                · cases hw; rfl
  have e : q.eps = 1e-12 := by
    simp only [Propag.copy, hk] at hq
    cases hr : p.ready with
    | false => simp [hr] at hq
    | true =>
      cases ht : p.target with
      | none => simp [hr, ht] at hq
      | some o => simp only [hr, ht] at hq; cases hq; rfl
  rw [key p W u hu, key q W' v hv, e]
  exact fun h => he h.symm

/-- Copying a propagator that was never set up reads a null pointer. -/
theorem C276_violated_early (dup : Op → Op) (q p : Propag K) (hr : p.ready = false) (hH : p.target = none) :
    q.copy dup p = .ub := by
  cases hk : p.kind <;> simp [Propag.copy, hk, hr, hH]

/-! ### C277 -/

/-- With a Hamiltonian without lasers, a Lanczos, Arnoldi or Runge-Kutta propagator that is given another clock and is set up again
makes the steps of one that was set up with this clock. -/
theorem C277_partial (W : World) (fit : Bool → Op → Ans Unit) (S : Series K) (kind : Kind) (k k' : ℕ) (H : Op)
    (hkind : kind ≠ .cheby) (hfit : ∀ o, fit true o = .val ()) (hdt : (W k).dt ≠ 0) (hdt' : (W k').dt ≠ 0)
    (hs : Static H) (hherm : kind = .sil → H.hermitian = true) :
    ∃ q r s u, (Propag.new kind).setUp W fit S k H = .ok q ∧ (q.setClock W k').init W fit S true = .ok r ∧
      (Propag.new kind).setUp W fit S k' H = .ok s ∧ r.step W = .val u ∧ s.step W = .val u ∧
      u.dt = (W k').dt ∧ u.exponent = -Complex.I * ((W k').dt : ℂ) := by
  obtain ⟨H1, h1, h2, -⟩ := setClock_static W (some k) H hs
  obtain ⟨H2, h3, h4, -⟩ := setClock_static W (some k') H hs
  have f1 := fields_static W H1 h2
  have f2 := fields_static W H2 h4
  have f3 := fields_static W H hs
  cases kind with
  | cheby => exact absurd rfl hkind
  | sil =>
    exact ⟨_, _, _, _, setUp_krylov W fit S .sil k H H1 (by simp) hfit hdt h1 hherm,
      again_krylov W fit S .sil k k' _ H1 _ _ (by simp) hfit hdt',
      setUp_krylov W fit S .sil k' H H2 (by simp) hfit hdt' h3 hherm,
      step_st W _ _ _ _ _ _ _ f1 (by simp) (by simp), step_st W _ _ _ _ _ _ _ f2 (by simp) (by simp), rfl, rfl⟩
  | arnoldi =>
    exact ⟨_, _, _, _, setUp_krylov W fit S .arnoldi k H H1 (by simp) hfit hdt h1 hherm,
      again_krylov W fit S .arnoldi k k' _ H1 _ _ (by simp) hfit hdt',
      setUp_krylov W fit S .arnoldi k' H H2 (by simp) hfit hdt' h3 hherm,
      step_st W _ _ _ _ _ _ _ f1 (by simp) (by simp), step_st W _ _ _ _ _ _ _ f2 (by simp) (by simp), rfl, rfl⟩
  | rk4 =>
    exact ⟨_, _, _, _, setUp_rk4 W fit S k H hfit hdt, again_rk4 W fit S k k' _ H _ _,
      setUp_rk4 W fit S k' H hfit hdt',
      step_st W _ _ _ _ _ _ _ f3 (by simp) (by simp), step_st W _ _ _ _ _ _ _ f3 (by simp) (by simp), rfl, rfl⟩

/-- The Chebychev propagator keeps what it computed for the first clock: its steps differ from those of one that was set up with
the second clock whenever the series of the two differ, for all Hamiltonians that fit both clocks. -/
theorem C277_violated_cheby (W : World) (fit : Bool → Op → Ans Unit) (S : Series K) (k k' : ℕ) (H : Op)
    (hfit : ∀ o, fit true o = .val ()) (hdt : (W k).dt ≠ 0) (hdt' : (W k').dt ≠ 0) (hs : Static H) (x y : K)
    (hx : ∀ o, S o (-Complex.I * ((W k).dt : ℂ)) (W k).dt false 20 = .val x)
    (hy : ∀ o, S o (-Complex.I * ((W k').dt : ℂ)) (W k').dt false 20 = .val y) :
    ∃ q r s u v, (Propag.new .cheby).setUp W fit S k H = .ok q ∧ (q.setClock W k').init W fit S true = .ok r ∧
      (Propag.new .cheby).setUp W fit S k' H = .ok s ∧ r.step W = .val u ∧ s.step W = .val v ∧
      u.exponent = v.exponent ∧ u.dt = v.dt ∧ u.coef = some x ∧ v.coef = some y := by
  obtain ⟨H1, h1, h2, -⟩ := setClock_static W (some k) H hs
  obtain ⟨H3, h5, h6, -⟩ := setClock_static W (some k') H1 h2
  obtain ⟨H2, h3, h4, -⟩ := setClock_static W (some k') H hs
  have f2 := fields_static W H2 h4
  have f3 := fields_static W H3 h6
  exact ⟨_, _, _, _, _, setUp_cheby W fit S k H H1 x hfit hdt h1 (hx _),
    again_cheby W fit S k k' _ H1 H3 _ _ hfit hdt' h5, setUp_cheby W fit S k' H H2 y hfit hdt' h3 (hy _),
    step_st W _ _ _ _ _ _ _ f3 (by simp) (by simp), step_st W _ _ _ _ _ _ _ f2 (by simp) (by simp), rfl, rfl, rfl, rfl⟩

/-- The lasers of a Lanczos or Arnoldi propagator that is given another clock and is set up again still follow the first clock. -/
theorem C277_violated_lasers (W : World) (fit : Bool → Op → Ans Unit) (S : Series K) (kind : Kind) (k k' : ℕ) (H : Op)
    (hkind : kind = .sil ∨ kind = .arnoldi) (hfit : ∀ o, fit true o = .val ()) (hdt : (W k).dt ≠ 0)
    (hdt' : (W k').dt ≠ 0) (hF : Fits (W k) H) (hherm : kind = .sil → H.hermitian = true) :
    ∃ q r, (Propag.new kind).setUp W fit S k H = .ok q ∧ (q.setClock W k').init W fit S true = .ok r ∧
      ∀ W' : World, SameClock (W' k) (W k) → (W' k).step < (W' k).steps →
        ∃ u, r.step W' = .val u ∧ u.fields = drive (W' k) H ∧ u.dt = (W' k').dt := by
  obtain ⟨H', h1, h2⟩ := setClock_ok W k H hF
  refine ⟨_, _, setUp_krylov W fit S kind k H H' hkind hfit hdt h1 hherm,
    again_krylov W fit S kind k k' _ H' _ _ hkind hfit hdt', fun W' hs hl => ?_⟩
  refine ⟨_, step_st W' _ _ _ _ _ _ _ (h2 W' hs hl) (by simp) ?_, rfl, rfl⟩
  rcases hkind with rfl | rfl <;> simp

/-! ### C278 -/

/-- Without a Hamiltonian `Init` reports an error. -/
theorem C278_hamiltonian (W : World) (fit : Bool → Op → Ans Unit) (S : Series K) (wf : Bool) (p : Propag K)
    (hfit : ∀ o, fit wf o ≠ .ub) (hn : p.find = none) (hr : p.ready = false) :
    p.init W fit S wf = .threw p := by
  have hb : p.base W fit wf ≠ .ub := by
    simp only [Propag.base]
    cases p.clock with
    | none => simp
    | some k =>
      have := fitAll_not_ub (fit wf) hfit p.members
      dsimp only
      split
      · simp
      · split
        · simp
        · exact this
  cases hk : p.kind with
  | cheby => simp [Propag.init, hk, Propag.initCheby, hn]
  | sil => cases h : p.base W fit wf <;> simp_all [Propag.init, Propag.initKrylov]
  | arnoldi => cases h : p.base W fit wf <;> simp_all [Propag.init, Propag.initKrylov]
  | rk4 => cases wf <;> simp [Propag.init, hk, Propag.initRK4, hn, hr]

/-- Without a clock, with the time step zero, or without a wave function the Lanczos and Arnoldi propagators report an error, at every
time and as often as they are asked: nothing changes. -/
theorem C278_krylov (W : World) (fit : Bool → Op → Ans Unit) (S : Series K) (wf : Bool) (p : Propag K)
    (hk : p.kind = .sil ∨ p.kind = .arnoldi)
    (h : p.clock = none ∨ (∃ k, p.clock = some k ∧ (W k).dt = 0) ∨ (p.clock ≠ none ∧ wf = false)) :
    p.init W fit S wf = .threw p := by
  have hb : p.base W fit wf = .threw := by
    simp only [Propag.base]
    rcases h with h | ⟨k, h, h'⟩ | ⟨h, h'⟩
    · simp [h]
    · simp [h, h']
    · cases hc : p.clock with
      | none => rfl
      | some k => simp [h']
  rcases hk with hk | hk <;> simp [Propag.init, hk, Propag.initKrylov, hb]

/-- The Lanczos propagator refuses a Hamiltonian that is not hermitian, and it refuses it again when it is asked again. -/
theorem C278_hermitian (W : World) (fit : Bool → Op → Ans Unit) (S : Series K) (k i : ℕ) (o : Op) (p : Propag K)
    (hk : p.kind = .sil) (hr : p.ready = false) (hfit : ∀ o, fit true o = .val ()) (hc : p.clock = some k)
    (hdt : (W k).dt ≠ 0) (hf : p.find = some i) (ho : p.members[i]? = some o) (hh : o.hermitian = false) :
    ∃ q, p.init W fit S true = .threw q ∧ q.init W fit S true = .threw q := by
  refine ⟨{ p with H := .member i }, ?_, ?_⟩
  · simp [Propag.init, hk, Propag.initKrylov, Propag.base, hc, hdt, fitAll_ok, hfit, hr, hf, ho, hh]
  · have hf' : p.names.lookup "hamiltonian" = some i := hf
    simp [Propag.init, hk, Propag.initKrylov, Propag.base, hc, hdt, fitAll_ok, hfit, hr, Propag.find, hf', ho, hh]

/-- A Chebychev propagator without a clock reports this if there is no generated pulse in the Hamiltonian. -/
theorem C278_cheby_clock_partial (W : World) (fit : Bool → Op → Ans Unit) (S : Series K) (i : ℕ) (o : Op)
    (p : Propag K) (hk : p.kind = .cheby) (hfit : ∀ o, fit true o = .val ()) (hc : p.clock = none)
    (hf : p.find = some i) (ho : p.members[i]? = some o) (hs : Static o) :
    ∃ q, p.init W fit S true = .threw q := by
  obtain ⟨o', h1, -⟩ := setClock_static W none o hs
  have hi : i < p.members.length := by
    by_contra h
    rw [List.getElem?_eq_none (by omega)] at ho
    cases ho
  have he : p.members[i] = o := by
    rw [List.getElem?_eq_getElem hi] at ho
    exact Option.some.inj ho
  refine ⟨{ p with H := .member i, members := p.members.set i o' }, ?_⟩
  simp [Propag.init, hk, Propag.initCheby, hf, Propag.giveClock, he, hc, h1, Propag.target, hi, hfit, Propag.base]

/-- With a generated pulse the missing clock is not reported: a null pointer is read. -/
theorem C278_violated_cheby (W : World) (fit : Bool → Op → Ans Unit) (S : Series K) (i : ℕ) (wf : Bool) (p : Propag K)
    (c : Option ℕ) (g : ℕ → ℝ → ℕ → ℝ) (s : Option ℝ) (f : Field) (hk : p.kind = .cheby) (hc : p.clock = none)
    (hf : p.find = some i) (ho : p.members[i]? = some (.laser c (some g) s f)) :
    p.init W fit S wf = .ub := by
  simp [Propag.init, hk, Propag.initCheby, hf, Propag.giveClock, ho, hc, Op.setClock]

/-- The Chebychev propagator refuses an order that is too small only once: asked again it accepts, and the step reads
coefficients that do not exist. -/
theorem C278_violated_order (W : World) (fit : Bool → Op → Ans Unit) (S : Series K) (k i : ℕ) (o : Op) (p : Propag K)
    (hk : p.kind = .cheby) (hr : p.ready = false) (hn : p.coef = none) (hfit : ∀ o, fit true o = .val ())
    (hc : p.clock = some k) (hdt : (W k).dt ≠ 0) (hf : p.find = some i) (ho : p.members[i]? = some o) (hs : Static o)
    (hS : ∀ o c d m n, S o c d m n = .threw) :
    ∃ q r, p.init W fit S true = .threw q ∧ q.init W fit S true = .ok r ∧ ∀ W', r.step W' = .ub := by
  obtain ⟨o1, h1, s1, -⟩ := setClock_static W (some k) o hs
  obtain ⟨o2, h2, s2, -⟩ := setClock_static W (some k) o1 s1
  have hi : i < p.members.length := by
    by_contra h
    rw [List.getElem?_eq_none (by omega)] at ho
    cases ho
  have he : p.members[i] = o := by
    rw [List.getElem?_eq_getElem hi] at ho
    exact Option.some.inj ho
  have hf' : p.names.lookup "hamiltonian" = some i := hf
  refine ⟨{ p with H := .member i, members := p.members.set i o1, ready := true },
    { p with H := .member i, members := p.members.set i o2, ready := true }, ?_, ?_, fun W' => ?_⟩
  · simp [Propag.init, hk, Propag.initCheby, hf, Propag.giveClock, he, hc, h1, Propag.target, hi, hfit, Propag.base,
      hdt, fitAll_ok, Propag.initSeries, hr, hS]
  · simp [Propag.init, hk, Propag.initCheby, Propag.find, hf', Propag.giveClock, hc, h2, Propag.target, hi, hfit,
      Propag.base, hdt, fitAll_ok, Propag.initSeries]
  · simp [Propag.step, Propag.target, hi, fields_static W' o2 s2, hc, hk, hn]

/-- The Runge-Kutta propagator refuses a missing clock only once: asked again it accepts, and a step reads a null pointer. -/
theorem C278_violated_rk4 (W : World) (fit : Bool → Op → Ans Unit) (S : Series K) (i : ℕ) (p : Propag K)
    (hk : p.kind = .rk4) (hr : p.ready = false) (hc : p.clock = none) (hf : p.find = some i) :
    ∃ q, p.init W fit S true = .threw q ∧ q.init W fit S true = .ok q ∧ ∀ W' u, q.step W' ≠ .val u := by
  refine ⟨{ p with H := .member i, ready := true }, ?_, ?_, fun W' u => ?_⟩
  · simp [Propag.init, hk, Propag.initRK4, hr, hf, Propag.base, hc]
  · simp [Propag.init, hk, Propag.initRK4]
  · cases ho : p.members[i]? with
    | none => simp [Propag.step, Propag.target, ho]
    | some o =>
      cases hfl : o.fields W' <;> simp [Propag.step, Propag.target, ho, hfl, hc]

/-- The Lanczos and Arnoldi propagators refuse a laser that does not fit the clock only once: asked again they accept it, and steps
are made with the field that was refused. -/
theorem C278_violated_laser (W : World) (fit : Bool → Op → Ans Unit) (S : Series K) (kind : Kind) (k : ℕ)
    (c : Option ℕ) (s : Option ℝ) (f : Field) (hk : kind = .sil ∨ kind = .arnoldi) (hfit : ∀ o, fit true o = .val ())
    (hdt : (W k).dt ≠ 0) (hno : ¬ Fits (W k) (.laser c none s f)) :
    ∃ q, (Propag.new kind).setUp W fit S k (.laser c none s f) = .threw q ∧ q.init W fit S true = .ok q ∧
      ∀ W' v, f.vals[(W' k).step]? = some v → ∃ u, q.step W' = .val u ∧ u.fields = [v * f.scale] := by
  have hb : (W k).dt ≠ f.dt ∨ f.vals.length < (W k).steps := by
    by_contra h
    push Not at h
    exact hno (by simpa [Fits] using h)
  have hl : (Op.laser c none s f).setClock W (some k) = .threw (.laser (some k) none s { f with clock := some k }) := by
    simp only [Op.setClock, Field.setClock, if_pos hb]
  refine ⟨st kind k (-Complex.I * ((W k).dt : ℂ)) (.laser (some k) none s { f with clock := some k }) true none, ?_, ?_,
    fun W' v hv => ?_⟩
  · rcases hk with rfl | rfl <;>
    simp [Propag.setUp, Propag.add, Propag.new, Propag.setClock, Propag.init, Propag.initKrylov, Propag.find,
      Propag.giveClock, hl, hfit, Propag.base, hdt, fitAll_ok, st, Op.hermitian]
  · rcases hk with rfl | rfl <;>
    simp [st, Propag.init, Propag.initKrylov, hfit, Propag.base, hdt, fitAll_ok]
  · refine ⟨_, step_st W' _ _ _ _ _ _ [v * f.scale] ?_ (by simp) ?_, rfl⟩
    · simp [Op.fields, Field.get, hv]
    · rcases hk with rfl | rfl <;> simp

end QDng.PLife
