import Verif.Filters.Run

/-
C44: filter lists.  The statements use `Spec` (what the handbook says), new lists, `init` and `applies`.
-/

namespace QDng.Filters

open QDng QDng.Common

variable {V : Type}

/-- The configured state of a new list. -/
theorem init_St (renorm : Option Bool) (es : List (Entry V)) (is : List (Spec.Item V)) (e : Env V) (hne : es ≠ [])
    (hlen : es.length ≤ 128) (hname : ∀ e ∈ es, e.name ≠ []) (hc : List.Forall₂ Spec.Config es is) :
    ∃ l, init (FList.new V) renorm es = .ok l ∧ St e (renorm.getD false) is [] l ∧ l.inited = false ∧
      l.file = if is.any fun i => Spec.shows i.act then some [] else none := by
  obtain ⟨l, hl, A⟩ := loadAll_ok es is { FList.new V with renorm := renorm.getD false } (by show 0 + es.length ≤ 128; omega)
    (fun _ _ => ⟨rfl, rfl⟩) hname hc
  obtain ⟨e0, es', rfl⟩ := List.exists_cons_of_ne_nil hne
  have hw : l.writefile = is.any fun i => Spec.shows i.act := by rw [A.writefile]; rfl
  have hf : l.file = none := A.file
  have hst : ∀ l' : FList V, l'.size = l.size → l'.slots = l.slots → l'.renorm = l.renorm → l'.writefile = l'.file.isSome →
      St e (renorm.getD false) is [] l' := by
    intro l' h1 h2 h3 h4
    refine ⟨?_, fun j i hj => ?_, fun j i _ hj _ _ => ?_, ?_, h4⟩
    · rw [h1, A.size]; exact Nat.zero_add _
    · have := (A.slot j i hj).1
      rw [h2]
      rwa [show ({ FList.new V with renorm := renorm.getD false } : FList V).size + j = j from Nat.zero_add j] at this
    · have := (A.slot j i hj).2
      rw [h2]
      rw [show ({ FList.new V with renorm := renorm.getD false } : FList V).size + j = j from Nat.zero_add j] at this
      rw [this]
      rfl
    · rw [h3, A.renorm]
  refine ⟨prepareOutput l, ?_, ?_, ?_, ?_⟩
  · show (match loadAll { FList.new V with renorm := renorm.getD false } (e0 :: es') with
      | .ok l => Out.ok (prepareOutput l) | .threw l => .threw l | .ub => .ub) = _
    rw [hl]
  · unfold prepareOutput
    by_cases h : l.writefile = true
    · rw [if_pos h]
      exact hst _ rfl rfl rfl h
    · rw [if_neg h]
      exact hst _ rfl rfl rfl (by rw [hf]; simpa using h)
  · unfold prepareOutput
    split
    · exact A.inited
    · exact A.inited
  · unfold prepareOutput
    rw [← hw]
    by_cases h : l.writefile = true
    · rw [if_pos h, if_pos h]
    · rw [if_neg h, if_neg h, hf]

/-- **C44**, loading: a filter section is accepted exactly if it is not empty, has at most 128 elements and each of them is one of
the documented modes with documented options; otherwise there is an exception. -/
theorem C44_load (renorm : Option Bool) (es : List (Entry V)) (hname : ∀ e ∈ es, e.name ≠ []) :
    ((es ≠ [] ∧ es.length ≤ 128 ∧ ∀ e ∈ es, ∃ i, Spec.Config e i) → ∃ l, init (FList.new V) renorm es = .ok l ∧ l.size = es.length) ∧
    (¬ (es ≠ [] ∧ es.length ≤ 128 ∧ ∀ e ∈ es, ∃ i, Spec.Config e i) → ∃ l, init (FList.new V) renorm es = .threw l) := by
  constructor
  · rintro ⟨hne, hlen, hc⟩
    have : ∃ is, List.Forall₂ Spec.Config es is := by
      clear hne hlen hname
      induction es with
      | nil => exact ⟨[], .nil⟩
      | cons e es ih =>
        obtain ⟨i, hi⟩ := hc e (by simp)
        obtain ⟨is, his⟩ := ih (fun x hx => hc x (by simp [hx]))
        exact ⟨i :: is, .cons hi his⟩
    obtain ⟨is, his⟩ := this
    obtain ⟨l, h, S, _⟩ := init_St renorm es is ⟨id, fun _ _ => 0, fun _ => none, fun _ _ _ => 0, fun _ _ => 0⟩ hne hlen hname his
    exact ⟨l, h, by rw [S.size, his.length_eq]⟩
  · intro h
    by_cases hne : es = []
    · subst hne
      exact ⟨_, rfl⟩
    · obtain ⟨l, hl⟩ := loadAll_threw es { FList.new V with renorm := renorm.getD false } (Nat.zero_le _) (fun _ _ => ⟨rfl, rfl⟩) hname
        (by
          by_cases hlen : es.length ≤ 128
          · right
            by_contra hcon
            push Not at hcon
            exact h ⟨hne, hlen, hcon⟩
          · left
            show 128 < 0 + es.length
            omega)
      obtain ⟨e0, es', rfl⟩ := List.exists_cons_of_ne_nil hne
      refine ⟨l, ?_⟩
      show (match loadAll { FList.new V with renorm := renorm.getD false } (e0 :: es') with
        | .ok l => Out.ok (prepareOutput l) | .threw l => .threw l | .ub => .ub) = _
      rw [hl]

/-- **C44**, evaluation, for lists loaded once: the filters act on the wave function of each call from top to bottom, and the
file, present if some filter shows a value, consists of the header and one line per call.  Each column shows the value for the
wave function as left by the filters above, accumulated over the calls if asked for.

Missing: loading several times; `rho` without states or with negative numbers; the documented meaning of `ms` for operators (see
the `C44_violated…` theorems). -/
theorem C44_run_partial (e : Env V) (renorm : Option Bool) (es : List (Entry V)) (is : List (Spec.Item V)) (hne : es ≠ [])
    (hlen : es.length ≤ 128) (hname : ∀ e ∈ es, e.name ≠ []) (hc : List.Forall₂ Spec.Config es is) (c : Call V) (cs : List (Call V))
    (hready : ∀ i ∈ is, Spec.Ready e c.psi i) (hdef : ∀ d ∈ c :: cs, (Spec.chain e d.t is d.psi).isSome) :
    ∃ l l' ps, init (FList.new V) renorm es = .ok l ∧ applies e l (c :: cs) = .ok (l', ps) ∧
      ps.map some = (c :: cs).map (fun d => Spec.chain e d.t is d.psi) ∧
      l'.file = (if is.any fun i => Spec.shows i.act then
        some (Spec.header is ++ Spec.lines e (renorm.getD false) is [] (c :: cs)) else none) := by
  obtain ⟨l, h, S, hi, hf⟩ := init_St renorm es is e hne hlen hname hc
  have hne' : is ≠ [] := by rintro rfl; cases hc; exact hne rfl
  obtain ⟨p, hp⟩ := Option.isSome_iff_exists.mp (hdef c (by simp))
  obtain ⟨l1, h1, S1, hi1, hf1⟩ := apply_ok e _ is [] l c p hne' S (fun _ => hready) hp
  obtain ⟨l2, ps, h2, _, hps, hf2⟩ := applies_ok e _ is hne' cs [c] l1 S1 hi1 (fun x hx => hdef x (by simp [hx]))
  refine ⟨l, l2, p :: ps, h, ?_, ?_, ?_⟩
  · unfold applies
    rw [h1]
    dsimp only
    rw [h2]
  · rw [List.map_cons, List.map_cons, hp, hps]
  · rw [hf2, hf1, hf, hi]
    by_cases hany : (is.any fun i => Spec.shows i.act) = true
    · rw [if_pos hany, if_pos hany]
      simp [line, Spec.lines]
    · rw [if_neg hany, if_neg hany]
      rfl

/-- **C44**, rejection: if the first wave function lacks what the filters need, or an operator fails in some call, there is an
exception and nothing else, provided filters leave the number of states unchanged, all wave functions have the same number of
states and `rho` filters name two states that are not negative. -/
theorem C44_reject_partial (e : Env V) (renorm : Option Bool) (es : List (Entry V)) (is : List (Spec.Item V)) (hne : es ≠ [])
    (hlen : es.length ≤ 128) (hname : ∀ e ∈ es, e.name ≠ []) (hc : List.Forall₂ Spec.Config es is) (c : Call V) (cs : List (Call V))
    (hrho : ∀ i ∈ is, i.act = .rho → ∃ a b, i.ms = some (a, b) ∧ 0 ≤ a ∧ 0 ≤ b)
    (hnorm : ∀ p, e.states (e.norm p) = e.states p)
    (happ : ∀ i ∈ is, ∀ o t p q, i.op = some o → o.app t p = some q → e.states q = e.states p)
    (hsame : ∀ d ∈ cs, e.states d.psi = e.states c.psi)
    (hbad : ¬ ((∀ i ∈ is, Spec.Ready e c.psi i) ∧ ∀ d ∈ c :: cs, (Spec.chain e d.t is d.psi).isSome)) :
    ∃ l s, init (FList.new V) renorm es = .ok l ∧ applies e l (c :: cs) = .threw s := by
  obtain ⟨l, h, S, hi, hf⟩ := init_St renorm es is e hne hlen hname hc
  have hne' : is ≠ [] := by rintro rfl; cases hc; exact hne rfl
  have hk : StatesKept e is := ⟨hnorm, happ⟩
  refine ⟨l, ?_⟩
  by_cases hready : ∀ i ∈ is, Spec.Ready e c.psi i
  · have hR : RhoOk e is c.psi := by
      intro i hi ha
      obtain ⟨a, b, hms, h0, h1⟩ := hrho i hi ha
      obtain ⟨n, hn, ha, hb⟩ := (hready i hi).2 a b hms (Or.inl h0)
      exact ⟨a, b, n, hms, hn, h0, ha, h1, hb⟩
    cases hp : Spec.chain e c.t is c.psi with
    | none =>
      obtain ⟨s, hs⟩ := apply_threw e _ is [] l c hne' S hk (Or.inr ⟨fun _ => hready, hR, hp⟩)
      refine ⟨(s.1, []), h, ?_⟩
      · unfold applies
        rw [hs]
    | some p =>
      obtain ⟨l1, h1, S1, hi1, hf1⟩ := apply_ok e _ is [] l c p hne' S (fun _ => hready) hp
      obtain ⟨s, h2⟩ := applies_threw e _ is hne' hk cs [c] l1 S1 hi1
        (fun d hd i hi ha => by
          obtain ⟨a, b, n, h1, h2, h3⟩ := hR i hi ha
          exact ⟨a, b, n, h1, by rw [hsame d hd]; exact h2, h3⟩)
        (fun hall => hbad ⟨hready, fun d hd => by
          rcases List.mem_cons.mp hd with rfl | hd
          · rw [hp]; rfl
          · exact hall d hd⟩)
      refine ⟨(s.1, p :: s.2), h, ?_⟩
      unfold applies
      rw [h1]
      dsimp only
      rw [h2]
  · obtain ⟨s, hs⟩ := apply_threw e _ is [] l c hne' S hk (Or.inl ⟨hi, hready⟩)
    refine ⟨(s.1, []), h, ?_⟩
    unfold applies
    rw [hs]

/-! ### A concrete case: numbers as wave functions, two states, an operator that doubles -/

/-- The operator of the example. -/
noncomputable def twice : Op ℂ := ⟨fun _ p => 2 * p * p, fun _ p => some (2 * p), fun _ => true, "twice".toList⟩

/-- An operator that fails. -/
noncomputable def failing : Op ℂ := ⟨fun _ _ => 0, fun _ _ => none, fun _ => true, "failing".toList⟩

/-- The environment of the example. -/
noncomputable def env2 : Env ℂ := ⟨fun _ => 1, fun p q => p * q, fun _ => some 2, fun p _ _ => p, fun a b => a / b⟩

/-- The elements of the example: `apply`, `expeconly` (accumulated), `rho`. -/
noncomputable def example3 : List (Entry ℂ) :=
  [⟨"apply".toList, none, none, none, none, some twice⟩,
    ⟨"expeconly".toList, some "imag".toList, some true, none, some "E".toList, some twice⟩,
    ⟨"rho".toList, some "abs".toList, none, some [0, 1], none, none⟩]

/-- What they configure. -/
noncomputable def items3 : List (Spec.Item ℂ) :=
  [⟨.apply, .real, false, none, "twice".toList, some twice⟩, ⟨.expeconly, .imag, true, none, "E".toList, some twice⟩,
    ⟨.rho, .abs, false, some (0, 1), "rho".toList, none⟩]

theorem config3 : List.Forall₂ Spec.Config example3 items3 := by
  refine .cons ⟨?_, ?_, rfl, Or.inl rfl, fun _ => ⟨twice, rfl, rfl, rfl⟩, by simp⟩
    (.cons ⟨?_, ?_, rfl, Or.inl rfl, fun _ => ⟨twice, rfl, rfl, rfl⟩, by simp⟩
      (.cons ⟨?_, ?_, rfl, rfl, by simp [Spec.needsOp], fun _ => rfl⟩ .nil)) <;> simp [Spec.modes, Spec.kinds]

theorem names3 : ∀ e ∈ example3, e.name ≠ [] := by
  intro e he
  simp only [example3, List.mem_cons, List.not_mem_nil, or_false] at he
  rcases he with rfl | rfl | rfl <;> simp

theorem ready3 (p : ℂ) : ∀ i ∈ items3, Spec.Ready env2 p i := by
  intro i hi
  simp only [items3, List.mem_cons, List.not_mem_nil, or_false] at hi
  rcases hi with rfl | rfl | rfl
  · exact ⟨fun _ => ⟨twice, rfl, rfl⟩, by simp⟩
  · exact ⟨fun _ => ⟨twice, rfl, rfl⟩, by simp⟩
  · refine ⟨by simp [Spec.needsOp], fun a b h _ => ⟨2, rfl, ?_, ?_⟩⟩
    · simp only [Option.some.injEq, Prod.mk.injEq] at h; omega
    · simp only [Option.some.injEq, Prod.mk.injEq] at h; omega

theorem chain3 (t : ℝ) (p : ℂ) : Spec.chain env2 t items3 p = some (2 * p) := by
  simp [Spec.chain, items3, Spec.step, twice, env2]

/-- `C44_load` is about lists such as this one. -/
example : ∃ l, init (FList.new ℂ) none example3 = .ok l ∧ l.size = 3 :=
  (C44_load none example3 names3).1 ⟨by simp [example3], by simp [example3], fun e he => by
    have h := config3
    obtain ⟨k, hk, rfl⟩ := List.getElem_of_mem he
    exact ⟨_, h.get hk (by rw [← h.length_eq]; exact hk)⟩⟩

/-- `C44_run_partial` applies to it: after two calls the wave functions have been doubled once. -/
example (p q : ℂ) : ∃ l l' ps, init (FList.new ℂ) none example3 = .ok l ∧ applies env2 l [⟨0, 1, p⟩, ⟨1, 1, q⟩] = .ok (l', ps) ∧
    ps = [2 * p, 2 * q] ∧ l'.file ≠ none := by
  obtain ⟨l, l', ps, h1, h2, h3, h4⟩ := C44_run_partial env2 none example3 items3 (by simp [example3]) (by simp [example3]) names3
    config3 ⟨0, 1, p⟩ [⟨1, 1, q⟩] (ready3 p) (fun d _ => by rw [chain3]; rfl)
  refine ⟨l, l', ps, h1, h2, ?_, ?_⟩
  · have : ps.map some = [2 * p, 2 * q].map some := by rw [h3]; simp [chain3]
    exact List.map_injective_iff.mpr (Option.some_injective _) this
  · rw [h4, if_pos (by simp [items3, Spec.shows])]
    simp

/-- `C44_reject_partial` applies to a list whose operator fails. -/
example (p : ℂ) : ∃ l s, init (FList.new ℂ) none [⟨"apply".toList, none, none, none, none, some failing⟩] = .ok l ∧
    applies env2 l [⟨0, 1, p⟩] = .threw s :=
  C44_reject_partial env2 none _ [⟨.apply, .real, false, none, "failing".toList, some failing⟩] (by simp) (by simp) (by simp)
    (.cons ⟨by simp [Spec.modes], by simp [Spec.kinds], rfl, Or.inl rfl, fun _ => ⟨failing, rfl, rfl, rfl⟩, by simp⟩ .nil) _ []
    (by simp) (by intro p; rfl) (by intro i _ o t p q _ _; rfl) (by simp)
    (by rintro ⟨_, h⟩; simpa [Spec.chain, Spec.step, failing] using h _ (List.mem_singleton.mpr rfl))

/-! ### Where the code disagrees with its documentation -/

/-- **C44 violated**: `Add` documents `[real]` as the default representation; leaving it out is always rejected. -/
theorem C44_violated_add_default (l : FList V) (O : Option (Op V)) (h a : Str) (ms : List Int) (b : Bool) :
    ∃ l', add l O h a [] ms b = .threw l' := by
  unfold add
  dsimp only
  by_cases hs : l.size ≥ maxFilters
  · rw [if_pos hs]; exact ⟨_, rfl⟩
  · have hk : kindOf (if ([] : Str).length = 0 then "expeconly".toList else []) = none := by decide
    rw [if_neg hs, hk]
    exact ⟨_, rfl⟩

/-- **C44 violated**: the operator given to `Add` is not stored; the first call of the filter is undefined behaviour. -/
theorem C44_violated_add_operator (p : ℂ) : ∃ l, add (FList.new ℂ) (some twice) [] "expec".toList "real".toList [] false = .ok l ∧
    apply env2 0 1 l p = .ub := by
  refine ⟨_, add_ok (FList.new ℂ) (some twice) [] _ _ _ _ .expec .real (by show 0 < 128; omega) (by simp) (by decide) (by decide)
    (Or.inl rfl), ?_⟩
  rfl

/-- A `rho` element with the given states. -/
def rhoEntry (ms : Option (List Int)) : Entry ℂ := ⟨"rho".toList, none, none, ms, none, none⟩

/-- The slots of a list with one `rho` element. -/
theorem load_rho (ms : Option (List Int)) (q : Option (Int × Int)) (h : match q with
      | none => ms = none ∨ ms = some []
      | some (a, b) => ms = some [a, b]) :
    ∃ l, init (FList.new ℂ) none [rhoEntry ms] = .ok l ∧ St env2 false [⟨.rho, .real, false, q, "rho".toList, none⟩] [] l ∧
      l.inited = false := by
  obtain ⟨l, h1, h2, h3, _⟩ := init_St none [rhoEntry ms] [⟨.rho, .real, false, q, "rho".toList, none⟩] env2 (by simp) (by simp)
    (by simp [rhoEntry]) (.cons ⟨by simp [rhoEntry, Spec.modes], by simp [rhoEntry, Spec.kinds], rfl, h, by simp [Spec.needsOp],
      fun _ => rfl⟩ .nil)
  exact ⟨l, h1, h2, h3⟩

theorem apply_rho_ub (l : FList ℂ) (q : Option (Int × Int)) (p : ℂ)
    (S : St env2 false [⟨.rho, .real, false, q, "rho".toList, none⟩] [] l)
    (hr : Spec.Ready env2 p ⟨.rho, .real, false, q, "rho".toList, none⟩)
    (hbad : ¬ (0 ≤ (q.getD (-1, -1)).1 ∧ 0 ≤ (q.getD (-1, -1)).2)) : apply env2 0 1 l p = .ub := by
  unfold apply
  rw [if_neg (by rw [S.size]; simp)]
  obtain ⟨l1, h1, S1, _⟩ := firstCall_ok env2 false _ [] l p S (fun _ i hi => by
    rw [List.mem_singleton] at hi; subst hi; exact hr)
  rw [h1]
  dsimp only
  rw [emitIf l1 S1.write]
  have S2 := S1.emit [.num 0]
  rw [S2.size]
  have hm := S2.match_ 0 _ (List.getElem?_cons_zero ..)
  have hone : applyOne env2 0 1 (l1.emit [.num 0]) 0 p = .ub := by
    have hms := hm.ms
    dsimp only at hms
    unfold applyOne
    dsimp only
    rw [hm.act]
    dsimp only [env2]
    have h0 : ((l1.emit [.num 0]).slots 0).ms0 = (q.getD (-1, -1)).1 := by rw [← hms]
    have h1 : ((l1.emit [.num 0]).slots 0).ms1 = (q.getD (-1, -1)).2 := by rw [← hms]
    rw [h0, h1, if_neg (fun h => hbad ⟨h.1, h.2.2.1⟩)]
  have hall : applyAll env2 0 1 1 0 (l1.emit [.num 0], p) = .ub := by
    unfold applyAll
    dsimp only
    rw [hone]
    rfl
  rw [List.length_singleton, hall]

/-- **C44 violated**: `rho` without the mandatory states is accepted, and evaluating it on a wave function with two states is
undefined behaviour. -/
theorem C44_violated_rho (p : ℂ) : ∃ l, init (FList.new ℂ) none [rhoEntry none] = .ok l ∧ apply env2 0 1 l p = .ub := by
  obtain ⟨l, h1, S, _⟩ := load_rho none none (Or.inl rfl)
  exact ⟨l, h1, apply_rho_ub l none p S ⟨by simp [Spec.needsOp], by simp⟩ (by simp)⟩

/-- **C44 violated**: a negative state number beside a valid one is accepted and leads to undefined behaviour. -/
theorem C44_violated_negative (p : ℂ) : ∃ l, init (FList.new ℂ) none [rhoEntry (some [-1, 1])] = .ok l ∧ apply env2 0 1 l p = .ub := by
  obtain ⟨l, h1, S, _⟩ := load_rho (some [-1, 1]) (some (-1, 1)) rfl
  refine ⟨l, h1, apply_rho_ub l (some (-1, 1)) p S ⟨by simp [Spec.needsOp], fun a b h _ => ⟨2, rfl, ?_⟩⟩ (by simp)⟩
  simp only [Option.some.injEq, Prod.mk.injEq] at h
  omega

/-- An `expeconly` element with the given states. -/
noncomputable def expecEntry (o : Op V) (ms : Option (List Int)) : Entry V := ⟨"expeconly".toList, none, none, ms, none, some o⟩

theorem expec_config (o : Op V) (ms : Option (List Int)) (q : Option (Int × Int)) (hq : match q with
      | none => ms = none ∨ ms = some []
      | some (a, b) => ms = some [a, b]) :
    List.Forall₂ Spec.Config [expecEntry o ms] [⟨.expeconly, .real, false, q, o.name, some o⟩] := by
  refine .cons ⟨?_, ?_, rfl, hq, fun _ => ⟨o, rfl, rfl, rfl⟩, fun h => ?_⟩ .nil
  · show ("expeconly".toList, Action.expeconly) ∈ Spec.modes
    simp [Spec.modes]
  · show ("real".toList, Kind.real) ∈ Spec.kinds
    simp [Spec.kinds]
  · cases h

/-- **C44 violated**: `ms` is documented as the state to act on; for an operator it has no effect.  Whatever the states, the
value shown is the one for the whole wave function. -/
theorem C44_violated_ms (e : Env V) (o : Op V) (a b n : Nat) (psi : V) (hini : o.ini psi = true) (hs : e.states psi = some n)
    (ha : a < n) (hb : b < n) : ∃ l l' l'' , init (FList.new V) none [expecEntry o (some [(a : Int), (b : Int)])] = .ok l ∧
      applies e l [⟨0, 1, psi⟩] = .ok (l', [psi]) ∧ l'.file = some [.word "time".toList, .word o.name, .newline, .num 0,
        .num (o.mat 0 psi).re, .newline] ∧
      init (FList.new V) none [expecEntry o none] = .ok l'' ∧ (∃ l3, applies e l'' [⟨0, 1, psi⟩] = .ok (l3, [psi]) ∧ l3.file = l'.file) := by
  have key : ∀ (ms : Option (List Int)) (q : Option (Int × Int)), (match q with
      | none => ms = none ∨ ms = some []
      | some (a, b) => ms = some [a, b]) → (∀ x y, q = some (x, y) → x < n ∧ y < n) →
      ∃ l l', init (FList.new V) none [expecEntry o ms] = .ok l ∧
        applies e l [⟨0, 1, psi⟩] = .ok (l', [psi]) ∧ l'.file = some [.word "time".toList, .word o.name, .newline, .num 0,
          .num (o.mat 0 psi).re, .newline] := by
    intro ms q hq hr
    obtain ⟨l, l', ps, h1, h2, h3, h4⟩ := C44_run_partial e none [expecEntry o ms] [⟨.expeconly, .real, false, q, o.name, some o⟩]
      (by simp) (by simp)
      (fun x hx => by rw [List.mem_singleton] at hx; rw [hx]; exact List.cons_ne_nil _ _)
      (expec_config o ms q hq) ⟨0, 1, psi⟩ [] (fun i hi => by
          rw [List.mem_singleton] at hi
          subst hi
          exact ⟨fun _ => ⟨o, rfl, hini⟩, fun x y hxy _ => ⟨n, hs, hr x y hxy⟩⟩) (fun d hd => by
          rw [List.mem_singleton] at hd
          subst hd
          rfl)
    refine ⟨l, l', h1, ?_, ?_⟩
    · have : ps.map some = [psi].map some := by rw [h3]; rfl
      rw [h2, List.map_injective_iff.mpr (Option.some_injective _) this]
    · rw [h4]
      simp [Spec.shows, Spec.header, Spec.lines, Spec.columns, Spec.showAs, Spec.column, Spec.valueIn, Spec.value, Spec.chain]
  obtain ⟨l, l', h1, h2, h3⟩ := key (some [(a : Int), (b : Int)]) (some ((a : Int), (b : Int))) rfl
    (fun x y h => by simp only [Option.some.injEq, Prod.mk.injEq] at h; omega)
  obtain ⟨l'', l3, g1, g2, g3⟩ := key none none (Or.inl rfl) (fun x y h => by simp at h)
  exact ⟨l, l', l'', h1, h2, h3, g1, l3, g2, by rw [g3, h3]⟩

/-- **C44 violated**: a list loaded a second time keeps states of the first time.  The section with one `expeconly` element
without states works with a new list, and not after a section that named the states 0 and 5. -/
theorem C44_violated_reinit (p : ℂ) : ∃ l1 l2 l3 s, init (FList.new ℂ) none [expecEntry twice (some [0, 5])] = .ok l1 ∧
    init l1 none [expecEntry twice none] = .ok l2 ∧ apply env2 0 1 l2 p = .threw s ∧
    init (FList.new ℂ) none [expecEntry twice none] = .ok l3 ∧ ∃ s', apply env2 0 1 l3 p = .ok s' := by
  exact ⟨_, _, _, _, rfl, rfl, rfl, rfl, _, rfl⟩

end QDng.Filters
