import Verif.Chain.Props

/-
Property C84: what is registered under a key keeps its value.
-/

namespace QDng.Chain

open QDng.Common Spec

variable {V : Type} [NormedAddCommGroup V] [NormedSpace ℂ V]

mutual
/-- Sections made of files and linear combinations only. -/
def Plain : Node V → Prop
  | .file _ _ _ _ => True
  | .lc _ ts => PlainTerms ts
  | .multistate _ _ _ => False
  | .multimap _ _ _ _ => False
/-- The same for the sections inside. -/
def PlainTerms : Nodes V → Prop
  | .nil => True
  | .cons _ n rest => Plain n ∧ PlainTerms rest
end

/-- The key of a section with a value, if there is a key. -/
def own (a : Attr) (v : Option (Value V)) : List (Str × Option (Value V)) := if a.key ≠ [] then [(a.key, v)] else []

mutual
/-- The keys in a section with the values of their sections, the last one first; `k` as in `eval`. -/
noncomputable def keyed (k : ℂ) : Node V → List (Str × Option (Value V))
  | .file a m f o => own a (eval k (.file a m f o))
  | .lc a ts => own a (eval k (.lc a ts)) ++ keyedTerms k ts
  | .multistate a n ps => own a (eval k (.multistate a n ps)) ++ keyedTerms k ps
  | .multimap a mp cs i => own a (eval k (.multimap a mp cs i)) ++ keyed k i
/-- The same for the sections inside. -/
noncomputable def keyedTerms (k : ℂ) : Nodes V → List (Str × Option (Value V))
  | .nil => []
  | .cons _ n rest => keyedTerms k rest ++ keyed k n
end

/-- Entries of the registry with their present values. -/
def present (new : List (Str × Wf)) (st : St V) : List (Str × Option (Value V)) :=
  new.map fun e => (e.1, some (valueOf e.2 st))

omit [NormedAddCommGroup V] [NormedSpace ℂ V] in
theorem present_keep {new : List (Str × Wf)} {st st' : St V}
    (h : ∀ e ∈ new, ∀ c ∈ e.2.cells, st'.cell c = st.cell c) : present new st' = present new st := by
  apply List.map_congr_left
  intro e he
  have : e.2.cells.map st'.cell = e.2.cells.map st.cell := List.map_congr_left (h e he)
  simp [valueOf, this]

omit [NormedAddCommGroup V] [NormedSpace ℂ V] in
theorem Holds.valueOf_eq {lo : Nat} {w : Wf} {st : St V} {v : Value V} (h : Holds lo w st v) : valueOf w st = v := by
  rw [valueOf, h.value, h.multi]

theorem finish_frame {a : Attr} {w w' : Wf} {st st' : St V} (hn : w.cells.Nodup)
    (h : finish a w st = .val (w', st')) :
    w' = w ∧ st'.next = st.next ∧ (∀ j, j ∉ w.cells → st'.cell j = st.cell j) ∧
      st'.reg = (if a.key ≠ [] then [(a.key, w)] else []) ++ st.reg := by
  unfold finish at h
  obtain ⟨s1, e1, h⟩ := bind_val.1 h
  obtain ⟨c, e2, h⟩ := bind_val.1 h
  have hs1 : s1.next = st.next ∧ s1.reg = st.reg ∧ ∀ j, j ∉ w.cells → s1.cell j = st.cell j := by
    split_ifs at e1 with hno
    · unfold normalizeWf at e1
      dsimp only at e1
      split_ifs at e1
      cases e1
      obtain ⟨n1, r1, c1⟩ := scale_spec ((1 / √(normSq st w.cells) : ℝ) : ℂ) w.cells hn st
      exact ⟨n1, r1, fun j hj => by rw [c1, if_neg hj]⟩
    · cases e1; exact ⟨rfl, rfl, fun _ _ => rfl⟩
  obtain ⟨s2, hs2⟩ : ∃ s, s = applyPhase a w s1 := ⟨_, rfl⟩
  have h2 : s2.next = s1.next ∧ s2.reg = s1.reg ∧ ∀ j, j ∉ w.cells → s2.cell j = s1.cell j := by
    rw [hs2]
    unfold applyPhase
    cases a.phase with
    | none => exact ⟨rfl, rfl, fun _ _ => rfl⟩
    | some p =>
      obtain ⟨n1, r1, c1⟩ := scale_spec (Complex.exp (Complex.I * ((p * Real.pi : ℝ) : ℂ))) w.cells hn s1
      exact ⟨n1, r1, fun j hj => by rw [c1, if_neg hj]⟩
  rw [← hs2] at h
  obtain ⟨s3, hs3⟩ : ∃ s, s = applyCoeff c w s2 := ⟨_, rfl⟩
  have h3 : s3.next = s2.next ∧ s3.reg = s2.reg ∧ ∀ j, j ∉ w.cells → s3.cell j = s2.cell j := by
    rw [hs3]
    unfold applyCoeff
    split_ifs
    · obtain ⟨n1, r1, c1⟩ := scale_spec (c : ℂ) w.cells hn s2
      exact ⟨n1, r1, fun j hj => by rw [c1, if_neg hj]⟩
    · exact ⟨rfl, rfl, fun _ _ => rfl⟩
  rw [← hs3] at h
  have hx : w' = w ∧ st' = register a w s3 := by
    injection h with h
    injection h with h1 h2
    exact ⟨h1.symm, h2.symm⟩
  obtain ⟨rfl, rfl⟩ := hx
  have hcell : ∀ j, (register a w' s3).cell j = s3.cell j := by intro j; unfold register; split_ifs <;> rfl
  have hnext : (register a w' s3).next = s3.next := by unfold register; split_ifs <;> rfl
  refine ⟨rfl, by rw [hnext, h3.1, h2.1, hs1.1], fun j hj => by
    rw [hcell, h3.2.2 j hj, h2.2.2 j hj, hs1.2.2 j hj], ?_⟩
  unfold register
  split_ifs
  · simp [h3.2.1, h2.2.1, hs1.2.1]
  · simp [h3.2.1, h2.2.1, hs1.2.1]

/-- What is known about a successful load. -/
theorem load_val {n : Node V} (hz : NoZero n) {st : St V} {w : Wf} {st' : St V} (h : load n st = .val (w, st')) :
    ∃ v, eval 2 n = some v ∧ Holds st.next w st' v ∧ Keeps st.next st st' := by
  obtain ⟨h1, h2⟩ := load_spec n hz st
  cases hev : eval 2 n with
  | none => exact absurd h (h2 hev _)
  | some v =>
    obtain ⟨_, w', s', e, hh, hk⟩ := h1 v hev
    rw [h] at e
    cases e
    exact ⟨v, rfl, hh, hk⟩

theorem alloc_reg (vs : List V) : ∀ st : St V, (st.alloc vs).2.reg = st.reg := by
  induction vs with
  | nil => intro st; rfl
  | cons v vs ih =>
    intro st
    have := ih { st.set st.next v with next := st.next + 1 }
    simpa [St.alloc, St.set] using this

/-- Effects of adding to an accumulator. -/
theorem addWf_frame {w u : Wf} {st st' : St V} (hn : w.cells.Nodup) (hd : ∀ c ∈ w.cells, c ∉ u.cells)
    (h : addWf w u st = .val st') :
    st'.next = st.next ∧ st'.reg = st.reg ∧ ∀ j, j ∉ w.cells → st'.cell j = st.cell j := by
  unfold addWf at h
  split_ifs at h with hl
  cases h
  obtain ⟨h1, h2, h3, _⟩ := addTo_spec w.cells u.cells hn (not_not.1 hl) hd st
  exact ⟨h1, h2, h3⟩

mutual
theorem keyed_spec : (n : Node V) → Plain n → NoZero n → ∀ (st : St V) (w : Wf) (st' : St V),
    load n st = .val (w, st') →
    ∃ new, st'.reg = new ++ st.reg ∧ (∀ e ∈ new, ∀ c ∈ e.2.cells, st.next ≤ c ∧ c < st'.next) ∧
      present new st' = keyed 2 n
  | .file a m f o, _, hz, st, w, st', h => by
    obtain ⟨v, hv, hh, hk⟩ := load_val hz h
    have hl : load (.file a m f o) st = finish a ⟨m, (st.alloc (f :: o)).1⟩ (st.alloc (f :: o)).2 := by rw [load]
    rw [hl] at h
    obtain ⟨ha, _⟩ := alloc_spec (f :: o) st m
    obtain ⟨rfl, _, _, hr⟩ := finish_frame ha.nodup h
    refine ⟨_, by rw [hr, alloc_reg], ?_, ?_⟩
    · intro e he
      split_ifs at he with hkey
      · simp only [List.mem_singleton] at he
        subst he
        exact hh.range
      · simp at he
    · rw [keyed, own, hv]
      split_ifs
      · simp [present, hh.valueOf_eq]
      · rfl
  | .lc a ts, hp, hz, st, w, st', h => by
    have hz' : coefficient a ≠ some 0 ∧ AllTerms (fun a _ => coefficient a ≠ some 0) ts := by
      simpa [NoZero, All] using hz
    have hp' : PlainTerms ts := by simpa [Plain] using hp
    obtain ⟨v, hv, hh, hk⟩ := load_val hz h
    have hl : load (.lc a ts) st = (loadLC ts none st).bind fun r => finishLC a r.1 r.2 := by rw [load]
    rw [hl] at h
    obtain ⟨⟨acc, s1⟩, e1, h⟩ := bind_val.1 h
    cases acc with
    | none => simp [finishLC] at h
    | some u =>
      simp only [finishLC] at h
      obtain ⟨new, hr1, hc1, hd1, hv1, hn1, _⟩ := (keyedTerms_spec ts hp' hz'.2).2 st u s1 e1
      obtain ⟨rfl, hnx, hcell, hr⟩ := finish_frame hn1 h
      refine ⟨(if a.key ≠ [] then [(a.key, w)] else []) ++ new, by rw [hr, hr1, List.append_assoc], ?_, ?_⟩
      · intro e he
        rcases List.mem_append.1 he with he | he
        · split_ifs at he with hkey
          · simp only [List.mem_singleton] at he
            subst he
            exact hh.range
          · simp at he
        · intro c hc
          rw [hnx]
          exact hc1 e he c hc
      · rw [keyed, own, hv, present, List.map_append]
        congr 1
        · split_ifs
          · simp [hh.valueOf_eq]
          · rfl
        · rw [← hv1]
          refine present_keep fun e he c hc => hcell c fun hm => ?_
          exact hd1 e he c hc hm
  | .multistate _ _ _, hp, _, _, _, _, _ => by simp [Plain] at hp
  | .multimap _ _ _ _, hp, _, _, _, _, _ => by simp [Plain] at hp

theorem keyedTerms_spec : (ts : Nodes V) → PlainTerms ts → AllTerms (fun a _ => coefficient a ≠ some 0) ts →
    (∀ (st : St V) (w : Wf) (u : Option Wf) (st' : St V), w.cells.Nodup → (∀ c ∈ w.cells, c < st.next) →
      loadLC ts (some w) st = .val (u, st') → u = some w ∧
      ∃ new, st'.reg = new ++ st.reg ∧ (∀ e ∈ new, ∀ c ∈ e.2.cells, st.next ≤ c ∧ c < st'.next) ∧
        present new st' = keyedTerms 2 ts ∧ st.next ≤ st'.next ∧
        (∀ j < st.next, j ∉ w.cells → st'.cell j = st.cell j)) ∧
    (∀ (st : St V) (w : Wf) (st' : St V), loadLC ts none st = .val (some w, st') →
      ∃ new, st'.reg = new ++ st.reg ∧ (∀ e ∈ new, ∀ c ∈ e.2.cells, st.next ≤ c ∧ c < st'.next) ∧
        (∀ e ∈ new, ∀ c ∈ e.2.cells, c ∉ w.cells) ∧ present new st' = keyedTerms 2 ts ∧ w.cells.Nodup ∧
        st.next ≤ st'.next)
  | .nil, _, _ => by
    constructor
    · intro st w u st' hn hlt h
      rw [loadLC] at h
      cases h
      exact ⟨rfl, [], by simp, by simp, by simp [present, keyedTerms], le_refl _, fun _ _ _ => rfl⟩
    · intro st w st' h
      rw [loadLC] at h
      cases h
  | .cons idx n rest, hp, hz => by
    have hp' : Plain n ∧ PlainTerms rest := by simpa [PlainTerms] using hp
    have hz' : All (fun a _ => coefficient a ≠ some 0) n ∧ AllTerms (fun a _ => coefficient a ≠ some 0) rest := by
      simpa [AllTerms] using hz
    obtain ⟨R1, _⟩ := keyedTerms_spec rest hp'.2 hz'.2
    have hstep : ∀ (acc : Option Wf) (st : St V), loadLC (.cons idx n rest) acc st = (load n st).bind fun r =>
      (lcTerm acc r.1 r.2).bind fun q => (addWf q.1 r.1 q.2).bind fun st' => loadLC rest (some q.1) st' := by
      intro acc st; rw [loadLC]
    -- the rest of the loop after the accumulator `w` was changed, with the entries of one term
    have hrest : ∀ (st s1 s2 : St V) (w : Wf) (u : Option Wf) (st' : St V) (new1 : List (Str × Wf)),
        w.cells.Nodup → (∀ c ∈ w.cells, c < s2.next) → s1.reg = new1 ++ st.reg → s2.reg = s1.reg →
        st.next ≤ s1.next → s1.next ≤ s2.next → (∀ j < s1.next, j ∉ w.cells → s2.cell j = s1.cell j) →
        (∀ e ∈ new1, ∀ c ∈ e.2.cells, st.next ≤ c ∧ c < s1.next) →
        (∀ e ∈ new1, ∀ c ∈ e.2.cells, c ∉ w.cells) → present new1 s1 = keyed 2 n →
        loadLC rest (some w) s2 = .val (u, st') → u = some w ∧
        ∃ new, st'.reg = new ++ st.reg ∧ (∀ e ∈ new, ∀ c ∈ e.2.cells, st.next ≤ c ∧ c < st'.next) ∧
          (∀ e ∈ new, ∀ c ∈ e.2.cells, c ∉ w.cells) ∧
          present new st' = keyedTerms 2 (.cons idx n rest) ∧ s2.next ≤ st'.next ∧
          (∀ j < s2.next, j ∉ w.cells → st'.cell j = s2.cell j) := by
      intro st s1 s2 w u st' new1 hn hlt hr1 hr2 hn1 hn2 hc2 hc1 hd1 hv1 h
      obtain ⟨hu, new, hr, hc, hv, hnx, hcell⟩ := R1 s2 w u st' hn hlt h
      refine ⟨hu, new ++ new1, by rw [hr, hr2, hr1, List.append_assoc], ?_, ?_, ?_, hnx, hcell⟩
      · intro e he c hce
        rcases List.mem_append.1 he with he | he
        · have := hc e he c hce; omega
        · have := hc1 e he c hce; omega
      · intro e he c hce
        rcases List.mem_append.1 he with he | he
        · intro hm
          have := (hc e he c hce).1
          have := hlt c hm
          omega
        · exact hd1 e he c hce
      · rw [keyedTerms, present, List.map_append]
        congr 1
        rw [← hv1]
        refine present_keep fun e he c hce => ?_
        have hb := hc1 e he c hce
        have hm := hd1 e he c hce
        rw [hcell c (by omega) hm, hc2 c hb.2 hm]
    constructor
    · intro st w u st' hn hlt h
      rw [hstep] at h
      obtain ⟨⟨x, s1⟩, e1, h⟩ := bind_val.1 h
      obtain ⟨new1, hr1, hc1, hv1⟩ := keyed_spec n hp'.1 hz'.1 st x s1 e1
      obtain ⟨v, _, hh, hk⟩ := load_val hz'.1 e1
      simp only [lcTerm] at h
      obtain ⟨⟨w', s2⟩, e2, h⟩ := bind_val.1 h
      obtain ⟨s2', e2', e2⟩ := bind_val.1 e2
      have hx : w = w' ∧ s2' = s2 := by injection e2 with e2; injection e2 with a b; exact ⟨a, b⟩
      obtain ⟨rfl, rfl⟩ := hx
      obtain ⟨s3, e3, h⟩ := bind_val.1 h
      simp only at e3 h
      have hd : ∀ c ∈ w.cells, c ∉ x.cells := by
        intro c hc hc'
        have := hlt c hc
        have := (hh.range c hc').1
        omega
      obtain ⟨n2, r2, c2⟩ := addWf_frame hn hd e2'
      obtain ⟨n3, r3, c3⟩ := addWf_frame hn hd e3
      have hk1 := hk.next
      obtain ⟨hu, new, hr, hc, _, hv, hnx, hcell⟩ := hrest st s1 s3 w u st' new1 hn
        (fun c hc => by have := hlt c hc; omega) hr1 (by rw [r3, r2]) hk1 (by omega)
        (fun j _ hj => by rw [c3 j hj, c2 j hj]) hc1
        (fun e he c hce hm => by have := (hc1 e he c hce).1; have := hlt c hm; omega) hv1 h
      refine ⟨hu, new, hr, hc, hv, by omega, fun j hj hm => ?_⟩
      rw [hcell j (by omega) hm, c3 j hm, c2 j hm, hk.cell j hj]
    · intro st w st' h
      rw [hstep] at h
      obtain ⟨⟨x, s1⟩, e1, h⟩ := bind_val.1 h
      obtain ⟨new1, hr1, hc1, hv1⟩ := keyed_spec n hp'.1 hz'.1 st x s1 e1
      obtain ⟨v, _, hh, hk⟩ := load_val hz'.1 e1
      have hal := alloc_spec (x.cells.map s1.cell) s1 x.multi
      have har := alloc_reg (x.cells.map s1.cell) s1
      obtain ⟨⟨cs, s2⟩, hcs⟩ : ∃ p, s1.alloc (x.cells.map s1.cell) = p := ⟨_, rfl⟩
      simp only [lcTerm, Res.bind, hcs] at h
      rw [hcs] at hal har
      obtain ⟨ha, hka⟩ := hal
      obtain ⟨s3, e3, h⟩ := bind_val.1 h
      dsimp only at ha hka har
      have hd : ∀ c ∈ cs, c ∉ x.cells := by
        intro c hc hc'
        have := (ha.range c hc).1
        have := (hh.range c hc').2
        omega
      obtain ⟨n3, r3, c3⟩ := addWf_frame (w := ⟨x.multi, cs⟩) ha.nodup hd e3
      have hk1 := hk.next
      have hk2 := hka.next
      obtain ⟨hu, new, hr, hc, hdn, hv, hnx, _⟩ := hrest st s1 s3 ⟨x.multi, cs⟩ (some w) st' new1 ha.nodup
        (fun c hc => by have := (ha.range c hc).2; omega) hr1 (by rw [r3, har]) hk1 (by omega)
        (fun j hj hm => by rw [c3 j hm, hka.cell j hj]) hc1
        (fun e he c hce hm => by have := (hc1 e he c hce).2; have := (ha.range c hm).1; omega) hv1 h
      cases hu
      exact ⟨new, hr, hc, hdn, hv, ha.nodup, by omega⟩
end

/-- In sections made of files and linear combinations every wave function with a key is registered, in the order of the
input, and has the value of its section (linear combinations count twice, see C39) when everything is loaded.  Missing
for C84: sections with multistate wave functions. -/
theorem C84_keys_partial (n : Node V) (hp : Plain n) (hz : NoZero n) (st : St V) (w : Wf) (st' : St V)
    (h : load n st = .val (w, st')) :
    ∃ new, st'.reg = new ++ st.reg ∧ present new st' = keyed 2 n := by
  obtain ⟨new, hr, _, hv⟩ := keyed_spec n hp hz st w st' h
  exact ⟨new, hr, hv⟩

/-- A registered state of a multistate wave function is scaled along with it: the function 5 is registered under `k`, after
loading a multistate wave function with coefficient 3 that contains it the entry has the value 15. -/
theorem C84_violated_multistate : ∃ (w : Wf) (st' : St ℂ) (u : Wf),
    load (.multistate { coeff := some 3 } 0 (.cons 0 (.file { key := ['k'] } false 5 []) .nil)) ⟨fun _ => 0, 0, []⟩
      = .val (w, st') ∧ st'.reg = [(['k'], u)] ∧ valueOf u st' = (false, [15]) ∧
    keyed 1 (.multistate { coeff := some 3 } 0 (.cons 0 (.file { key := ['k'] } false (5 : ℂ) []) .nil)) =
      [(['k'], some (false, [5]))] := by
  obtain ⟨r, hr⟩ : ∃ r, load (.multistate { coeff := some 3 } 0 (.cons 0 (.file { key := ['k'] } false (5 : ℂ) []) .nil))
    ⟨fun _ => 0, 0, []⟩ = r := ⟨_, rfl⟩
  have hr' := hr
  rw [load, loadStates, load] at hr'
  simp [St.alloc, finish, coeffValue, Res.bind, applyPhase, applyCoeff, register, addState, Nodes.isEmpty,
    Multi.MultiWF.add, Multi.MultiWF.new, Multi.maxStates, initMulti, List.replicate, St.scale, St.set,
    fillCells, loadStates] at hr'
  subst hr'
  refine ⟨_, _, ⟨false, [0]⟩, hr, rfl, ?_, ?_⟩
  · norm_num [valueOf]
  · rw [keyed, keyedTerms, keyedTerms, keyed, eval]
    simp [own, dress, normed, coefficient, phase, times]

/-- A linear combination of two registered functions, registered itself. -/
example (st : St ℂ) : ∃ w st' new,
    load (.lc { key := ['s'] } (.cons 0 (.file { key := ['a'] } false 5 [])
      (.cons 0 (.file { key := ['b'] } false 7 []) .nil))) st = .val (w, st') ∧ st'.reg = new ++ st.reg ∧
    present new st' = [(['s'], some (false, [24])), (['b'], some (false, [7])), (['a'], some (false, [5]))] := by
  have he : eval 2 (.lc { key := ['s'] } (.cons 0 (.file { key := ['a'] } false (5 : ℂ) [])
      (.cons 0 (.file { key := ['b'] } false 7 []) .nil))) = some (false, [24]) := by
    rw [eval, evalTerms, evalTerms, evalTerms, eval, eval]
    norm_num [total, sumOf, dress, normed, coefficient, phase, times]
  have hz : NoZero (.lc { key := ['s'] } (.cons 0 (.file { key := ['a'] } false (5 : ℂ) [])
      (.cons 0 (.file { key := ['b'] } false 7 []) .nil))) := by
    simp [NoZero, All, AllTerms, coefficient]
  obtain ⟨w, st', e, hv⟩ := (C39_load_partial _ hz st _).1 he
  obtain ⟨new, hr, hn⟩ := C84_keys_partial _ (by simp [Plain, PlainTerms]) hz st w st' e
  refine ⟨w, st', new, e, hr, ?_⟩
  rw [hn, keyed, keyedTerms, keyedTerms, keyedTerms, keyed, keyed, he, eval, eval]
  simp [own, dress, normed, coefficient, phase, times]

end QDng.Chain
