import Verif.Chain.Spec

/-
Lemmas on memory for the chain loader.
-/

namespace QDng.Chain

open QDng.Common Spec

variable {V : Type}

/-- An object made of cells of its own, from `lo` on, with the given value. -/
structure Holds (lo : Nat) (w : Wf) (st : St V) (v : Value V) : Prop where
  multi : w.multi = v.1
  value : w.cells.map st.cell = v.2
  nodup : w.cells.Nodup
  range : ∀ c ∈ w.cells, lo ≤ c ∧ c < st.next

/-- Cells below `lo` are not touched. -/
structure Keeps (lo : Nat) (st st' : St V) : Prop where
  next : st.next ≤ st'.next
  cell : ∀ j < lo, st'.cell j = st.cell j

theorem Keeps.refl (lo : Nat) (st : St V) : Keeps lo st st := ⟨le_refl _, fun _ _ => rfl⟩

theorem Keeps.trans {lo : Nat} {a b c : St V} (h : Keeps lo a b) (h' : Keeps lo b c) : Keeps lo a c :=
  ⟨h.next.trans h'.next, fun j hj => (h'.cell j hj).trans (h.cell j hj)⟩

theorem Keeps.mono {lo lo' : Nat} {a b : St V} (h : Keeps lo' a b) (hl : lo ≤ lo') : Keeps lo a b :=
  ⟨h.next, fun j hj => h.cell j (lt_of_lt_of_le hj hl)⟩

theorem Holds.mono {lo lo' : Nat} {w : Wf} {st : St V} {v : Value V} (h : Holds lo' w st v) (hl : lo ≤ lo') :
    Holds lo w st v :=
  ⟨h.multi, h.value, h.nodup, fun c hc => ⟨hl.trans (h.range c hc).1, (h.range c hc).2⟩⟩

theorem Holds.keep {lo : Nat} {w : Wf} {st st' : St V} {v : Value V} (h : Holds lo w st v)
    (hk : Keeps st.next st st') : Holds lo w st' v := by
  refine ⟨h.multi, ?_, h.nodup, fun c hc => ⟨(h.range c hc).1, lt_of_lt_of_le (h.range c hc).2 hk.next⟩⟩
  rw [← h.value]
  exact List.map_congr_left fun c hc => hk.cell c (h.range c hc).2

theorem Holds.length {lo : Nat} {w : Wf} {st : St V} {v : Value V} (h : Holds lo w st v) :
    w.cells.length = v.2.length := by rw [← h.value, List.length_map]

@[simp] theorem set_next (st : St V) (k : Nat) (v : V) : (st.set k v).next = st.next := rfl

theorem set_cell (st : St V) (k : Nat) (v : V) (j : Nat) :
    (st.set k v).cell j = if j = k then v else st.cell j := rfl

theorem alloc_spec (vs : List V) : ∀ (st : St V) (m : Bool),
    Holds st.next ⟨m, (st.alloc vs).1⟩ (st.alloc vs).2 (m, vs) ∧ Keeps st.next st (st.alloc vs).2 := by
  induction vs with
  | nil => intro st m; exact ⟨⟨rfl, rfl, by simp [St.alloc], by simp [St.alloc]⟩, Keeps.refl _ _⟩
  | cons v vs ih =>
    intro st m
    obtain ⟨s1, hs1⟩ : ∃ s1 : St V, s1 = { st.set st.next v with next := st.next + 1 } := ⟨_, rfl⟩
    obtain ⟨h1, h2⟩ := ih s1 m
    have hn : s1.next = st.next + 1 := by rw [hs1]
    have hc : ∀ j, s1.cell j = if j = st.next then v else st.cell j := by intro j; rw [hs1]; rfl
    have he : st.alloc (v :: vs) = (st.next :: (s1.alloc vs).1, (s1.alloc vs).2) := by rw [hs1]; rfl
    rw [he]
    refine ⟨⟨rfl, ?_, ?_, ?_⟩, ?_, ?_⟩
    · have := h1.value
      simp only [List.map_cons] at this ⊢
      rw [this, h2.cell _ (by omega), hc, if_pos rfl]
    · simp only [List.nodup_cons]
      refine ⟨fun hm => ?_, h1.nodup⟩
      have := (h1.range _ hm).1
      omega
    · intro c hc'
      rcases List.mem_cons.1 hc' with rfl | hc'
      · have := h2.next; exact ⟨le_refl _, by dsimp only; omega⟩
      · have := h1.range c hc'; dsimp only at this ⊢; omega
    · have := h2.next; dsimp only; omega
    · intro j hj
      rw [h2.cell j (by omega), hc, if_neg (by omega)]

theorem scale_spec [SMul ℂ V] (c : ℂ) (ks : List Nat) (hn : ks.Nodup) : ∀ st : St V,
    (st.scale c ks).next = st.next ∧ (st.scale c ks).reg = st.reg ∧
    (∀ j, (st.scale c ks).cell j = if j ∈ ks then c • st.cell j else st.cell j) := by
  induction ks with
  | nil => intro st; simp [St.scale]
  | cons k ks ih =>
    intro st
    obtain ⟨hk, hn'⟩ := List.nodup_cons.1 hn
    obtain ⟨h1, h2, h3⟩ := ih hn' (st.set k (c • st.cell k))
    refine ⟨h1, h2, fun j => ?_⟩
    show ((st.set k (c • st.cell k)).scale c ks).cell j = _
    rw [h3 j, set_cell]
    by_cases hj : j = k
    · subst hj; simp [hk]
    · simp [hj]

theorem addTo_spec [Add V] : ∀ (as bs : List Nat), as.Nodup → as.length = bs.length → (∀ a ∈ as, a ∉ bs) →
    ∀ st : St V, (st.addTo as bs).next = st.next ∧ (st.addTo as bs).reg = st.reg ∧
    (∀ j, j ∉ as → (st.addTo as bs).cell j = st.cell j) ∧
    as.map (st.addTo as bs).cell = List.zipWith (· + ·) (as.map st.cell) (bs.map st.cell) := by
  intro as
  induction as with
  | nil => intro bs _ _ _ st; simp [St.addTo]
  | cons a as ih =>
    intro bs hn hl hd st
    cases bs with
    | nil => simp at hl
    | cons b bs =>
      obtain ⟨ha, hn'⟩ := List.nodup_cons.1 hn
      have hd1 : a ∉ b :: bs := hd a (by simp)
      obtain ⟨h1, h2, h3, h4⟩ := ih bs hn' (by simpa using hl)
        (fun x hx hb => hd x (by simp [hx]) (by simp [hb])) (st.set a (st.cell a + st.cell b))
      have he : st.addTo (a :: as) (b :: bs) = (st.set a (st.cell a + st.cell b)).addTo as bs := rfl
      rw [he]
      refine ⟨h1, h2, fun j hj => ?_, ?_⟩
      · simp only [List.mem_cons, not_or] at hj
        rw [h3 j hj.2, set_cell, if_neg hj.1]
      · simp only [List.map_cons, List.zipWith_cons_cons]
        rw [h3 a ha, set_cell, if_pos rfl, h4]
        congr 2
        · apply List.map_congr_left
          intro x hx
          rw [set_cell, if_neg]
          rintro rfl; exact ha hx
        · apply List.map_congr_left
          intro x hx
          rw [set_cell, if_neg]
          rintro rfl; exact hd1 (by simp [hx])

theorem Holds.scale [SMul ℂ V] {lo : Nat} {w : Wf} {st : St V} {v : Value V} (h : Holds lo w st v) (c : ℂ) :
    Holds lo w (st.scale c w.cells) (v.1, times c v.2) ∧ Keeps lo st (st.scale c w.cells) := by
  obtain ⟨h1, _, h3⟩ := scale_spec c w.cells h.nodup st
  refine ⟨⟨h.multi, ?_, h.nodup, fun k hk => by rw [h1]; exact h.range k hk⟩, h1.ge, fun j hj => ?_⟩
  · rw [times, ← h.value, List.map_map]
    apply List.map_congr_left
    intro k hk
    rw [h3, if_pos hk]; rfl
  · rw [h3, if_neg]
    intro hm
    have := (h.range j hm).1
    omega

theorem normSq_eq [Norm V] (st : St V) (ks : List Nat) :
    normSq st ks = ((ks.map st.cell).map fun v => ‖v‖ ^ 2).sum := by
  induction ks with
  | nil => rfl
  | cons k ks ih => simp [normSq, ih]

theorem bind_val {A B : Type} {x : Res A} {f : A → Res B} {b : B} :
    x.bind f = .val b ↔ ∃ a, x = .val a ∧ f a = .val b := by
  cases x <;> simp [Res.bind]

theorem normalizeWf_some [Norm V] [SMul ℂ V] {lo : Nat} {w : Wf} {st : St V} {v : Value V} (h : Holds lo w st v)
    {l : List V} (hl : normed true v.2 = some l) :
    ∃ st', normalizeWf w st = .val st' ∧ Holds lo w st' (v.1, l) ∧ Keeps lo st st' := by
  have hns : Real.sqrt (normSq st w.cells) = Spec.norm v.2 := by rw [normSq_eq, h.value]; rfl
  unfold normed at hl
  rw [if_pos rfl] at hl
  split_ifs at hl with hz
  cases hl
  refine ⟨_, ?_, (h.scale ((Spec.norm v.2)⁻¹ : ℝ)).1, (h.scale ((Spec.norm v.2)⁻¹ : ℝ)).2⟩
  rw [normalizeWf, hns, if_neg hz, one_div]

theorem normalizeWf_none [Norm V] [SMul ℂ V] {lo : Nat} {w : Wf} {st : St V} {v : Value V} (h : Holds lo w st v)
    (hl : normed true v.2 = none) : ∀ r, normalizeWf w st ≠ .val r := by
  have hns : Real.sqrt (normSq st w.cells) = Spec.norm v.2 := by rw [normSq_eq, h.value]; rfl
  unfold normed at hl
  rw [if_pos rfl] at hl
  split_ifs at hl with hz
  intro r
  rw [normalizeWf, hns, if_pos hz]
  simp

theorem times_one [AddCommGroup V] [Module ℂ V] (l : List V) : times (1 : ℂ) l = l := by simp [times]

theorem Holds.register {lo : Nat} {w : Wf} {st : St V} {v : Value V} (h : Holds lo w st v) (a : Attr) :
    Holds lo w (register a w st) v ∧ Keeps lo st (Chain.register a w st) := by
  unfold Chain.register
  split_ifs
  · exact ⟨⟨h.multi, h.value, h.nodup, h.range⟩, le_refl _, fun _ _ => rfl⟩
  · exact ⟨h, Keeps.refl _ _⟩

theorem applyPhase_spec [NormedAddCommGroup V] [NormedSpace ℂ V] {lo : Nat} {w : Wf} {st : St V} {v : Value V}
    (h : Holds lo w st v) (a : Attr) :
    Holds lo w (applyPhase a w st) (v.1, times (phase a) v.2) ∧ Keeps lo st (applyPhase a w st) := by
  unfold applyPhase phase
  cases a.phase with
  | none => dsimp only; rw [times_one]; exact ⟨h, Keeps.refl _ _⟩
  | some p =>
    dsimp only
    have : (Complex.I * ((p * Real.pi : ℝ) : ℂ)) = Complex.I * (Real.pi * p) := by push_cast; ring
    rw [this]
    exact h.scale _

theorem applyCoeff_spec [NormedAddCommGroup V] [NormedSpace ℂ V] {lo : Nat} {w : Wf} {st : St V} {v : Value V}
    (h : Holds lo w st v) (c : ℝ) (hc : c ≠ 0) :
    Holds lo w (applyCoeff c w st) (v.1, times (c : ℂ) v.2) ∧ Keeps lo st (applyCoeff c w st) := by
  unfold applyCoeff
  rw [if_pos hc]
  exact h.scale _

theorem finish_some [NormedAddCommGroup V] [NormedSpace ℂ V] {lo : Nat} {w : Wf} {st : St V} {v u : Value V}
    (h : Holds lo w st v) (a : Attr) (hz : coefficient a ≠ some 0) (hu : dress a v = some u) :
    ∃ st', finish a w st = .val (w, st') ∧ Holds lo w st' u ∧ Keeps lo st st' := by
  unfold dress at hu
  obtain ⟨l, hl, hu⟩ := Option.bind_eq_some_iff.1 hu
  obtain ⟨c, hc, rfl⟩ := Option.map_eq_some_iff.1 hu
  obtain ⟨s1, e1, h1, k1⟩ : ∃ s1, (if a.normalize then normalizeWf w st else .val st) = .val s1 ∧
      Holds lo w s1 (v.1, l) ∧ Keeps lo st s1 := by
    cases hn : a.normalize with
    | true => rw [hn] at hl; rw [if_pos rfl]; exact normalizeWf_some h hl
    | false =>
      rw [hn] at hl
      simp only [normed, Bool.false_eq_true, if_false, Option.some.injEq] at hl
      subst hl
      exact ⟨st, by simp, h, Keeps.refl _ _⟩
  obtain ⟨h2, k2⟩ := applyPhase_spec h1 a
  have hfin : ∀ c' : ℝ, coeffValue a = .val c' →
      finish a w st = .val (w, register a w (applyCoeff c' w (applyPhase a w s1))) := by
    intro c' hc'
    unfold finish
    rw [e1, hc']; rfl
  by_cases hnone : a.coeff = none ∧ a.coeff2 = none
  · have h0 : coeffValue a = .val 0 := by unfold coeffValue; rw [hnone.1, hnone.2]
    have hc1 : c = 1 := by
      unfold coefficient at hc; rw [hnone.1, hnone.2] at hc; simpa using hc.symm
    subst hc1
    refine ⟨_, hfin _ h0, ?_⟩
    have : applyCoeff (0 : ℝ) w (applyPhase a w s1) = applyPhase a w s1 := by simp [applyCoeff]
    rw [this, Complex.ofReal_one, times_one]
    exact ⟨(h2.register a).1, (k1.trans k2).trans (h2.register a).2⟩
  · have h0 : coeffValue a = .val c ∧ c ≠ 0 := by
      have hne : c ≠ 0 := by rintro rfl; exact hz hc
      refine ⟨?_, hne⟩
      unfold coefficient at hc
      unfold coeffValue
      cases ha : a.coeff with
      | some d => rw [ha] at hc; simp only [Option.some.injEq] at hc; rw [hc]
      | none =>
        cases hb : a.coeff2 with
        | none => exact absurd ⟨ha, hb⟩ hnone
        | some d =>
          rw [ha, hb] at hc
          simp only at hc ⊢
          split_ifs at hc with hd
          rw [if_neg (not_lt.2 hd)]
          simpa using hc
    obtain ⟨h3, k3⟩ := applyCoeff_spec h2 c h0.2
    exact ⟨_, hfin _ h0.1, (h3.register a).1, ((k1.trans k2).trans k3).trans (h3.register a).2⟩

theorem finish_none [NormedAddCommGroup V] [NormedSpace ℂ V] {lo : Nat} {w : Wf} {st : St V} {v : Value V}
    (h : Holds lo w st v) (a : Attr) (hu : dress a v = none) : ∀ r, finish a w st ≠ .val r := by
  intro r hr
  unfold finish at hr
  obtain ⟨s1, e1, hr⟩ := bind_val.1 hr
  obtain ⟨c, e2, _⟩ := bind_val.1 hr
  unfold dress at hu
  cases hn : normed a.normalize v.2 with
  | none =>
    cases ha : a.normalize with
    | true => rw [ha] at hn e1; rw [if_pos rfl] at e1; exact normalizeWf_none h hn _ e1
    | false => rw [ha] at hn; simp [normed] at hn
  | some l =>
    rw [hn] at hu
    simp only [Option.bind_some, Option.map_eq_none_iff] at hu
    unfold coefficient at hu
    unfold coeffValue at e2
    cases ha : a.coeff with
    | some d => rw [ha] at hu; simp at hu
    | none =>
      cases hb : a.coeff2 with
      | none => rw [ha, hb] at hu; simp at hu
      | some d =>
        rw [ha, hb] at hu e2
        simp only at hu e2
        split_ifs at hu e2 with h1 h2
        exact absurd (not_lt.1 h2) h1

/-! Sums of wave functions -/

theorem addWf_some [Add V] {lo lo' : Nat} {w u : Wf} {st : St V} {v x : Value V} (h : Holds lo w st v)
    (hu : Holds lo' u st x) (hd : ∀ c ∈ w.cells, c ∉ u.cells) (hl : x.2.length = v.2.length) :
    ∃ st', addWf w u st = .val st' ∧ Holds lo w st' (v.1, List.zipWith (· + ·) v.2 x.2) ∧ Holds lo' u st' x ∧
      Keeps lo st st' := by
  have hle : w.cells.length = u.cells.length := by rw [h.length, hu.length, hl]
  obtain ⟨h1, _, h3, h4⟩ := addTo_spec w.cells u.cells h.nodup hle hd st
  refine ⟨_, by rw [addWf, if_neg (not_not.2 hle)], ⟨h.multi, ?_, h.nodup, ?_⟩, ⟨hu.multi, ?_, hu.nodup, ?_⟩,
    h1.ge, fun j hj => h3 j fun hm => ?_⟩
  · rw [h4, h.value, hu.value]
  · intro c hc; rw [h1]; exact h.range c hc
  · rw [← hu.value]
    exact List.map_congr_left fun c hc => h3 c fun hm => hd c hm hc
  · intro c hc; rw [h1]; exact hu.range c hc
  · have := (h.range j hm).1; omega

theorem addWf_none [Add V] {lo lo' : Nat} {w u : Wf} {st : St V} {v x : Value V} (h : Holds lo w st v)
    (hu : Holds lo' u st x) (hl : x.2.length ≠ v.2.length) : ∀ r, addWf w u st ≠ .val r := by
  intro r
  rw [addWf, if_pos]
  · simp
  · rw [h.length, hu.length]; exact fun he => hl he.symm

/-! Places -/

theorem lastAt_append {A : Type} (l : List (Int × A)) (e : Int × A) (i : Nat) :
    lastAt (l ++ [e]) i = if e.1 = (i : Int) then some e.2 else lastAt l i := by
  simp only [lastAt, List.reverse_append, List.reverse_cons, List.reverse_nil, List.nil_append,
    List.singleton_append, List.find?_cons]
  by_cases h : e.1 = (i : Int) <;> simp [h]

theorem places_append {A : Type} (l : List (Int × A)) (e : Int × A) :
    places (l ++ [e]) = max (places l) (e.1.toNat + 1) := by
  induction l with
  | nil => simp [places]
  | cons a l ih =>
    have h1 : places (a :: l ++ [e]) = max (a.1.toNat + 1) (places (l ++ [e])) := rfl
    have h2 : places (a :: l) = max (a.1.toNat + 1) (places l) := rfl
    rw [h1, h2, ih, max_assoc]

theorem lastAt_mem {A : Type} {l : List (Int × A)} {i : Nat} {a : A} (h : lastAt l i = some a) :
    ((i : Int), a) ∈ l := by
  unfold lastAt at h
  obtain ⟨e, he, rfl⟩ := Option.map_eq_some_iff.1 h
  have h1 := List.find?_some he
  have h2 := List.mem_of_find?_eq_some he
  simp only [decide_eq_true_eq] at h1
  rw [← h1]
  simpa using h2

theorem lastAt_none {A : Type} {l : List (Int × A)} {i : Nat} (h : lastAt l i = none) {e : Int × A} (he : e ∈ l) :
    e.1 ≠ (i : Int) := by
  unfold lastAt at h
  rw [Option.map_eq_none_iff, List.find?_eq_none] at h
  have := h e (by simpa using he)
  simpa using this

theorem lastAt_map {A B : Type} (l : List (Int × A)) (f : A → B) (i : Nat) :
    lastAt (l.map fun e => (e.1, f e.2)) i = (lastAt l i).map f := by
  simp only [lastAt, ← List.map_reverse, List.find?_map, Option.map_map]
  rfl

theorem places_map {A B : Type} (l : List (Int × A)) (f : A → B) :
    places (l.map fun e => (e.1, f e.2)) = places l := by
  simp [places, List.foldr_map]

theorem places_le {A : Type} {l : List (Int × A)} {n : Nat} (h : ∀ e ∈ l, e.1 < (n : Int)) (hn : 0 < n) :
    places l ≤ n := by
  induction l with
  | nil => simp [places]
  | cons a l ih =>
    have h2 : places (a :: l) = max (a.1.toNat + 1) (places l) := rfl
    rw [h2]
    have := h a (by simp)
    have := ih fun e he => h e (by simp [he])
    omega

theorem le_places {A : Type} {l : List (Int × A)} {e : Int × A} (h : e ∈ l) : e.1.toNat + 1 ≤ places l := by
  induction l with
  | nil => simp at h
  | cons a l ih =>
    have h2 : places (a :: l) = max (a.1.toNat + 1) (places l) := rfl
    rw [h2]
    rcases List.mem_cons.1 h with rfl | h
    · omega
    · have := ih h; omega

/-- The array of states after a list of additions. -/
structure Built (m : Multi.MultiWF Nat) (l : List (Int × Nat)) : Prop where
  states : m.states = (List.range 64).map (lastAt l)
  nstates : m.nstates = places l
  index : ∀ e ∈ l, 0 ≤ e.1 ∧ e.1 < 63

theorem built_new : Built (Multi.MultiWF.new Nat) [] := by
  refine ⟨?_, rfl, by simp⟩
  have : (lastAt ([] : List (Int × Nat))) = fun _ => none := rfl
  rw [this]
  rfl

theorem addState_some {m : Multi.MultiWF Nat} {l : List (Int × Nat)} (h : Built m l) {w : Wf} {k : Nat}
    (hw : w.cells = [k]) {index : Int} (h0 : 0 ≤ index) (h63 : index < 63) :
    ∃ m', addState m w index = .val m' ∧ Built m' (l ++ [(index, k)]) := by
  have e : m.add (w.cells.headD 0) w.cells.length index
      = .ok { nstates := if index.toNat + 1 > m.nstates then index.toNat + 1 else m.nstates,
              states := m.states.set index.toNat (some k) } := by
    unfold Multi.MultiWF.add
    rw [hw, if_neg (by simp [Multi.maxStates]; omega), if_neg (by omega)]
    simp
  refine ⟨_, by rw [addState, e], ?_, ?_, ?_⟩
  · dsimp only
    rw [h.states]
    apply List.ext_getElem
    · simp
    · intro i h1 h2
      simp only [List.getElem_set, List.getElem_map, List.getElem_range, lastAt_append]
      by_cases hi : index.toNat = i
      · rw [if_pos hi, if_pos (by omega)]
      · rw [if_neg hi, if_neg (by omega)]
  · dsimp only
    rw [places_append, h.nstates]
    dsimp only
    split_ifs <;> omega
  · intro e he
    rcases List.mem_append.1 he with he | he
    · exact h.index e he
    · simp only [List.mem_singleton] at he; subst he; exact ⟨h0, h63⟩

theorem addState_none {m : Multi.MultiWF Nat} {w : Wf} (hw : w.cells ≠ []) {index : Int}
    (h : ¬ (0 ≤ index ∧ index < 63 ∧ w.cells.length = 1)) : ∀ r, addState m w index ≠ .val r := by
  intro r hr
  unfold addState Multi.MultiWF.add at hr
  have hl : 0 < w.cells.length := List.length_pos_iff.2 hw
  by_cases h1 : index + 1 ≥ Multi.maxStates
  · rw [if_pos h1] at hr; simp at hr
  · rw [if_neg h1] at hr
    simp only [Multi.maxStates, Nat.cast_ofNat, ge_iff_le, not_le] at h1
    by_cases h2 : index < 0
    · rw [if_pos h2] at hr; simp at hr
    · rw [if_neg h2] at hr
      dsimp only at hr
      rw [if_pos (by omega)] at hr
      simp at hr

theorem fillCells_spec [Zero V] (l : List (Option Nat)) : ∀ st : St V, (∀ k, some k ∈ l → k < st.next) →
    (l.filterMap id).Nodup →
    (fillCells l st).1.map (fillCells l st).2.cell = l.map (fun o => (o.map st.cell).getD 0) ∧
    (fillCells l st).1.Nodup ∧
    (∀ c ∈ (fillCells l st).1, (some c ∈ l ∨ st.next ≤ c) ∧ c < (fillCells l st).2.next) ∧
    Keeps st.next st (fillCells l st).2 := by
  induction l with
  | nil => intro st _ _; simp [fillCells, Keeps.refl]
  | cons o l ih =>
    intro st hk hn
    cases o with
    | some k =>
      have hkn : k ∉ l.filterMap id := by
        simp only [List.filterMap_cons, id] at hn
        exact (List.nodup_cons.1 hn).1
      obtain ⟨h1, h2, h3, h4⟩ := ih st (fun k' hk' => hk k' (by simp [hk']))
        (by simp only [List.filterMap_cons, id] at hn; exact (List.nodup_cons.1 hn).2)
      have hks : k < st.next := hk k (by simp)
      have he : fillCells (some k :: l) st = (k :: (fillCells l st).1, (fillCells l st).2) := rfl
      rw [he]
      refine ⟨?_, ?_, ?_, h4⟩
      · simp only [List.map_cons, h1, Option.map_some, Option.getD_some]
        rw [h4.cell k hks]
      · simp only [List.nodup_cons]
        refine ⟨fun hm => ?_, h2⟩
        rcases (h3 k hm).1 with hm | hm
        · exact hkn (List.mem_filterMap.2 ⟨some k, hm, rfl⟩)
        · omega
      · intro c hc
        rcases List.mem_cons.1 hc with rfl | hc
        · exact ⟨Or.inl (by simp), lt_of_lt_of_le hks h4.next⟩
        · refine ⟨?_, (h3 c hc).2⟩
          rcases (h3 c hc).1 with hm | hm
          · exact Or.inl (by simp [hm])
          · exact Or.inr hm
    | none =>
      obtain ⟨s1, hs1⟩ : ∃ s1 : St V, s1 = { st.set st.next 0 with next := st.next + 1 } := ⟨_, rfl⟩
      have hnx : s1.next = st.next + 1 := by rw [hs1]
      have hcl : ∀ j, s1.cell j = if j = st.next then 0 else st.cell j := by intro j; rw [hs1]; rfl
      have he : fillCells (none :: l) st = (st.next :: (fillCells l s1).1, (fillCells l s1).2) := by
        rw [hs1]; rfl
      have hlt : ∀ k', some k' ∈ l → k' < st.next := fun k' hk' => hk k' (by simp [hk'])
      obtain ⟨h1, h2, h3, h4⟩ := ih s1 (fun k' hk' => by have := hlt k' hk'; omega)
        (by simpa only [List.filterMap_cons, id] using hn)
      rw [he]
      refine ⟨?_, ?_, ?_, ?_, ?_⟩
      · simp only [List.map_cons, h1, Option.map_none, Option.getD_none]
        rw [h4.cell _ (by omega), hcl, if_pos rfl]
        congr 1
        apply List.map_congr_left
        intro o ho
        cases o with
        | none => rfl
        | some k' =>
          have := hlt k' ho
          simp only [Option.map_some, Option.getD_some, hcl]
          rw [if_neg (by omega)]
      · simp only [List.nodup_cons]
        refine ⟨fun hm => ?_, h2⟩
        rcases (h3 _ hm).1 with hm | hm
        · have := hlt _ hm; omega
        · omega
      · intro c hc
        rcases List.mem_cons.1 hc with rfl | hc
        · exact ⟨Or.inr (le_refl _), by have := h4.next; dsimp only; omega⟩
        · refine ⟨?_, (h3 c hc).2⟩
          rcases (h3 c hc).1 with hm | hm
          · exact Or.inl (by simp [hm])
          · exact Or.inr (by omega)
      · have := h4.next; dsimp only; omega
      · intro j hj
        rw [h4.cell j (by omega), hcl, if_neg (by omega)]

theorem initMulti_none [Zero V] {m : Multi.MultiWF Nat} {l : List (Int × Nat)} (h : Built m l) {n : Int} {st : St V}
    (hbad : l = [] ∨ n > 64) : ∀ r, initMulti m n st ≠ .val r := by
  intro r hr
  unfold initMulti at hr
  rcases hbad with rfl | hbad
  · rw [if_pos (by rw [h.nstates]; simp [places])] at hr
    simp at hr
  · by_cases h1 : (m.states.take m.nstates).all (·.isNone) = true
    · rw [if_pos h1] at hr; simp at hr
    · rw [if_neg h1, if_pos (by simpa [Multi.maxStates] using hbad)] at hr
      simp at hr

theorem initMulti_some [Zero V] {m : Multi.MultiWF Nat} {l : List (Int × Nat)} (h : Built m l) {n : Int} {st : St V}
    {lo : Nat} (hl : l ≠ []) (hn : n ≤ 64) (hnd : (l.map (·.2)).Nodup)
    (hr : ∀ e ∈ l, lo ≤ e.2 ∧ e.2 < st.next) (hlo : lo ≤ st.next) :
    ∃ w st', initMulti m n st = .val (w, st') ∧
      Holds lo w st' (true, arrange (l.map fun e => (e.1, st.cell e.2)) n.toNat) ∧ Keeps st.next st st' := by
  have hp : places l ≤ 64 := places_le (fun e he => by have := (h.index e he).2; omega) (by norm_num)
  have htake : m.states.take m.nstates = (List.range (places l)).map (lastAt l) := by
    rw [h.states, h.nstates, ← List.map_take, List.take_range, min_eq_left hp]
  have hnot : ¬ (m.states.take m.nstates).all (·.isNone) = true := by
    obtain ⟨e, l', rfl⟩ := List.exists_cons_of_ne_nil hl
    intro hall
    rw [htake, List.all_map, List.all_eq_true] at hall
    have hi := h.index e (by simp)
    have hpl := le_places (l := e :: l') (e := e) (by simp)
    have := hall e.1.toNat (by rw [List.mem_range]; omega)
    simp only [Function.comp_apply, Option.isNone_iff_eq_none] at this
    exact lastAt_none this (e := e) (by simp) (by omega)
  obtain ⟨opts, hopts⟩ : ∃ o, o = (List.range (max n.toNat (places l))).map (lastAt l) := ⟨_, rfl⟩
  have hfull : m.states.take m.nstates ++
      List.replicate ((if (m.nstates : Int) < n then n.toNat else m.nstates) - m.nstates) none = opts := by
    rw [htake, hopts, h.nstates]
    have hmax : (if ((places l : Nat) : Int) < n then n.toNat else places l) = max n.toNat (places l) := by
      split_ifs <;> omega
    rw [hmax]
    apply List.ext_getElem
    · simp
    · intro i h1 h2
      rw [List.getElem_append]
      split_ifs with hi
      · simp
      · simp only [List.getElem_replicate, List.getElem_map, List.getElem_range]
        symm
        by_contra hne
        obtain ⟨a, ha⟩ := Option.ne_none_iff_exists'.1 hne
        have := le_places (lastAt_mem ha)
        simp only [List.length_map, List.length_range] at hi
        simp only [Int.toNat_natCast] at this
        omega
  have hfm : (opts.filterMap id).Nodup := by
    rw [hopts, List.filterMap_map]
    rw [List.Nodup, List.pairwise_filterMap]
    apply List.Pairwise.imp_of_mem _ List.nodup_range
    intro i j hi hj hij b hb b' hb' heq
    subst heq
    simp only [Function.comp_apply, id] at hb hb'
    have m1 := lastAt_mem hb
    have m2 := lastAt_mem hb'
    have := List.inj_on_of_nodup_map hnd m1 m2 rfl
    simp only [Prod.mk.injEq, Nat.cast_inj, and_true] at this
    exact hij this
  have hmem : ∀ k, some k ∈ opts → ∃ e ∈ l, e.2 = k := by
    intro k hk
    rw [hopts, List.mem_map] at hk
    obtain ⟨i, _, hi⟩ := hk
    exact ⟨_, lastAt_mem hi, rfl⟩
  obtain ⟨f1, f2, f3, f4⟩ := fillCells_spec opts st
    (fun k hk => by obtain ⟨e, he, rfl⟩ := hmem k hk; exact (hr e he).2) hfm
  refine ⟨⟨true, (fillCells opts st).1⟩, (fillCells opts st).2, ?_, ⟨rfl, ?_, f2, ?_⟩, f4⟩
  · rw [initMulti, if_neg hnot, if_neg (by simp [Multi.maxStates]; omega)]
    dsimp only
    rw [hfull]
  · dsimp only
    rw [f1, hopts, arrange, places_map, List.map_map]
    apply List.map_congr_left
    intro i _
    simp only [Function.comp_apply]
    rw [lastAt_map]
  · intro c hc
    refine ⟨?_, (f3 c hc).2⟩
    rcases (f3 c hc).1 with hm | hm
    · obtain ⟨e, he, rfl⟩ := hmem c hm
      exact (hr e he).1
    · omega

end QDng.Chain
