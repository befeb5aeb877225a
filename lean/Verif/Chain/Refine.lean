import Verif.Chain.Lemmas
import Mathlib.Data.List.GetD

/-
The chain loader computes the values of sections.
-/

namespace QDng.Chain

open QDng.Common Spec

variable {V : Type} [NormedAddCommGroup V] [NormedSpace ℂ V]

theorem mapLoop_some (ins : List Nat) (hn : ins.Nodup) (cs : List ℝ) (ts : List Int) :
    ∀ (i : Nat) (m : Multi.MultiWF Nat) (l : List (Int × Nat)) (st : St V), Built m l → i + ts.length ≤ ins.length →
    (∀ t ∈ ts, 0 ≤ t ∧ t < ins.length ∧ t < 63) →
    ∃ m' st', mapLoop ins cs i ts m st = .val (m', st') ∧
      Built m' (l ++ (ts.zipIdx i).map fun e => (e.1, ins.getD e.2 0)) ∧ st'.next = st.next ∧
      (∀ j, i ≤ j → j < i + ts.length → st'.cell (ins.getD j 0) = ((cs.getD j 0 : ℝ) : ℂ) • st.cell (ins.getD j 0)) ∧
      (∀ k, (∀ j, i ≤ j → j < i + ts.length → k ≠ ins.getD j 0) → st'.cell k = st.cell k) := by
  induction ts with
  | nil =>
    intro i m l st hb _ _
    refine ⟨m, st, rfl, by simpa using hb, rfl, ?_, fun _ _ => rfl⟩
    intro j h1 h2
    simp only [List.length_nil] at h2
    omega
  | cons t ts ih =>
    intro i m l st hb hlen hv
    have ht := hv t (by simp)
    simp only [List.length_cons] at hlen
    obtain ⟨m1, e1, hb1⟩ := addState_some hb (w := ⟨false, [ins.getD i 0]⟩) rfl ht.1 ht.2.2
    obtain ⟨s1, hs1⟩ : ∃ s1 : St V, s1 = st.scale ((cs.getD i 0 : ℝ) : ℂ) [ins.getD i 0] := ⟨_, rfl⟩
    have hstep : mapLoop ins cs i (t :: ts) m st = mapLoop ins cs (i + 1) ts m1 s1 := by
      rw [mapLoop, if_neg (by omega), e1]
      simp only [Res.bind]
      rw [hs1]
      cases hc : cs[i]? with
      | none => simp [List.getD, hc]
      | some c => simp [List.getD, hc]
    obtain ⟨n1, _, c1⟩ := scale_spec ((cs.getD i 0 : ℝ) : ℂ) [ins.getD i 0] (by simp) st
    rw [← hs1] at n1 c1
    obtain ⟨m', st', e2, hb2, n2, c2, c3⟩ := ih (i + 1) m1 _ s1 hb1 (by omega) (fun t' ht' => hv t' (by simp [ht']))
    have hinj : ∀ j, i < j → j < ins.length → ins.getD j 0 ≠ ins.getD i 0 := by
      intro j hij hj heq
      have hi : i < ins.length := by omega
      rw [List.getD_eq_getElem _ _ hj, List.getD_eq_getElem _ _ hi] at heq
      have := (List.Nodup.getElem_inj_iff hn).1 heq
      omega
    refine ⟨m', st', by rw [hstep, e2], ?_, by rw [n2, n1], ?_, ?_⟩
    · simpa [List.zipIdx_cons] using hb2
    · intro j h1 h2
      simp only [List.length_cons] at h2
      by_cases hj : j = i
      · subst hj
        rw [c3, c1, if_pos (by simp)]
        intro j' h3 h4
        exact (hinj j' (by omega) (by omega)).symm
      · rw [c2 j (by omega) (by omega), c1, if_neg]
        simp only [List.mem_singleton]
        exact hinj j (by omega) (by omega)
    · intro k hk
      simp only [List.length_cons] at hk
      rw [c3 k fun j h1 h2 => hk j (by omega) (by omega), c1, if_neg]
      simp only [List.mem_singleton]
      exact hk i (le_refl _) (by omega)

theorem mapLoop_none (ins : List Nat) (cs : List ℝ) (ts : List Int) :
    ∀ (i : Nat) (m : Multi.MultiWF Nat) (st : St V),
    (∃ t ∈ ts, t < 0 ∨ (ins.length : Int) ≤ t ∨ 63 ≤ t) → ∀ r, mapLoop ins cs i ts m st ≠ .val r := by
  induction ts with
  | nil => intro i m st h; simp at h
  | cons t ts ih =>
    intro i m st h r hr
    rw [mapLoop] at hr
    split_ifs at hr with h1
    obtain ⟨m1, e1, hr⟩ := bind_val.1 hr
    by_cases h63 : 63 ≤ t
    · exact addState_none (by simp) (by omega) _ e1
    · have h' : ∃ t ∈ ts, t < 0 ∨ (ins.length : Int) ≤ t ∨ 63 ≤ t := by
        obtain ⟨t', ht', hb⟩ := h
        rcases List.mem_cons.1 ht' with rfl | ht'
        · omega
        · exact ⟨t', ht', hb⟩
      cases hc : cs[i]? with
      | none => rw [hc] at hr; exact ih _ _ _ h' _ hr
      | some c => rw [hc] at hr; exact ih _ _ _ h' _ hr

omit [NormedSpace ℂ V] in
theorem getD_map_cell (l : List Nat) (f : Nat → V) (j : Nat) (h : j < l.length) :
    (l.map f).getD j 0 = f (l.getD j 0) := by
  rw [List.getD_eq_getElem _ _ (by simpa using h), List.getD_eq_getElem _ _ h, List.getElem_map]

theorem multimap_some {lo : Nat} {w : Wf} {st : St V} {v u : Value V} (h : Holds lo w st v) (hlo : lo ≤ st.next)
    (map : List Int) (coeffs : Option (List ℝ)) (hu : remap map coeffs v = some u) :
    ∃ w' st', multimap map coeffs w st = .val (w', st') ∧ Holds lo w' st' u ∧ Keeps lo st st' := by
  have hwl := h.length
  unfold remap at hu
  split at hu
  · simp at hu
  rename_i hbad
  simp only [not_or, Bool.not_eq_false, not_exists, not_and, not_lt, not_le] at hbad
  obtain ⟨hm, hlen, hv⟩ := hbad
  have hw : w.multi = true := by rw [h.multi, hm]
  have hunf : multimap map coeffs w st = (if map.length > 1 then
      (mapLoop w.cells (coeffs.getD (List.replicate map.length 1)) 0 map (Multi.MultiWF.new Nat) st).bind
        fun r => initMulti r.1 0 r.2
    else pickOne map (coeffs.getD (List.replicate map.length 1)) w st) := by
    rw [multimap, if_neg (by simp [hw]), if_neg (by omega)]
  match map, hu, hlen, hv, hunf with
  | [], hu, _, _, _ => simp at hu
  | [t], hu, hlen, hv, hunf =>
    simp only at hu
    split_ifs at hu with hc
    have ht := hv t (by simp)
    rw [hunf, if_neg (by simp)]
    obtain ⟨c, cl, hcl, hcc⟩ : ∃ c cl, coeffs.getD (List.replicate 1 1) = c :: cl ∧ mapCoeff coeffs 0 = c := by
      cases coeffs with
      | none => exact ⟨1, [], rfl, rfl⟩
      | some l =>
        cases l with
        | nil => exact absurd rfl hc
        | cons c cl => exact ⟨c, cl, rfl, rfl⟩
    have hcl' : coeffs.getD (List.replicate ([t] : List Int).length 1) = c :: cl := hcl
    rw [hcl', pickOne, if_neg (by omega)]
    simp only
    obtain ⟨ha, hk⟩ := alloc_spec [st.cell (w.cells.getD t.toNat 0)] st false
    obtain ⟨hb, hk2⟩ := ha.scale (c : ℂ)
    have hval : st.cell (w.cells.getD t.toNat 0) = v.2.getD t.toNat 0 := by
      rw [← h.value, getD_map_cell _ _ _ (by omega)]
    refine ⟨_, _, rfl, ?_, hk.mono hlo |>.trans (hk2.mono hlo)⟩
    cases hu
    rw [hcc, ← hval]
    exact hb.mono hlo
  | t :: t' :: ts, hu, hlen, hv, hunf =>
    obtain ⟨mp, hmp⟩ : ∃ mp, mp = t :: t' :: ts := ⟨_, rfl⟩
    simp only at hu
    rw [← hmp] at hu hlen hv hunf ⊢
    split_ifs at hu with h63
    have hlm : 1 < mp.length := by rw [hmp]; simp
    rw [hunf, if_pos hlm]
    obtain ⟨cs, hcs⟩ : ∃ cs, cs = coeffs.getD (List.replicate mp.length 1) := ⟨_, rfl⟩
    have hcoef : ∀ j, j < mp.length → cs.getD j 0 = mapCoeff coeffs j := by
      intro j hj
      rw [hcs]
      cases coeffs with
      | none => simp [mapCoeff, List.getD, hj]
      | some l => rfl
    rw [← hcs]
    obtain ⟨m', s1, e1, hb, n1, c1, c2⟩ := mapLoop_some w.cells h.nodup cs mp 0 (Multi.MultiWF.new Nat) [] st
      built_new (by omega) (fun x hx => by
        have := hv x hx
        have : ¬ 63 ≤ x := fun hc => h63 ⟨x, hx, hc⟩
        omega)
    rw [e1]
    simp only [Res.bind]
    rw [List.nil_append] at hb
    obtain ⟨l, hl⟩ : ∃ l, l = (mp.zipIdx 0).map fun e => (e.1, w.cells.getD e.2 0) := ⟨_, rfl⟩
    rw [← hl] at hb
    have hl2 : l.map (·.2) = w.cells.take mp.length := by
      rw [hl]
      apply List.ext_getElem
      · simp; omega
      · intro i h1 h2
        simp only [List.length_map, List.length_zipIdx] at h1
        simp only [List.getElem_map, List.getElem_zipIdx, List.getElem_take, Nat.zero_add]
        rw [List.getD_eq_getElem _ _ (by omega)]
    have hcells : ∀ e ∈ l, e.2 ∈ w.cells := by
      intro e he
      have : e.2 ∈ l.map (·.2) := List.mem_map.2 ⟨e, he, rfl⟩
      rw [hl2] at this
      exact List.mem_of_mem_take this
    obtain ⟨w', s2, e2, hh, hk⟩ := initMulti_some (V := V) hb (n := 0) (st := s1) (lo := lo)
      (by rw [hl, hmp]; simp [List.zipIdx_cons]) (by norm_num)
      (by rw [hl2]; exact h.nodup.sublist (List.take_sublist _ _))
      (fun e he => by rw [n1]; exact h.range _ (hcells e he)) (by omega)
    refine ⟨w', s2, e2, ?_, ?_⟩
    · cases hu
      have heq : (l.map fun e => (e.1, s1.cell e.2)) =
          (mp.zipIdx.map fun (t, i) => (t, ((mapCoeff coeffs i : ℝ) : ℂ) • v.2.getD i 0)) := by
        rw [hl, List.map_map]
        apply List.map_congr_left
        rintro ⟨t, i⟩ he
        have hi : i < mp.length := by
          have := List.mem_zipIdx he
          omega
        simp only [Function.comp_apply, Prod.mk.injEq, true_and]
        rw [c1 i (by omega) (by omega), hcoef i hi, ← h.value, getD_map_cell _ _ _ (by omega)]
      rw [heq] at hh
      exact hh
    · refine Keeps.trans ⟨n1.ge, fun j hj => c2 j fun i _ hi heq => ?_⟩ (hk.mono (by omega))
      have := h.range j (by rw [heq, List.getD_eq_getElem _ _ (by omega)]; exact List.getElem_mem _)
      omega

theorem multimap_none {lo : Nat} {w : Wf} {st : St V} {v : Value V} (h : Holds lo w st v)
    (map : List Int) (coeffs : Option (List ℝ)) (hu : remap map coeffs v = none) :
    ∀ r, multimap map coeffs w st ≠ .val r := by
  intro r hr
  have hwl := h.length
  unfold multimap at hr
  split_ifs at hr with h1 h2 h3
  · obtain ⟨q, e1, _⟩ := bind_val.1 hr
    refine mapLoop_none _ _ _ _ _ _ ?_ _ e1
    by_contra hgood
    push Not at hgood
    unfold remap at hu
    rw [if_neg] at hu
    · match map, hu, hgood with
      | [], _, _ => simp at h3
      | [t], _, _ => simp at h3
      | t :: t' :: ts, hu, hgood =>
        simp only at hu
        rw [if_neg] at hu
        · simp at hu
        · rintro ⟨x, hx, h63⟩
          have := (hgood x hx).2.2
          omega
    · rintro (hb | hb | ⟨x, hx, hb⟩)
      · rw [h.multi, hb] at h1; simp at h1
      · omega
      · have := hgood x hx; omega
  · unfold remap at hu
    match map, hu, hr, h3 with
    | [], _, hr, _ => simp [pickOne] at hr
    | [t], hu, hr, _ =>
      have h4 : ¬ (t ≥ (w.cells.length : Int) ∨ t < 0) := by
        intro h4
        cases hcc : coeffs.getD (List.replicate ([t] : List Int).length 1) with
        | nil => rw [hcc, pickOne, if_pos h4] at hr; simp at hr
        | cons c l => rw [hcc, pickOne, if_pos h4] at hr; simp at hr
      rw [if_neg] at hu
      · simp only at hu
        split_ifs at hu with h5
        subst h5
        simp only [Option.getD_some] at hr
        rw [pickOne, if_neg h4] at hr
        simp at hr
      · rintro (hb | hb | ⟨x, hx, hb⟩)
        · rw [h.multi, hb] at h1; simp at h1
        · omega
        · simp only [List.mem_singleton] at hx; subst hx; omega
    | t :: t' :: ts, _, _, h3 => simp at h3

omit [NormedSpace ℂ V] in
theorem zipWith_eq_range (a b : List V) (h : b.length = a.length) :
    List.zipWith (· + ·) a b = (List.range a.length).map fun i => a.getD i 0 + b.getD i 0 := by
  apply List.ext_getElem
  · simp [h]
  · intro i h1 h2
    simp only [List.length_zipWith] at h1
    simp only [List.getElem_zipWith, List.getElem_map, List.getElem_range]
    rw [List.getD_eq_getElem _ _ (by omega), List.getD_eq_getElem _ _ (by omega)]

omit [NormedSpace ℂ V] in
theorem range_getD (a : List V) : ((List.range a.length).map fun i => a.getD i 0) = a := by
  apply List.ext_getElem
  · simp
  · intro i h1 h2
    simp only [List.getElem_map, List.getElem_range]
    rw [List.getD_eq_getElem _ _ h2]

omit [NormedSpace ℂ V] in
theorem getD_range_map (n : Nat) (f : Nat → V) (i : Nat) (h : i < n) :
    ((List.range n).map f).getD i 0 = f i := by
  rw [List.getD_eq_getElem _ _ (by simpa using h)]; simp

/-- A term added two times to an accumulator. -/
theorem add_twice {lo lo' : Nat} {w u : Wf} {st : St V} {v x : Value V} (h : Holds lo w st v)
    (hu : Holds lo' u st x) (hd : ∀ c ∈ w.cells, c ∉ u.cells) (hl : x.2.length = v.2.length) :
    ∃ s1 s2, addWf w u st = .val s1 ∧ addWf w u s1 = .val s2 ∧
      Holds lo w s2 (v.1, (List.range v.2.length).map fun i => v.2.getD i 0 + (2 : ℂ) • x.2.getD i 0) ∧
      Keeps lo st s2 := by
  obtain ⟨s1, e1, h1, hu1, k1⟩ := addWf_some h hu hd hl
  obtain ⟨s2, e2, h2, hu2, k2⟩ := addWf_some h1 hu1 hd (by simp [hl])
  refine ⟨s1, s2, e1, e2, ?_, k1.trans k2⟩
  have : List.zipWith (· + ·) (List.zipWith (· + ·) v.2 x.2) x.2
      = (List.range v.2.length).map fun i => v.2.getD i 0 + (2 : ℂ) • x.2.getD i 0 := by
    rw [zipWith_eq_range _ _ (by simp [hl]), zipWith_eq_range _ _ hl]
    rw [List.length_map, List.length_range]
    apply List.map_congr_left
    intro i hi
    rw [getD_range_map _ _ _ (by simpa using hi)]
    rw [two_smul, add_assoc]
  rw [← this]
  exact h2

mutual
/-- Loading a section gives its value, in which linear combinations count twice. -/
theorem load_spec : (n : Node V) → NoZero n → ∀ st : St V,
    (∀ v, eval 2 n = some v → v.2 ≠ [] ∧ ∃ w st', load n st = .val (w, st') ∧ Holds st.next w st' v ∧
      Keeps st.next st st') ∧
    (eval 2 n = none → ∀ r, load n st ≠ .val r)
  | .file a multi first others, hz, st => by
    have hz' : coefficient a ≠ some 0 := by simpa [NoZero, All] using hz
    obtain ⟨h1, k1⟩ := alloc_spec (first :: others) st multi
    have hl : load (.file a multi first others) st = finish a ⟨multi, (st.alloc (first :: others)).1⟩
        (st.alloc (first :: others)).2 := by rw [load]
    rw [hl]
    have he : eval 2 (.file a multi first others : Node V) = dress a (multi, first :: others) := by rw [eval]
    rw [he]
    constructor
    · intro v hv
      obtain ⟨st', e, h, k⟩ := finish_some h1 a hz' hv
      refine ⟨?_, _, _, e, h, k1.trans k⟩
      rw [← List.length_pos_iff, ← h.length, h1.length]; simp
    · intro hv
      exact finish_none h1 a hv
  | .lc a terms, hz, st => by
    have hz' : coefficient a ≠ some 0 ∧ AllTerms (fun a _ => coefficient a ≠ some 0) terms := by
      simpa [NoZero, All] using hz
    obtain ⟨L1, L2, L3⟩ := (loadLC_spec terms hz'.2).2 st
    have hl : load (.lc a terms) st = (loadLC terms none st).bind fun r => finishLC a r.1 r.2 := by rw [load]
    have he : eval 2 (.lc a terms : Node V) =
      (evalTerms 2 terms).bind fun l => (total 2 (l.map (·.2))).bind (dress a) := by rw [eval]
    rw [hl, he]
    cases ht : evalTerms 2 terms with
    | none =>
      simp only [Option.bind_none, reduceCtorEq, false_implies, implies_true, forall_const, true_and]
      intro r hr
      obtain ⟨q, hq, _⟩ := bind_val.1 hr
      exact L3 (Or.inl ht) q hq
    | some l =>
      simp only [Option.bind_some]
      cases htot : total 2 (l.map (·.2)) with
      | none =>
        simp only [Option.bind_none, reduceCtorEq, false_implies, implies_true, forall_const, true_and]
        intro r hr
        obtain ⟨q, hq, hq2⟩ := bind_val.1 hr
        cases l with
        | nil =>
          rw [L2 ht] at hq
          cases hq
          simp [finishLC] at hq2
        | cons e l =>
          exact L3 (Or.inr ⟨e :: l, ht, by simp, htot⟩) q hq
      | some v =>
        simp only [Option.bind_some]
        obtain ⟨hne, w, s1, e1, h1, k1⟩ := L1 l v ht htot
        rw [e1]
        simp only [Res.bind, finishLC]
        constructor
        · intro u hu
          obtain ⟨s2, e2, h2, k2⟩ := finish_some h1 a hz'.1 hu
          refine ⟨?_, _, _, e2, h2, k1.trans k2⟩
          rw [← List.length_pos_iff, ← h2.length, h1.length]
          exact List.length_pos_iff.2 hne
        · intro hu
          exact finish_none h1 a hu
  | .multistate a n parts, hz, st => by
    have hz' : coefficient a ≠ some 0 ∧ AllTerms (fun a _ => coefficient a ≠ some 0) parts := by
      simpa [NoZero, All] using hz
    have he : eval 2 (.multistate a n parts : Node V) = (evalTerms 2 parts).bind fun l =>
      if ∀ e ∈ l, 0 ≤ e.1 ∧ e.1 < 63 ∧ e.2.2.length = 1 then
        (states n (l.map fun e => (e.1, e.2.2.getD 0 0))).bind (dress a)
      else none := by rw [eval]
    obtain ⟨S1, S2⟩ := loadStates_spec parts hz'.2 st.next (Multi.MultiWF.new Nat) [] st (le_refl _) built_new
      (by simp) (by simp)
    have hl : parts ≠ .nil → load (.multistate a n parts) st =
        (loadStates parts (Multi.MultiWF.new Nat) st).bind fun r =>
        (initMulti r.1 n r.2).bind fun r => finish a r.1 r.2 := by
      intro hp
      cases parts with
      | nil => exact absurd rfl hp
      | cons i x y => rw [load]; simp [Nodes.isEmpty]
    rw [he]
    by_cases hp : parts = .nil
    · subst hp
      have : evalTerms 2 (.nil : Nodes V) = some [] := by rw [evalTerms]
      rw [this]
      simp only [Option.bind_some, List.not_mem_nil, false_implies, implies_true, if_true, List.map_nil, states,
        true_or, Option.bind_none, reduceCtorEq, forall_const, true_and]
      intro r
      rw [load]
      simp [Nodes.isEmpty]
    · rw [hl hp]
      cases ht : evalTerms 2 parts with
      | none =>
        simp only [Option.bind_none, reduceCtorEq, false_implies, implies_true, forall_const, true_and]
        intro r hr
        obtain ⟨q, hq, _⟩ := bind_val.1 hr
        exact S2 (Or.inl ht) q hq
      | some l =>
        simp only [Option.bind_some]
        by_cases hg : ∀ e ∈ l, 0 ≤ e.1 ∧ e.1 < 63 ∧ e.2.2.length = 1
        · rw [if_pos hg]
          obtain ⟨m, l', s1, e1, hb, hval, hnd, hrg, k1⟩ := S1 l ht hg
          rw [e1]
          simp only [Res.bind]
          rw [List.nil_append] at hb
          by_cases hbad : l = [] ∨ n > 64
          · have hst : states n (l.map fun e => (e.1, e.2.2.getD 0 0)) = none := by
              rw [states, if_pos]
              rcases hbad with rfl | hbad
              · simp
              · exact Or.inr hbad
            rw [hst]
            simp only [Option.bind_none, reduceCtorEq, false_implies, implies_true, forall_const, true_and]
            intro r hr
            obtain ⟨q, hq, _⟩ := bind_val.1 hr
            refine initMulti_none hb ?_ q hq
            rcases hbad with rfl | hbad
            · simp only [List.map_nil, List.map_eq_nil_iff] at hval
              exact Or.inl hval
            · exact Or.inr hbad
          · push Not at hbad
            have hl' : l' ≠ [] := by
              rintro rfl
              simp only [List.map_nil] at hval
              exact hbad.1 (List.map_eq_nil_iff.1 hval.symm)
            have hst : states n (l.map fun e => (e.1, e.2.2.getD 0 0)) =
                some (true, arrange (l.map fun e => (e.1, e.2.2.getD 0 0)) n.toNat) := by
              rw [states, if_neg]
              push Not
              exact ⟨by simpa using hbad.1, hbad.2⟩
            rw [hst]
            simp only [Option.bind_some]
            obtain ⟨w, s2, e2, h2, k2⟩ := initMulti_some hb hl' hbad.2 (by simpa using hnd) (fun e he =>
              hrg e he) k1.next
            rw [e2]
            simp only [Res.bind]
            rw [hval] at h2
            constructor
            · intro u hu
              obtain ⟨s3, e3, h3, k3⟩ := finish_some h2 a hz'.1 hu
              refine ⟨?_, _, _, e3, h3, (k1.trans (k2.mono k1.next)).trans k3⟩
              rw [← List.length_pos_iff, ← h3.length, h2.length]
              simp only [arrange, List.length_map, List.length_range]
              obtain ⟨e, l2, rfl⟩ := List.exists_cons_of_ne_nil hl'
              rw [← hval]
              have := le_places (l := (e :: l2).map fun e => (e.1, s1.cell e.2)) (e := (e.1, s1.cell e.2)) (by simp)
              omega
            · intro hu
              exact finish_none h2 a hu
        · rw [if_neg hg]
          simp only [reduceCtorEq, false_implies, implies_true, forall_const, true_and]
          intro r hr
          obtain ⟨q, hq, _⟩ := bind_val.1 hr
          exact S2 (Or.inr ⟨l, ht, hg⟩) q hq
  | .multimap a map coeffs input, hz, st => by
    have hz' : coefficient a ≠ some 0 ∧ NoZero input := by simpa [NoZero, All] using hz
    obtain ⟨I1, I2⟩ := load_spec input hz'.2 st
    have hl : load (.multimap a map coeffs input) st =
        (load input st).bind fun r => (multimap map coeffs r.1 r.2).bind fun r => finish a r.1 r.2 := by rw [load]
    have he : eval 2 (.multimap a map coeffs input : Node V) =
      (eval 2 input).bind fun v => (remap map coeffs v).bind (dress a) := by rw [eval]
    rw [hl, he]
    cases hi : eval 2 input with
    | none =>
      simp only [Option.bind_none, reduceCtorEq, false_implies, implies_true, forall_const, true_and]
      intro r hr
      obtain ⟨q, hq, _⟩ := bind_val.1 hr
      exact I2 hi q hq
    | some v =>
      obtain ⟨hne, w, s1, e1, h1, k1⟩ := I1 v hi
      rw [e1]
      simp only [Option.bind_some, Res.bind]
      cases hm : remap map coeffs v with
      | none =>
        simp only [Option.bind_none, reduceCtorEq, false_implies, implies_true, forall_const, true_and]
        intro r hr
        obtain ⟨q, hq, _⟩ := bind_val.1 hr
        exact multimap_none h1 map coeffs hm q hq
      | some u =>
        obtain ⟨w2, s2, e2, h2, k2⟩ := multimap_some h1 k1.next map coeffs hm
        rw [e2]
        simp only [Option.bind_some, Res.bind]
        have hune : u.2 ≠ [] := by
          unfold remap at hm
          split at hm
          · simp at hm
          match map, hm with
          | [], hm => simp at hm
          | [t], hm =>
            simp only at hm
            split_ifs at hm
            cases hm
            simp
          | t :: t' :: ts, hm =>
            simp only at hm
            split_ifs at hm
            cases hm
            rw [← List.length_pos_iff]
            simp only [arrange, List.length_map, List.length_range, List.zipIdx_cons, List.map_cons]
            have := le_places (l := (t, ((mapCoeff coeffs 0 : ℝ) : ℂ) • v.2.getD 0 0) ::
              (t', ((mapCoeff coeffs (0 + 1) : ℝ) : ℂ) • v.2.getD (0 + 1) 0) ::
              (ts.zipIdx (0 + 1 + 1)).map fun x => (x.1, ((mapCoeff coeffs x.2 : ℝ) : ℂ) • v.2.getD x.2 0))
              (e := (t, ((mapCoeff coeffs 0 : ℝ) : ℂ) • v.2.getD 0 0)) (by simp)
            omega
        constructor
        · intro x hx
          obtain ⟨s3, e3, h3, k3⟩ := finish_some h2 a hz'.1 hx
          refine ⟨?_, _, _, e3, h3, (k1.trans k2).trans k3⟩
          rw [← List.length_pos_iff, ← h3.length, h2.length]
          exact List.length_pos_iff.2 hune
        · intro hx
          exact finish_none h2 a hx

/-- The loop of linear combinations. -/
theorem loadLC_spec : (ts : Nodes V) → AllTerms (fun a _ => coefficient a ≠ some 0) ts →
    (∀ (lo : Nat) (st : St V) (w : Wf) (v : Value V), lo ≤ st.next → Holds lo w st v →
      (∀ l, evalTerms 2 ts = some l → (∀ e ∈ l, e.2.2.length = v.2.length) →
        ∃ st', loadLC ts (some w) st = .val (some w, st') ∧
          Holds lo w st' (v.1, (List.range v.2.length).map fun i =>
            v.2.getD i 0 + (2 : ℂ) • (l.map fun e => e.2.2.getD i 0).sum) ∧ Keeps lo st st') ∧
      ((evalTerms 2 ts = none ∨ ∃ l, evalTerms 2 ts = some l ∧ ¬ ∀ e ∈ l, e.2.2.length = v.2.length) →
        ∀ r, loadLC ts (some w) st ≠ .val r)) ∧
    (∀ st : St V,
      (∀ l v, evalTerms 2 ts = some l → total 2 (l.map (·.2)) = some v →
        v.2 ≠ [] ∧ ∃ w st', loadLC ts none st = .val (some w, st') ∧ Holds st.next w st' v ∧ Keeps st.next st st') ∧
      (evalTerms 2 ts = some [] → loadLC ts none st = .val (none, st)) ∧
      ((evalTerms 2 ts = none ∨ ∃ l, evalTerms 2 ts = some l ∧ l ≠ [] ∧ total 2 (l.map (·.2)) = none) →
        ∀ r, loadLC ts none st ≠ .val r))
  | .nil, _ => by
    have he : evalTerms 2 (.nil : Nodes V) = some [] := by rw [evalTerms]
    rw [he]
    refine ⟨fun lo st w v _ h => ⟨?_, ?_⟩, fun st => ⟨?_, ?_, ?_⟩⟩
    · intro l hl _
      cases hl
      refine ⟨st, by rw [loadLC], ?_, Keeps.refl _ _⟩
      have he : ((List.range v.2.length).map fun i => v.2.getD i 0 +
          (2 : ℂ) • (([] : List (Int × Value V)).map fun e => e.2.2.getD i 0).sum) = v.2 := by
        conv_rhs => rw [← range_getD v.2]
        apply List.map_congr_left
        intro i _
        simp
      rw [he]
      exact h
    · rintro (h | ⟨l, hl, hb⟩)
      · simp at h
      · cases hl; simp at hb
    · intro l v hl hv
      cases hl
      simp [total] at hv
    · intro _; rw [loadLC]
    · rintro (h | ⟨l, hl, hb, _⟩)
      · simp at h
      · cases hl; simp at hb
  | .cons idx n rest, hz => by
    have hz' : All (fun a _ => coefficient a ≠ some 0) n ∧ AllTerms (fun a _ => coefficient a ≠ some 0) rest := by
      simpa [AllTerms] using hz
    obtain ⟨R1, R2⟩ := loadLC_spec rest hz'.2
    have hev : evalTerms 2 (.cons idx n rest : Nodes V) =
        (eval 2 n).bind fun v => (evalTerms 2 rest).map fun l => (idx, v) :: l := by rw [evalTerms]
    have hstep : ∀ (acc : Option Wf) (st : St V), loadLC (.cons idx n rest) acc st = (load n st).bind fun r =>
      (lcTerm acc r.1 r.2).bind fun q => (addWf q.1 r.1 q.2).bind fun st' => loadLC rest (some q.1) st' := by
      intro acc st; rw [loadLC]
    refine ⟨fun lo st w v hlo h => ?_, fun st => ?_⟩
    · obtain ⟨I1, I2⟩ := load_spec n hz'.1 st
      have hfail : eval 2 n = none ∨ (∃ x, eval 2 n = some x ∧ x.2.length ≠ v.2.length) →
          ∀ r, loadLC (.cons idx n rest) (some w) st ≠ .val r := by
        rintro (hn | ⟨x, hx, hlx⟩) r hr
        · rw [hstep] at hr
          obtain ⟨q, hq, _⟩ := bind_val.1 hr
          exact I2 hn q hq
        · rw [hstep] at hr
          obtain ⟨_, u, s1, e1, h1, k1⟩ := I1 x hx
          rw [e1] at hr
          simp only [Res.bind, lcTerm] at hr
          obtain ⟨q, hq, _⟩ := bind_val.1 hr
          obtain ⟨q, hq, _⟩ := bind_val.1 hq
          exact addWf_none (h.keep k1) h1 hlx q hq
      have hgo : ∀ x, eval 2 n = some x → x.2.length = v.2.length → ∃ s2,
          loadLC (.cons idx n rest) (some w) st = loadLC rest (some w) s2 ∧
          Holds lo w s2 (v.1, (List.range v.2.length).map fun i => v.2.getD i 0 + (2 : ℂ) • x.2.getD i 0) ∧
          Keeps lo st s2 := by
        intro x hx hlx
        obtain ⟨_, u, s1, e1, h1, k1⟩ := I1 x hx
        obtain ⟨s2, s3, e2, e3, h3, k3⟩ := add_twice (h.keep k1) h1 (fun c hc hc' => by
          have := (h.range c hc).2
          have := (h1.range c hc').1
          omega) hlx
        refine ⟨s3, ?_, h3, (k1.mono hlo).trans k3⟩
        rw [hstep, e1]
        simp only [Res.bind, lcTerm]
        rw [e2]
        simp only [Res.bind]
        rw [e3]
      rw [hev]
      constructor
      · intro l hl hlen
        obtain ⟨x, hx, hl⟩ := Option.bind_eq_some_iff.1 hl
        obtain ⟨l', hl', rfl⟩ := Option.map_eq_some_iff.1 hl
        obtain ⟨s2, e2, h2, k2⟩ := hgo x hx (hlen (idx, x) (by simp))
        obtain ⟨s3, e3, h3, k3⟩ := (R1 lo s2 w _ (hlo.trans k2.next) h2).1 l' hl' (fun e he => by
          simpa using hlen e (by simp [he]))
        refine ⟨s3, by rw [e2, e3], ?_, k2.trans k3⟩
        simp only [List.length_map, List.length_range] at h3
        have heq : ((List.range v.2.length).map fun i =>
            ((List.range v.2.length).map fun i => v.2.getD i 0 + (2 : ℂ) • x.2.getD i 0).getD i 0 +
              (2 : ℂ) • (l'.map fun e => e.2.2.getD i 0).sum) =
            (List.range v.2.length).map fun i =>
            v.2.getD i 0 + (2 : ℂ) • (((idx, x) :: l').map fun e => e.2.2.getD i 0).sum := by
          apply List.map_congr_left
          intro i hi
          rw [getD_range_map _ _ _ (by simpa using hi)]
          simp only [List.map_cons, List.sum_cons, smul_add]
          abel
        rw [heq] at h3
        exact h3
      · intro hbad
        cases hx : eval 2 n with
        | none => exact hfail (Or.inl hx)
        | some x =>
          by_cases hlx : x.2.length = v.2.length
          · obtain ⟨s2, e2, h2, k2⟩ := hgo x hx hlx
            rw [e2]
            apply (R1 lo s2 w _ (hlo.trans k2.next) h2).2
            rw [hx] at hbad
            simp only [Option.bind_some, Option.map_eq_none_iff, Option.map_eq_some_iff] at hbad
            rcases hbad with hbad | ⟨l, ⟨l', hl', rfl⟩, hb⟩
            · exact Or.inl hbad
            · refine Or.inr ⟨l', hl', fun hall => hb fun e he => ?_⟩
              rcases List.mem_cons.1 he with rfl | he
              · exact hlx
              · simpa using hall e he
          · exact hfail (Or.inr ⟨x, hx, hlx⟩)
    · obtain ⟨I1, I2⟩ := load_spec n hz'.1 st
      have hgo : ∀ x, eval 2 n = some x → ∃ w s2,
          loadLC (.cons idx n rest) none st = loadLC rest (some w) s2 ∧
          Holds st.next w s2 (x.1, (List.range x.2.length).map fun i => (2 : ℂ) • x.2.getD i 0) ∧
          Keeps st.next st s2 := by
        intro x hx
        obtain ⟨_, u, s1, e1, h1, k1⟩ := I1 x hx
        obtain ⟨h2, k2⟩ := alloc_spec (u.cells.map s1.cell) s1 u.multi
        obtain ⟨cs, hcs⟩ : ∃ c, c = (s1.alloc (u.cells.map s1.cell)).1 := ⟨_, rfl⟩
        obtain ⟨s2, hs2⟩ : ∃ c, c = (s1.alloc (u.cells.map s1.cell)).2 := ⟨_, rfl⟩
        have hal : s1.alloc (u.cells.map s1.cell) = (cs, s2) := by rw [hcs, hs2]
        rw [← hcs, ← hs2] at h2
        rw [← hs2] at k2
        rw [h1.value] at h2
        obtain ⟨s3, e3, h3, _, k3⟩ := addWf_some h2 (h1.keep k2) (fun c hc hc' => by
          have := (h2.range c hc).1
          have := (h1.range c hc').2
          omega) rfl
        refine ⟨⟨u.multi, cs⟩, s3, ?_, ?_, (k1.trans (k2.mono k1.next)).trans (k3.mono k1.next)⟩
        · rw [hstep, e1]
          simp only [Res.bind, lcTerm, hal]
          rw [e3]
        · have h4 := h3.mono k1.next
          have heq : List.zipWith (· + ·) x.2 x.2 = (List.range x.2.length).map fun i => (2 : ℂ) • x.2.getD i 0 := by
            rw [zipWith_eq_range _ _ rfl]
            apply List.map_congr_left
            intro i _
            rw [two_smul]
          refine ⟨by rw [← h1.multi], ?_, h4.nodup, h4.range⟩
          rw [← heq]; exact h4.value
      rw [hev]
      refine ⟨?_, ?_, ?_⟩
      · intro l v hl hv
        obtain ⟨x, hx, hl⟩ := Option.bind_eq_some_iff.1 hl
        obtain ⟨l', hl', rfl⟩ := Option.map_eq_some_iff.1 hl
        obtain ⟨hxne, _⟩ := I1 x hx
        simp only [List.map_cons, total] at hv
        split_ifs at hv with hall
        cases hv
        refine ⟨?_, ?_⟩
        · rw [← List.length_pos_iff]
          simpa [sumOf] using List.length_pos_iff.2 hxne
        · obtain ⟨w, s2, e2, h2, k2⟩ := hgo x hx
          obtain ⟨s3, e3, h3, k3⟩ := (R1 st.next s2 w _ k2.next h2).1 l' hl' (fun e he => by
            rw [List.all_map, List.all_eq_true] at hall
            simpa using hall e he)
          refine ⟨w, s3, by rw [e2, e3], ?_, k2.trans k3⟩
          simp only [List.length_map, List.length_range] at h3
          have heq : ((List.range x.2.length).map fun i =>
              ((List.range x.2.length).map fun i => (2 : ℂ) • x.2.getD i 0).getD i 0 +
              (2 : ℂ) • (l'.map fun e => e.2.2.getD i 0).sum) = sumOf 2 x.2.length (x :: l'.map (·.2)) := by
            rw [sumOf]
            apply List.map_congr_left
            intro i hi
            rw [getD_range_map _ _ _ (by simpa using hi)]
            simp only [List.map_cons, List.sum_cons, smul_add, List.map_map]
            rfl
          rw [heq] at h3
          exact h3
      · intro hl
        obtain ⟨x, hx, hl⟩ := Option.bind_eq_some_iff.1 hl
        obtain ⟨l', hl', hc⟩ := Option.map_eq_some_iff.1 hl
        cases hc
      · intro hbad r hr
        cases hx : eval 2 n with
        | none =>
          rw [hstep] at hr
          obtain ⟨q, hq, _⟩ := bind_val.1 hr
          exact I2 hx q hq
        | some x =>
          obtain ⟨w, s2, e2, h2, k2⟩ := hgo x hx
          rw [e2] at hr
          rw [hx] at hbad
          simp only [Option.bind_some, Option.map_eq_none_iff, Option.map_eq_some_iff] at hbad
          refine (R1 st.next s2 w _ k2.next h2).2 ?_ r hr
          rcases hbad with hbad | ⟨l, ⟨l', hl', rfl⟩, _, hb⟩
          · exact Or.inl hbad
          · refine Or.inr ⟨l', hl', fun hall => ?_⟩
            simp only [List.map_cons, total] at hb
            rw [if_pos] at hb
            · simp at hb
            · rw [List.all_map, List.all_eq_true]
              intro e he
              simpa using hall e he

/-- The loop of multistate wave functions. -/
theorem loadStates_spec : (ts : Nodes V) → AllTerms (fun a _ => coefficient a ≠ some 0) ts →
    ∀ (lo : Nat) (m : Multi.MultiWF Nat) (l0 : List (Int × Nat)) (st : St V), lo ≤ st.next → Built m l0 →
    (l0.map (·.2)).Nodup → (∀ e ∈ l0, lo ≤ e.2 ∧ e.2 < st.next) →
    (∀ l, evalTerms 2 ts = some l → (∀ e ∈ l, 0 ≤ e.1 ∧ e.1 < 63 ∧ e.2.2.length = 1) →
      ∃ m' l1 st', loadStates ts m st = .val (m', st') ∧ Built m' (l0 ++ l1) ∧
        (l1.map fun e => (e.1, st'.cell e.2)) = (l.map fun e => (e.1, e.2.2.getD 0 0)) ∧
        ((l0 ++ l1).map (·.2)).Nodup ∧ (∀ e ∈ l1, lo ≤ e.2 ∧ e.2 < st'.next) ∧ Keeps st.next st st') ∧
    ((evalTerms 2 ts = none ∨ ∃ l, evalTerms 2 ts = some l ∧ ¬ ∀ e ∈ l, 0 ≤ e.1 ∧ e.1 < 63 ∧ e.2.2.length = 1) →
      ∀ r, loadStates ts m st ≠ .val r)
  | .nil, _, lo, m, l0, st, hlo, hb, hnd, hr => by
    have he : evalTerms 2 (.nil : Nodes V) = some [] := by rw [evalTerms]
    rw [he]
    constructor
    · intro l hl _
      cases hl
      exact ⟨m, [], st, by rw [loadStates], by simpa using hb, rfl, by simpa using hnd, by simp, Keeps.refl _ _⟩
    · rintro (h | ⟨l, hl, hbad⟩)
      · simp at h
      · cases hl; simp at hbad
  | .cons idx n rest, hz, lo, m, l0, st, hlo, hb, hnd, hr => by
    have hz' : All (fun a _ => coefficient a ≠ some 0) n ∧ AllTerms (fun a _ => coefficient a ≠ some 0) rest := by
      simpa [AllTerms] using hz
    have hev : evalTerms 2 (.cons idx n rest : Nodes V) =
        (eval 2 n).bind fun v => (evalTerms 2 rest).map fun l => (idx, v) :: l := by rw [evalTerms]
    have hstep : loadStates (.cons idx n rest) m st = (load n st).bind fun r => (addState m r.1 idx).bind fun m =>
        loadStates rest m r.2 := by rw [loadStates]
    obtain ⟨I1, I2⟩ := load_spec n hz'.1 st
    rw [hev]
    -- what one round does
    have hgo : ∀ x, eval 2 n = some x → 0 ≤ idx → idx < 63 → x.2.length = 1 → ∃ k m1 s1,
        loadStates (.cons idx n rest) m st = loadStates rest m1 s1 ∧ Built m1 (l0 ++ [(idx, k)]) ∧
        s1.cell k = x.2.getD 0 0 ∧ st.next ≤ k ∧ k < s1.next ∧ Keeps st.next st s1 := by
      intro x hx h0 h63 hlx
      obtain ⟨_, w, s1, e1, h1, k1⟩ := I1 x hx
      have hwl : w.cells.length = 1 := by rw [h1.length, hlx]
      obtain ⟨k, hk⟩ := List.length_eq_one_iff.1 hwl
      obtain ⟨m1, e2, hb1⟩ := addState_some hb hk h0 h63
      have hrg := h1.range k (by rw [hk]; simp)
      refine ⟨k, m1, s1, ?_, hb1, ?_, hrg.1, hrg.2, k1⟩
      · rw [hstep, e1]
        simp only [Res.bind]
        rw [e2]
      · have := h1.value
        rw [hk] at this
        rw [← this]
        rfl
    have hfresh : ∀ k, st.next ≤ k → ((l0 ++ [(idx, k)]).map (·.2)).Nodup := by
      intro k hk
      rw [List.map_append, List.nodup_append]
      refine ⟨hnd, by simp, ?_⟩
      intro a ha b hb'
      simp only [List.map_cons, List.map_nil, List.mem_singleton] at hb'
      subst hb'
      obtain ⟨e, he, rfl⟩ := List.mem_map.1 ha
      have := (hr e he).2
      omega
    constructor
    · intro l hl hg
      obtain ⟨x, hx, hl⟩ := Option.bind_eq_some_iff.1 hl
      obtain ⟨l', hl', rfl⟩ := Option.map_eq_some_iff.1 hl
      have hgx := hg (idx, x) (by simp)
      obtain ⟨k, m1, s1, e1, hb1, hv1, hk1, hk2, k1⟩ := hgo x hx hgx.1 hgx.2.1 hgx.2.2
      obtain ⟨T1, _⟩ := loadStates_spec rest hz'.2 lo m1 (l0 ++ [(idx, k)]) s1 (hlo.trans k1.next) hb1
        (hfresh k hk1) (fun e he => by
          rcases List.mem_append.1 he with he | he
          · have := hr e he; have := k1.next; omega
          · simp only [List.mem_singleton] at he; subst he; exact ⟨by dsimp only; omega, hk2⟩)
      obtain ⟨m', l1, s2, e2, hb2, hv2, hn2, hr2, k2⟩ := T1 l' hl' (fun e he => hg e (by simp [he]))
      refine ⟨m', (idx, k) :: l1, s2, by rw [e1, e2], by simpa using hb2, ?_, by simpa using hn2, ?_,
        k1.trans (k2.mono k1.next)⟩
      · simp only [List.map_cons]
        rw [hv2, k2.cell k hk2, hv1]
      · intro e he
        rcases List.mem_cons.1 he with rfl | he
        · exact ⟨by dsimp only; omega, lt_of_lt_of_le hk2 k2.next⟩
        · exact hr2 e he
    · intro hbad r hr'
      cases hx : eval 2 n with
      | none =>
        rw [hstep] at hr'
        obtain ⟨q, hq, _⟩ := bind_val.1 hr'
        exact I2 hx q hq
      | some x =>
        by_cases hg : 0 ≤ idx ∧ idx < 63 ∧ x.2.length = 1
        · obtain ⟨k, m1, s1, e1, hb1, hv1, hk1, hk2, k1⟩ := hgo x hx hg.1 hg.2.1 hg.2.2
          obtain ⟨_, T2⟩ := loadStates_spec rest hz'.2 lo m1 (l0 ++ [(idx, k)]) s1 (hlo.trans k1.next) hb1
            (hfresh k hk1) (fun e he => by
              rcases List.mem_append.1 he with he | he
              · have := hr e he; have := k1.next; omega
              · simp only [List.mem_singleton] at he; subst he; exact ⟨by dsimp only; omega, hk2⟩)
          rw [e1] at hr'
          refine T2 ?_ r hr'
          rw [hx] at hbad
          simp only [Option.bind_some, Option.map_eq_none_iff, Option.map_eq_some_iff] at hbad
          rcases hbad with hbad | ⟨l, ⟨l', hl', rfl⟩, hb'⟩
          · exact Or.inl hbad
          · refine Or.inr ⟨l', hl', fun hall => hb' fun e he => ?_⟩
            rcases List.mem_cons.1 he with rfl | he
            · exact hg
            · exact hall e he
        · obtain ⟨hne, w, s1, e1, h1, k1⟩ := I1 x hx
          rw [hstep, e1] at hr'
          simp only [Res.bind] at hr'
          obtain ⟨q, hq, _⟩ := bind_val.1 hr'
          refine addState_none ?_ ?_ q hq
          · rw [← List.length_pos_iff, h1.length]; exact List.length_pos_iff.2 hne
          · rw [h1.length]; exact hg
end

end QDng.Chain
