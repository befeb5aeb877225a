import Verif.Chain.Refine
import Mathlib.Analysis.InnerProductSpace.Basic

/-
Properties C39, C40, C83: wave functions described in the input.
-/

namespace QDng.Chain

open QDng.Common Spec

variable {V : Type} [NormedAddCommGroup V] [NormedSpace ℂ V]

/-! ## C39 -/

theorem norm_times (c : ℂ) (l : List V) : Spec.norm (times c l) = ‖c‖ * Spec.norm l := by
  unfold Spec.norm times
  have : ((l.map fun v => c • v).map fun v => ‖v‖ ^ 2).sum = ‖c‖ ^ 2 * (l.map fun v => ‖v‖ ^ 2).sum := by
    induction l with
    | nil => simp
    | cons v l ih =>
      simp only [List.map_cons, List.sum_cons, ih, norm_smul]
      ring
  rw [this, Real.sqrt_mul (by positivity), Real.sqrt_sq (norm_nonneg _)]

theorem times_times (c d : ℂ) (l : List V) : times c (times d l) = times (c * d) l := by
  simp [times, smul_smul]

theorem normed_times_two (l : List V) : normed true (times 2 l) = normed true l := by
  unfold normed
  rw [if_pos rfl, if_pos rfl, norm_times]
  have h2 : ‖(2 : ℂ)‖ = 2 := by simp
  rw [h2]
  by_cases h : Spec.norm l = 0
  · rw [if_pos h, if_pos (by rw [h, mul_zero])]
  · rw [if_neg h, if_neg (by simpa using h), times_times]
    congr 2
    push_cast
    have : ((Spec.norm l : ℝ) : ℂ) ≠ 0 := by exact_mod_cast h
    field_simp

theorem total_two (l : List (Value V)) : total 2 l = (total 1 l).map fun v => (v.1, times 2 v.2) := by
  cases l with
  | nil => rfl
  | cons v l =>
    simp only [total]
    split_ifs
    · simp only [Option.map_some, Option.some.injEq, Prod.mk.injEq, true_and, sumOf, times, List.map_map]
      apply List.map_congr_left
      intro i _
      simp
    · rfl

mutual
theorem eval_normalized : (n : Node V) → LCNormalized n → eval 2 n = eval 1 n
  | .file a m f o, _ => by rw [eval, eval]
  | .lc a ts, h => by
    have h' : a.normalize = true ∧ AllTerms (fun a lc => lc = true → a.normalize = true) ts := by
      simpa [LCNormalized, All] using h
    rw [eval, eval, evalTerms_normalized ts h'.2]
    congr 1
    funext l
    rw [total_two]
    cases total 1 (l.map (·.2)) with
    | none => rfl
    | some v =>
      simp only [Option.map_some, Option.bind_some, dress, h'.1]
      rw [normed_times_two]
  | .multistate a n ps, h => by
    have h' : AllTerms (fun a lc => lc = true → a.normalize = true) ps := by
      simpa [LCNormalized, All] using h
    rw [eval, eval, evalTerms_normalized ps h']
  | .multimap a mp cs i, h => by
    have h' : LCNormalized i := by simpa [LCNormalized, All] using h
    rw [eval, eval, eval_normalized i h']
theorem evalTerms_normalized : (ts : Nodes V) → AllTerms (fun a lc => lc = true → a.normalize = true) ts →
    evalTerms 2 ts = evalTerms 1 ts
  | .nil, _ => by rw [evalTerms, evalTerms]
  | .cons i n rest, h => by
    have h' : All (fun a lc => lc = true → a.normalize = true) n ∧
        AllTerms (fun a lc => lc = true → a.normalize = true) rest := by simpa [AllTerms] using h
    rw [evalTerms, evalTerms, eval_normalized n h'.1, evalTerms_normalized rest h'.2]
end

/-- A section without zero coefficients gives the value one reads off from it, only that every linear combination counts
twice; if that value does not exist (mismatched sizes, norm zero, negative squared coefficients, impossible states or
maps) nothing is loaded.  Missing for C39: the factor two and the coefficient zero. -/
theorem C39_load_partial (n : Node V) (hz : NoZero n) (st : St V) (v : Value V) :
    eval 2 n = some v ↔ ∃ w st', load n st = .val (w, st') ∧ valueOf w st' = v := by
  obtain ⟨h1, h2⟩ := load_spec n hz st
  constructor
  · intro hv
    obtain ⟨_, w, st', e, h, _⟩ := h1 v hv
    refine ⟨w, st', e, ?_⟩
    rw [valueOf, h.value, h.multi]
  · rintro ⟨w, st', e, hv⟩
    cases hev : eval 2 n with
    | none => exact absurd e (h2 hev _)
    | some u =>
      obtain ⟨_, w', st'', e', h, _⟩ := h1 u hev
      rw [e] at e'
      cases e'
      rw [← hv, valueOf, h.value, h.multi]

/-- If every linear combination is normalised, as in the examples of the handbook, the value is the one given by the
input.  Missing for C39: linear combinations that are not normalised, and the coefficient zero. -/
theorem C39_normalized_partial (n : Node V) (hz : NoZero n) (hn : LCNormalized n) (st : St V) (v : Value V) :
    eval 1 n = some v ↔ ∃ w st', load n st = .val (w, st') ∧ valueOf w st' = v := by
  rw [← eval_normalized n hn]
  exact C39_load_partial n hz st v

/-- Sections with a file and a coefficient. -/
def terms : List (ℝ × V) → Nodes V
  | [] => .nil
  | (c, v) :: l => .cons 0 (.file { coeff := some c } false v []) (terms l)

omit [NormedAddCommGroup V] [NormedSpace ℂ V] in
theorem terms_all {p : Attr → Bool → Prop} (l : List (ℝ × V)) (h : ∀ e ∈ l, p { coeff := some e.1 } false) :
    AllTerms p (terms l) := by
  induction l with
  | nil => trivial
  | cons e l ih =>
    obtain ⟨c, v⟩ := e
    exact ⟨h (c, v) (by simp), ih fun e he => h e (by simp [he])⟩

theorem evalTerms_terms (k : ℂ) (l : List (ℝ × V)) :
    evalTerms k (terms l) = some (l.map fun e => (0, (false, [(e.1 : ℂ) • e.2]))) := by
  induction l with
  | nil => rw [terms, evalTerms]; rfl
  | cons e l ih =>
    obtain ⟨c, v⟩ := e
    rw [terms, evalTerms, ih, eval]
    simp [dress, normed, coefficient, phase, times]

theorem total_terms (k : ℂ) (l : List (ℝ × V)) (hl : l ≠ []) :
    total k ((l.map fun e => ((0 : Int), (false, [(e.1 : ℂ) • e.2]))).map (·.2)) =
      some (false, [k • (l.map fun e => (e.1 : ℂ) • e.2).sum]) := by
  obtain ⟨e, l, rfl⟩ := List.exists_cons_of_ne_nil hl
  simp only [List.map_cons, List.map_map, total]
  rw [if_pos]
  · simp [sumOf, Function.comp_def]
  · simp

/-- A linear combination of any number of single wave functions with nonzero coefficients gives twice the sum of
coefficient times component.  Missing for C39: the factor should be one. -/
theorem C39_sum_partial (l : List (ℝ × V)) (hl : l ≠ []) (hz : ∀ e ∈ l, e.1 ≠ 0) (st : St V) :
    ∃ w st', load (.lc {} (terms l)) st = .val (w, st') ∧
      valueOf w st' = (false, [(2 : ℂ) • (l.map fun e => (e.1 : ℂ) • e.2).sum]) := by
  refine (C39_load_partial _ ?_ st _).1 ?_
  · refine ⟨by simp [coefficient], terms_all l fun e he => ?_⟩
    simpa [coefficient] using hz e he
  · rw [eval, evalTerms_terms, Option.bind_some, total_terms _ _ hl]
    simp [dress, normed, coefficient, phase, times]

/-- The same, normalised: the sum divided by its norm. -/
theorem C39_sum_normalized (l : List (ℝ × V)) (hz : ∀ e ∈ l, e.1 ≠ 0)
    (hs : (l.map fun e => (e.1 : ℂ) • e.2).sum ≠ 0) (st : St V) :
    ∃ w st', load (.lc { normalize := true } (terms l)) st = .val (w, st') ∧
      valueOf w st' = (false, [((‖(l.map fun e => (e.1 : ℂ) • e.2).sum‖⁻¹ : ℝ) : ℂ) •
        (l.map fun e => (e.1 : ℂ) • e.2).sum]) := by
  have hl : l ≠ [] := by rintro rfl; simp at hs
  refine (C39_normalized_partial _ ?_ ?_ st _).1 ?_
  · refine ⟨by simp [coefficient], terms_all l fun e he => ?_⟩
    simpa [coefficient] using hz e he
  · exact ⟨by simp, terms_all l fun e he => by simp⟩
  · rw [eval, evalTerms_terms, Option.bind_some, total_terms _ _ hl, one_smul, Option.bind_some]
    have hn : Spec.norm [(l.map fun e => (e.1 : ℂ) • e.2).sum] = ‖(l.map fun e => (e.1 : ℂ) • e.2).sum‖ := by
      simp [Spec.norm, Real.sqrt_sq]
    unfold dress normed
    simp only [if_true]
    rw [hn, if_neg (by simpa using hs)]
    simp [coefficient, phase, times]

/-- Linear combinations are doubled: a combination of the single function 1 with coefficient 1 is 2. -/
theorem C39_violated_twice (st : St ℂ) :
    eval 1 (.lc {} (terms [((1 : ℝ), (1 : ℂ))])) = some (false, [1]) ∧
    ∃ w st', load (.lc {} (terms [((1 : ℝ), (1 : ℂ))])) st = .val (w, st') ∧ valueOf w st' = (false, [2]) := by
  constructor
  · rw [eval, evalTerms_terms, Option.bind_some, total_terms _ _ (by simp)]
    simp [dress, normed, coefficient, phase, times]
  · have := C39_sum_partial [((1 : ℝ), (1 : ℂ))] (by simp) (by simp) st
    simpa using this

/-- The coefficient zero is ignored: the function is loaded as it is, for every function. -/
theorem C39_violated_zero (v : V) (st : St V) :
    eval 1 (.file { coeff := some 0 } false v []) = some (false, [0]) ∧
    ∃ w st', load (.file { coeff := some 0 } false v []) st = .val (w, st') ∧ valueOf w st' = (false, [v]) := by
  constructor
  · rw [eval]; simp [dress, normed, coefficient, phase, times]
  · obtain ⟨h, _⟩ := alloc_spec [v] st false
    refine ⟨_, _, by rw [load]; simp [finish, coeffValue, Res.bind, applyPhase, applyCoeff, register]; exact ⟨rfl, rfl⟩, ?_⟩
    rw [valueOf]
    have := h.value
    dsimp only at this ⊢
    rw [this]

/-- Two registered wave functions, one of them a sum; all hypotheses hold and the value exists. -/
example (st : St ℂ) : ∃ w st',
    load (.lc { normalize := true } (terms [((3 : ℝ), (1 : ℂ)), ((1 : ℝ), (1 : ℂ))])) st = .val (w, st') ∧
      valueOf w st' = (false, [1]) := by
  have h := C39_sum_normalized [((3 : ℝ), (1 : ℂ)), ((1 : ℝ), (1 : ℂ))] (by simp) (by norm_num) st
  have e : ((‖(([((3 : ℝ), (1 : ℂ)), ((1 : ℝ), (1 : ℂ))]).map fun e => (e.1 : ℂ) • e.2).sum‖⁻¹ : ℝ) : ℂ) •
        (([((3 : ℝ), (1 : ℂ)), ((1 : ℝ), (1 : ℂ))]).map fun e => (e.1 : ℂ) • e.2).sum = 1 := by
    simp only [List.map_cons, List.map_nil, List.sum_cons, List.sum_nil, smul_eq_mul, mul_one, add_zero]
    have : (((3 : ℝ) : ℂ) + ((1 : ℝ) : ℂ)) = 4 := by norm_num
    rw [this]
    norm_num
  rw [e] at h
  exact h

/-! ## C40 -/

omit [NormedAddCommGroup V] [NormedSpace ℂ V] in
theorem noZero_map (map : List Int) (coeffs : Option (List ℝ)) {input : Node V} (hz : NoZero input) :
    NoZero (.multimap {} map coeffs input) := by
  show _ ∧ _
  exact ⟨by simp [coefficient], hz⟩

omit [NormedSpace ℂ V] in
theorem arrange_at (l : List (Int × V)) (hn : (l.map (·.1)).Nodup) (hp : ∀ e ∈ l, 0 ≤ e.1) {e : Int × V} (he : e ∈ l) :
    (arrange l 0)[e.1.toNat]? = some e.2 := by
  have h1 := le_places he
  have h0 := hp e he
  rw [arrange, List.getElem?_map, List.getElem?_range (by omega)]
  simp only [Option.map_some, Option.some.injEq]
  cases hl : lastAt l e.1.toNat with
  | none => exact absurd (by omega) (lastAt_none hl he)
  | some a =>
    have hm := lastAt_mem hl
    have h2 : ((e.1.toNat : Int)) = e.1 := by omega
    rw [h2] at hm
    have := List.inj_on_of_nodup_map hn hm he rfl
    rw [← this]
    rfl

omit [NormedSpace ℂ V] in
theorem arrange_else (l : List (Int × V)) (i : Nat) (hi : ∀ e ∈ l, e.1 ≠ (i : Int)) (h : i < (arrange l 0).length) :
    (arrange l 0)[i]? = some 0 := by
  rw [arrange, List.length_map, List.length_range] at h
  rw [arrange, List.getElem?_map, List.getElem?_range h]
  cases hl : lastAt l i with
  | none => simp [hl]
  | some a => exact absurd rfl (hi _ (lastAt_mem hl))

/-- A map with at least two different entries, not more than there are states, and coefficients for all of them: input
state `i` times its coefficient is found at place `map[i]`, all other places are zero.  Missing for C40: maps with a
single entry, which select instead, and states from number 63 on. -/
theorem C40_places_partial (map : List Int) (coeffs : Option (List ℝ)) (input : Node V) (hz : NoZero input) (st : St V)
    (ins : List V) (hin : eval 2 input = some (true, ins)) (h2 : 2 ≤ map.length) (hlen : map.length ≤ ins.length)
    (hd : map.Nodup) (hv : ∀ t ∈ map, 0 ≤ t ∧ t < ins.length ∧ t < 63)
    (hc : ∀ l, coeffs = some l → map.length ≤ l.length) :
    ∃ w st' out, load (.multimap {} map coeffs input) st = .val (w, st') ∧ valueOf w st' = (true, out) ∧
      (∀ (i : Nat) (t : Int), map[i]? = some t → ∃ c x, ins[i]? = some x ∧
        (match coeffs with | none => c = 1 | some l => l[i]? = some c) ∧ out[t.toNat]? = some ((c : ℂ) • x)) ∧
      (∀ p, p < out.length → (p : Int) ∉ map → out[p]? = some 0) := by
  obtain ⟨l, hl⟩ : ∃ l, l = map.zipIdx.map fun (t, i) => (t, ((mapCoeff coeffs i : ℝ) : ℂ) • ins.getD i 0) := ⟨_, rfl⟩
  have hl1 : l.map (·.1) = map := by
    rw [hl, List.map_map]
    apply List.ext_getElem
    · simp
    · intro i _ _; simp
  have hev : eval 2 (.multimap {} map coeffs input) = some (true, arrange l 0) := by
    rw [eval, hin, Option.bind_some]
    have hrm : remap map coeffs (true, ins) = some (true, arrange l 0) := by
      unfold remap
      rw [if_neg]
      · match map, h2, hv, hl with
        | t :: t' :: ts, _, hv, hl =>
          simp only
          rw [if_neg, hl]
          rintro ⟨x, hx, h63⟩
          have := (hv x hx).2.2
          omega
      · rintro (h | h | ⟨t, ht, h⟩)
        · simp at h
        · dsimp only at h; omega
        · have := hv t ht; dsimp only at h; omega
    rw [hrm]
    simp [dress, normed, coefficient, phase, times]
  obtain ⟨w, st', e, hval⟩ := (C39_load_partial _ (noZero_map _ _ hz) st _).1 hev
  refine ⟨w, st', arrange l 0, e, hval, ?_, ?_⟩
  · intro i t hi
    obtain ⟨hil, rfl⟩ := List.getElem?_eq_some_iff.1 hi
    have hii : i < ins.length := by omega
    have hmem : (map[i], ((mapCoeff coeffs i : ℝ) : ℂ) • ins.getD i 0) ∈ l := by
      rw [hl]
      refine List.mem_map.2 ⟨(map[i], i), ?_, rfl⟩
      rw [List.mem_zipIdx_iff_getElem?]
      exact hi
    have := arrange_at l (by rw [hl1]; exact hd) (fun e he => by
      have : e.1 ∈ map := by rw [← hl1]; exact List.mem_map.2 ⟨e, he, rfl⟩
      exact (hv _ this).1) hmem
    refine ⟨mapCoeff coeffs i, ins[i], List.getElem?_eq_getElem hii, ?_, ?_⟩
    · cases coeffs with
      | none => rfl
      | some cl =>
        have := hc cl rfl
        simp only [mapCoeff]
        rw [List.getD_eq_getElem _ _ (by omega)]
        exact List.getElem?_eq_getElem (by omega)
    · rw [List.getD_eq_getElem _ _ hii] at this
      exact this
  · intro p hp hpm
    refine arrange_else l p (fun e he => ?_) hp
    have : e.1 ∈ map := by rw [← hl1]; exact List.mem_map.2 ⟨e, he, rfl⟩
    rintro h
    exact hpm (h ▸ this)

theorem mapLoop_threw (ins : List Nat) (cs : List ℝ) (ts : List Int) :
    ∀ (i : Nat) (m : Multi.MultiWF Nat) (st : St V),
    (∃ t ∈ ts, t < 0 ∨ (ins.length : Int) ≤ t) → mapLoop ins cs i ts m st = .threw := by
  induction ts with
  | nil => intro i m st h; simp at h
  | cons t ts ih =>
    intro i m st h
    rw [mapLoop]
    split_ifs with h1
    · rfl
    · have h' : ∃ t ∈ ts, t < 0 ∨ (ins.length : Int) ≤ t := by
        obtain ⟨t', ht', hb⟩ := h
        rcases List.mem_cons.1 ht' with rfl | ht'
        · omega
        · exact ⟨t', ht', hb⟩
      have ha : ∃ r, addState m ⟨false, [ins.getD i 0]⟩ t = r ∧ (r = .threw ∨ ∃ m', r = .val m') := by
        refine ⟨_, rfl, ?_⟩
        unfold addState Multi.MultiWF.add
        by_cases h2 : t + 1 ≥ Multi.maxStates
        · rw [if_pos h2]; exact Or.inl rfl
        · rw [if_neg h2, if_neg (by omega)]; exact Or.inr ⟨_, by simp; rfl⟩
      obtain ⟨r, e, hr⟩ := ha
      rw [e]
      rcases hr with rfl | ⟨m', rfl⟩
      · rfl
      · simp only [Res.bind]
        cases cs[i]? with
        | none => exact ih _ _ _ h'
        | some c => exact ih _ _ _ h'

/-- A map longer than the number of input states, an input that is not a multistate wave function, and a map with an index
that is not one of the input states are rejected. -/
theorem C40_rejects (a : Attr) (map : List Int) (coeffs : Option (List ℝ)) (input : Node V) (hz : NoZero input)
    (st : St V) (v : Value V) (hin : eval 2 input = some v)
    (hbad : v.1 = false ∨ v.2.length < map.length ∨ ∃ t ∈ map, t < 0 ∨ (v.2.length : Int) ≤ t) :
    load (.multimap a map coeffs input) st = .threw := by
  obtain ⟨_, w, s1, e1, h1, _⟩ := (load_spec input hz st).1 v hin
  have hwl := h1.length
  rw [load, e1]
  simp only [Res.bind]
  have hm : multimap map coeffs w s1 = .threw := by
    unfold multimap
    by_cases hw : w.multi = true
    · rw [if_neg (by simp [hw])]
      by_cases hl : map.length > w.cells.length
      · rw [if_pos hl]
      · rw [if_neg hl]
        have hb : ∃ t ∈ map, t < 0 ∨ (w.cells.length : Int) ≤ t := by
          rcases hbad with hb | hb | hb
          · rw [h1.multi, hb] at hw; simp at hw
          · omega
          · rw [hwl]; exact hb
        by_cases h2 : map.length > 1
        · rw [if_pos h2, mapLoop_threw _ _ _ _ _ _ hb]; rfl
        · rw [if_neg h2]
          match map, hb, h2 with
          | [], hb, _ => simp at hb
          | [t], hb, _ =>
            have h4 : t ≥ (w.cells.length : Int) ∨ t < 0 := by
              obtain ⟨x, hx, hx'⟩ := hb
              simp only [List.mem_singleton] at hx
              subst hx
              omega
            cases hcc : coeffs.getD (List.replicate ([t] : List Int).length 1) with
            | nil => rw [pickOne, if_pos h4]
            | cons c l => rw [pickOne, if_pos h4]
          | t :: t' :: ts, _, h2 => simp at h2
    · rw [if_pos (by simpa using hw)]
  rw [hm]

/-- Without a map the behaviour is undefined, for every multistate input. -/
theorem C40_violated_no_map (a : Attr) (coeffs : Option (List ℝ)) (input : Node V) (hz : NoZero input) (st : St V)
    (ins : List V) (hin : eval 2 input = some (true, ins)) :
    load (.multimap a [] coeffs input) st = .ub := by
  obtain ⟨_, w, s1, e1, h1, _⟩ := (load_spec input hz st).1 _ hin
  rw [load, e1]
  simp only [Res.bind]
  have hw : w.multi = true := h1.multi
  rw [multimap, if_neg (by simp [hw])]
  simp [pickOne]

/-- A multistate wave function read from a file. -/
def given (a : Attr) (v : V) (vs : List V) : Node V := .file a true v vs

theorem eval_given (k : ℂ) (v : V) (vs : List V) : eval k (given {} v vs) = some (true, v :: vs) := by
  rw [given, eval]; simp [dress, normed, coefficient, phase, times]

omit [NormedAddCommGroup V] [NormedSpace ℂ V] in
theorem noZero_given (v : V) (vs : List V) : NoZero (given {} v vs) := by
  simp [NoZero, given, All, coefficient]

/-- A map with a single entry does not place input state 0 but selects: with the map "1" the result is input state 1. -/
theorem C40_violated_single (st : St ℂ) : ∃ w st',
    load (.multimap {} [1] none (given {} 5 [7])) st = .val (w, st') ∧ valueOf w st' = (false, [7]) := by
  refine (C39_load_partial _ (noZero_map _ _ (noZero_given _ _)) st _).1 ?_
  rw [eval, eval_given, Option.bind_some]
  simp [remap, mapCoeff, dress, normed, coefficient, phase, times]

/-- A state without a coefficient is not taken as it is but becomes zero. -/
theorem C40_violated_missing (st : St ℂ) : ∃ w st',
    load (.multimap {} [0, 1] (some [3]) (given {} 5 [7])) st = .val (w, st') ∧ valueOf w st' = (true, [15, 0]) := by
  refine (C39_load_partial _ (noZero_map _ _ (noZero_given _ _)) st _).1 ?_
  rw [eval, eval_given, Option.bind_some]
  have h1 : remap [0, 1] (some [3]) (true, [(5 : ℂ), 7]) = some (true, [15, 0]) := by
    unfold remap
    rw [if_neg (by simp)]
    simp only
    rw [if_neg (by simp)]
    norm_num [arrange, places, lastAt, mapCoeff, List.range_succ]
  rw [h1]
  simp [dress, normed, coefficient, phase, times]

/-- The remapped wave function shares the states of its input: an input that is also registered under a key is scaled
along with it. -/
theorem C40_violated_shared : ∃ (w : Wf) (st' : St ℂ) (u : Wf),
    load (.multimap {} [0, 1] (some [3, 1]) (given { key := ['k'] } 5 [7])) ⟨fun _ => 0, 0, []⟩ = .val (w, st') ∧
      st'.reg = [(['k'], u)] ∧ valueOf u st' = (true, [15, 7]) := by
  obtain ⟨r, hr⟩ : ∃ r, load (.multimap {} [0, 1] (some [3, 1]) (given { key := ['k'] } (5 : ℂ) [7]))
    ⟨fun _ => 0, 0, []⟩ = r := ⟨_, rfl⟩
  have hr' := hr
  rw [load, given, load] at hr'
  simp [St.alloc, finish, coeffValue, Res.bind, applyPhase, applyCoeff, register, multimap, mapLoop, addState,
    Multi.MultiWF.add, Multi.MultiWF.new, Multi.maxStates, initMulti, List.replicate, St.scale, St.set,
    fillCells] at hr'
  subst hr'
  refine ⟨_, _, ⟨true, [0, 1]⟩, hr, rfl, ?_⟩
  norm_num [valueOf]

/-- Three states, a map that moves two of them: all hypotheses of `C40_places_partial` hold. -/
example (st : St ℂ) : ∃ w st' out, load (.multimap {} [2, 0] (some [3, 4]) (given {} 5 [7, 9])) st = .val (w, st') ∧
    valueOf w st' = (true, out) ∧ out[2]? = some 15 ∧ out[0]? = some 28 := by
  obtain ⟨w, st', out, e, hv, h, _⟩ := C40_places_partial [2, 0] (some [3, 4]) (given {} (5 : ℂ) [7, 9])
    (noZero_given _ _) st [5, 7, 9] (eval_given _ _ _) (by simp) (by simp) (by decide) (by simp) (by simp)
  refine ⟨w, st', out, e, hv, ?_, ?_⟩
  · obtain ⟨c, x, hx, hc, ho⟩ := h 0 2 rfl
    simp at hx hc
    subst hx hc
    rw [show (2 : Int).toNat = 2 from rfl] at ho
    rw [ho]; norm_num
  · obtain ⟨c, x, hx, hc, ho⟩ := h 1 0 rfl
    simp at hx hc
    subst hx hc
    rw [show (0 : Int).toNat = 0 from rfl] at ho
    rw [ho]; norm_num

/-- A map that is too long, and a negative index. -/
example (st : St ℂ) : load (.multimap {} [0, 1, 1] none (given {} 5 [7])) st = .threw ∧
    load (.multimap {} [0, -1] none (given {} 5 [7])) st = .threw :=
  ⟨C40_rejects _ _ _ _ (noZero_given _ _) _ _ (eval_given _ _ _) (by simp),
   C40_rejects _ _ _ _ (noZero_given _ _) _ _ (eval_given _ _ _) (by simp)⟩

/-! ## C83: the map as documented: output state `i` is coefficient `i` times input state `map[i]` -/

/-- A single entry picks that state, times the coefficient. -/
theorem C83_single (t : Nat) (coeffs : Option (List ℝ)) (input : Node V) (hz : NoZero input) (st : St V)
    (ins : List V) (hin : eval 2 input = some (true, ins)) (x : V) (ht : ins[t]? = some x) (c : ℝ)
    (hc : match coeffs with | none => c = 1 | some l => l[0]? = some c) :
    ∃ w st', load (.multimap {} [(t : Int)] coeffs input) st = .val (w, st') ∧ valueOf w st' = (false, [(c : ℂ) • x]) := by
  refine (C39_load_partial _ (noZero_map _ _ hz) st _).1 ?_
  obtain ⟨htl, rfl⟩ := List.getElem?_eq_some_iff.1 ht
  rw [eval, hin, Option.bind_some]
  have h1 : remap [(t : Int)] coeffs (true, ins) = some (false, [(c : ℂ) • ins[t]]) := by
    unfold remap
    rw [if_neg]
    · simp only [Int.toNat_natCast]
      rw [if_neg]
      · rw [List.getD_eq_getElem _ _ htl]
        cases coeffs with
        | none => simp only at hc; subst hc; rfl
        | some l =>
          cases l with
          | nil => simp at hc
          | cons d l => simp at hc; subst hc; rfl
      · rintro rfl
        simp at hc
    · rintro (h | h | ⟨y, hy, h⟩)
      · simp at h
      · simp only [List.length_singleton] at h; omega
      · simp only [List.mem_singleton] at hy; subst hy; dsimp only at h; omega
  rw [h1]
  simp [dress, normed, coefficient, phase, times]

/-- For a map of all states that is its own inverse (swapping states, for instance) without coefficients output state
`i` is input state `map[i]`.  Missing for C83: all other maps with more than one entry. -/
theorem C83_involution_partial (map : List Int) (input : Node V) (hz : NoZero input) (st : St V)
    (ins : List V) (hin : eval 2 input = some (true, ins)) (h2 : 2 ≤ map.length) (hlen : map.length = ins.length)
    (h63 : ins.length ≤ 63)
    (hinv : ∀ (i : Nat) (t : Int), map[i]? = some t → 0 ≤ t ∧ map[t.toNat]? = some (i : Int)) :
    ∃ w st' out, load (.multimap {} map none input) st = .val (w, st') ∧ valueOf w st' = (true, out) ∧
      ∀ (i : Nat) (t : Int), map[i]? = some t → out[i]? = ins[t.toNat]? := by
  have hlt : ∀ (i : Nat) (t : Int), map[i]? = some t → t.toNat < map.length := by
    intro i t h
    obtain ⟨hl, _⟩ := List.getElem?_eq_some_iff.1 (hinv i t h).2
    exact hl
  have hd : map.Nodup := by
    rw [List.nodup_iff_injective_get]
    intro a b hab
    simp only [List.get_eq_getElem] at hab
    have ha := (hinv a _ (List.getElem?_eq_getElem a.2)).2
    have hb := (hinv b _ (List.getElem?_eq_getElem b.2)).2
    rw [hab, hb] at ha
    simp only [Option.some.injEq, Nat.cast_inj] at ha
    exact Fin.ext ha.symm
  obtain ⟨w, st', out, e, hv, h, _⟩ := C40_places_partial map none input hz st ins hin h2 hlen.le hd
    (fun t ht => by
      obtain ⟨i, hi, rfl⟩ := List.getElem_of_mem ht
      have h1 := hinv i _ (List.getElem?_eq_getElem hi)
      have h3 := hlt i _ (List.getElem?_eq_getElem hi)
      omega) (by simp)
  refine ⟨w, st', out, e, hv, fun i t hi => ?_⟩
  obtain ⟨c, x, hx, hc, ho⟩ := h _ _ (hinv i t hi).2
  simp only at hc
  subst hc
  rw [Int.toNat_natCast] at ho
  rw [ho, hx]
  simp

/-- The example of the handbook: the map 3,0,1 with coefficients c₀, c₁, c₂ should give c₀ Ψ₃, c₁ Ψ₀, c₂ Ψ₁.  The result
is c₁ Ψ₁, c₂ Ψ₂, 0, c₀ Ψ₀. -/
theorem C83_violated_handbook (p0 p1 p2 p3 : V) (c0 c1 c2 : ℝ) (st : St V) : ∃ w st',
    load (.multimap {} [3, 0, 1] (some [c0, c1, c2]) (given {} p0 [p1, p2, p3])) st = .val (w, st') ∧
      valueOf w st' = (true, [(c1 : ℂ) • p1, (c2 : ℂ) • p2, 0, (c0 : ℂ) • p0]) := by
  refine (C39_load_partial _ (noZero_map _ _ (noZero_given _ _)) st _).1 ?_
  rw [eval, eval_given, Option.bind_some]
  have h1 : remap [3, 0, 1] (some [c0, c1, c2]) (true, [p0, p1, p2, p3]) =
      some (true, [(c1 : ℂ) • p1, (c2 : ℂ) • p2, 0, (c0 : ℂ) • p0]) := by
    unfold remap
    rw [if_neg (by simp)]
    simp only
    rw [if_neg (by simp)]
    simp [arrange, places, lastAt, mapCoeff, List.range_succ]
  rw [h1]
  simp [dress, normed, coefficient, phase, times]

/-- Swapping two of three states meets the hypotheses of `C83_involution_partial`. -/
example (st : St ℂ) : ∃ w st' out, load (.multimap {} [2, 1, 0] none (given {} 5 [7, 9])) st = .val (w, st') ∧
    valueOf w st' = (true, out) ∧ out[0]? = some 9 := by
  obtain ⟨w, st', out, e, hv, h⟩ := C83_involution_partial [2, 1, 0] (given {} (5 : ℂ) [7, 9])
    (noZero_given _ _) st [5, 7, 9] (eval_given _ _ _) (by simp) (by simp) (by simp) (by
      intro i t h
      match i, h with
      | 0, h => simp at h; subst h; simp
      | 1, h => simp at h; subst h; simp
      | 2, h => simp at h; subst h; simp
      | i + 3, h => simp at h)
  exact ⟨w, st', out, e, hv, by rw [h 0 2 rfl]; rfl⟩

end QDng.Chain
