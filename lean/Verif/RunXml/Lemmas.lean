import Verif.RunXml.Spec
import Verif.Params.Lemmas
import Mathlib.Data.List.Basic

namespace QDng.RunXml

open QDng.Common QDng.Params

theorem skip_elements : ∀ l : List Xml, Spec.elements (skip l) = Spec.elements l := by
  intro l
  induction l with
  | nil => rfl
  | cons x r ih =>
    cases x with
    | elem n a c => rfl
    | other => exact ih

theorem skip_form : ∀ l : List Xml, skip l = [] ∨ ∃ n a c r, skip l = Xml.elem n a c :: r := by
  intro l
  induction l with
  | nil => exact Or.inl rfl
  | cons x r ih =>
    cases x with
    | elem n a c => exact Or.inr ⟨n, a, c, r, rfl⟩
    | other => exact ih

open Spec (result)

theorem exec_append (E : Env) : ∀ (a b : List Spec.Item) (done : List Call),
    Spec.exec E (a ++ b) done = if (Spec.exec E a done).2 then Spec.exec E b (Spec.exec E a done).1 else Spec.exec E a done := by
  intro a
  induction a with
  | nil => intro b done; rfl
  | cons x r ih =>
    intro b done
    cases x with
    | reject => rfl
    | call c =>
      simp only [List.cons_append, Spec.exec]
      by_cases h : E done c
      · simp only [h, if_true]; exact ih b _
      · simp only [h]; rfl

theorem call_bind (E : Env) (c : Call) (gp : Container) (done : List Call) (items : List Spec.Item) (f : State → Out State)
    (h : ∀ d, f { gp := gp, calls := d } = result gp (Spec.exec E items d)) :
    (call E c { gp := gp, calls := done }).bind f = result gp (Spec.exec E (.call c :: items) done) := by
  unfold call Spec.exec
  by_cases hE : E done c
  · simp only [hE, if_true]; exact h _
  · simp only [hE]; rfl

theorem elements_other (r : List Xml) : Spec.elements (.other :: r) = Spec.elements r := rfl

theorem elements_elem (n : Str) (a : List (Str × Str)) (c r : List Xml) :
    Spec.elements (.elem n a c :: r) = .elem n a c :: Spec.elements r := rfl

theorem opdefsLoop_eq (E : Env) (gp : Container) : ∀ (l : List Xml) (done : List Call),
    opdefsLoop E l { gp := gp, calls := done } = result gp (Spec.exec E ((Spec.elements l).map Spec.opItem) done) := by
  intro l
  induction l with
  | nil => intro done; rfl
  | cons x r ih =>
    intro done
    cases x with
    | other => exact ih done
    | elem n a c =>
      rw [elements_elem, List.map_cons]
      unfold opdefsLoop
      by_cases h1 : n = "udef".toList
      · rw [if_pos h1, show Spec.opItem (.elem n a c) = .call (.loadU (.elem n a c)) from if_pos h1]
        exact call_bind E _ gp done _ _ ih
      · rw [if_neg h1]
        by_cases h2 : n = "opdef".toList
        · rw [if_pos h2, show Spec.opItem (.elem n a c) = .call (.loadO (.elem n a c)) from (if_neg h1).trans (if_pos h2)]
          exact call_bind E _ gp done _ _ ih
        · rw [if_neg h2, show Spec.opItem (.elem n a c) = .reject from (if_neg h1).trans (if_neg h2)]
          rfl

theorem wfdefsLoop_eq (E : Env) (gp : Container) : ∀ (l : List Xml) (done : List Call),
    wfdefsLoop E l { gp := gp, calls := done } = result gp (Spec.exec E ((Spec.elements l).map Spec.wfItem) done) := by
  intro l
  induction l with
  | nil => intro done; rfl
  | cons x r ih =>
    intro done
    cases x with
    | other => exact ih done
    | elem n a c =>
      rw [elements_elem, List.map_cons]
      unfold wfdefsLoop
      by_cases h1 : n = "wfdef".toList
      · rw [if_pos h1, show Spec.wfItem (.elem n a c) = .call (.loadW (.elem n a c)) from if_pos h1]
        exact call_bind E _ gp done _ _ ih
      · rw [if_neg h1, show Spec.wfItem (.elem n a c) = .reject from if_neg h1]
        rfl

theorem progOf_eq (n : Str) : Spec.progNames.lookup n = progOf n := by
  unfold Spec.progNames progOf
  simp only [List.lookup]
  by_cases h1 : n = "propa".toList
  · subst h1; rfl
  by_cases h2 : n = "filter".toList
  · subst h2; rfl
  by_cases h3 : n = "eigen".toList
  · subst h3; rfl
  by_cases h4 : n = "oct".toList
  · subst h4; rfl
  by_cases h5 : n = "cfunc".toList
  · subst h5; rfl
  rw [if_neg h1, if_neg h2, if_neg h3, if_neg h4, if_neg h5]
  rw [beq_eq_false_iff_ne.2 h1, beq_eq_false_iff_ne.2 h2, beq_eq_false_iff_ne.2 h3, beq_eq_false_iff_ne.2 h4, beq_eq_false_iff_ne.2 h5]

theorem progLoop_eq (E : Env) (dir : Str) (gp : Container) : ∀ (l : List Xml) (done : List Call),
    progLoop E dir l { gp := gp, calls := done } = result gp (Spec.exec E ((Spec.elements l).map (Spec.progItem dir)) done) := by
  intro l
  induction l with
  | nil => intro done; rfl
  | cons x r ih =>
    intro done
    cases x with
    | other => exact ih done
    | elem n a c =>
      rw [elements_elem, List.map_cons]
      simp only [progLoop, Spec.progItem, Spec.tag, progOf_eq]
      cases progOf n with
      | none => rfl
      | some p => exact call_bind E _ gp done _ _ ih

theorem nextNode_elements (n : Str) (a : List (Str × Str)) (c r : List Xml) :
    Spec.elements (nextNode (.elem n a c :: r)) = Spec.elements r := skip_elements r

/-- A definition part in terms of its items. -/
def afterPart (gp : Container) (cur cur' : List Xml) : List Call × Bool → Out (List Xml × State)
  | (cs, true) => .ok (cur', { gp := gp, calls := cs })
  | (cs, false) => .threw (cur, { gp := gp, calls := cs })

theorem defs_aux (gp : Container) (cur cur' : List Xml) (p : List Call × Bool) :
    (match result gp p with
      | .ok st' => Out.ok (cur', st')
      | .threw st' => Out.threw (cur, st')
      | .ub => Out.ub) = afterPart gp cur cur' p := by
  obtain ⟨cs, b⟩ := p
  cases b <;> rfl

theorem opdefsPart_elem (E : Env) (gp : Container) (n : Str) (a : List (Str × Str)) (c r : List Xml) (done : List Call) :
    opdefsPart E (.elem n a c :: r) { gp := gp, calls := done } =
      if n = "opdefs".toList then
        afterPart gp (.elem n a c :: r) (nextNode (.elem n a c :: r)) (Spec.exec E ((Spec.elements c).map Spec.opItem) done)
      else .ok (.elem n a c :: r, { gp := gp, calls := done }) := by
  unfold opdefsPart
  simp only [nameOf]
  by_cases h : n = "opdefs".toList
  · rw [if_pos h, if_pos h]
    cases c with
    | nil => rfl
    | cons d ds =>
      simp only [nextChild]
      rw [opdefsLoop_eq, skip_elements]
      exact defs_aux gp _ _ _
  · rw [if_neg h, if_neg h]

theorem wfdefsPart_elem (E : Env) (gp : Container) (n : Str) (a : List (Str × Str)) (c r : List Xml) (done : List Call) :
    wfdefsPart E (.elem n a c :: r) { gp := gp, calls := done } =
      if n = "wfdefs".toList then
        afterPart gp (.elem n a c :: r) (nextNode (.elem n a c :: r)) (Spec.exec E ((Spec.elements c).map Spec.wfItem) done)
      else .ok (.elem n a c :: r, { gp := gp, calls := done }) := by
  unfold wfdefsPart
  simp only [nameOf]
  by_cases h : n = "wfdefs".toList
  · rw [if_pos h, if_pos h]
    cases c with
    | nil => rfl
    | cons d ds =>
      simp only [nextChild]
      rw [wfdefsLoop_eq, skip_elements]
      exact defs_aux gp _ _ _
  · rw [if_neg h, if_neg h]

/-- Behind the operator definitions. -/
def tailPart (E : Env) (dir : Str) (cur : List Xml) (st : State) : Out State :=
  match wfdefsPart E cur st with
  | .ub => .ub
  | .threw (_, st) => .threw st
  | .ok (cur, st) => progLoop E dir cur st

theorem tailPart_eq (E : Env) (dir : Str) (gp : Container) (cur : List Xml) (done : List Call)
    (h : cur = [] ∨ ∃ n a c r, cur = Xml.elem n a c :: r) :
    tailPart E dir cur { gp := gp, calls := done } = result gp (Spec.exec E (Spec.planWf dir (Spec.elements cur)) done) := by
  rcases h with h | ⟨n, a, c, r, h⟩
  · subst h; rfl
  · subst h
    unfold tailPart
    rw [wfdefsPart_elem, elements_elem]
    by_cases hn : n = "wfdefs".toList
    · rw [if_pos hn, show Spec.planWf dir (.elem n a c :: Spec.elements r) = (Spec.elements c).map Spec.wfItem ++
        (Spec.elements r).map (Spec.progItem dir) from if_pos hn, exec_append]
      cases hx : Spec.exec E (List.map Spec.wfItem (Spec.elements c)) done with
      | mk cs b =>
        cases b with
        | false => rfl
        | true =>
          simp only [afterPart, if_true]
          rw [progLoop_eq, nextNode_elements]
    · rw [if_neg hn, show Spec.planWf dir (.elem n a c :: Spec.elements r) =
        (Xml.elem n a c :: Spec.elements r).map (Spec.progItem dir) from if_neg hn, ← elements_elem]
      exact progLoop_eq E dir gp _ done

theorem parts_eq (E : Env) (dir : Str) (gp : Container) (n : Str) (a : List (Str × Str)) (c r : List Xml) (done : List Call) :
    (match opdefsPart E (.elem n a c :: r) { gp := gp, calls := done } with
      | .ub => .ub
      | .threw (_, st) => .threw st
      | .ok (cur, st) => tailPart E dir cur st) =
      result gp (Spec.exec E (Spec.plan dir (Spec.elements (.elem n a c :: r))) done) := by
  rw [opdefsPart_elem, elements_elem]
  by_cases hn : n = "opdefs".toList
  · rw [if_pos hn, show Spec.plan dir (.elem n a c :: Spec.elements r) = (Spec.elements c).map Spec.opItem ++
      Spec.planWf dir (Spec.elements r) from if_pos hn, exec_append]
    cases hx : Spec.exec E (List.map Spec.opItem (Spec.elements c)) done with
    | mk cs b =>
      cases b with
      | false => rfl
      | true =>
        simp only [afterPart, if_true]
        rw [tailPart_eq E dir gp (nextNode (.elem n a c :: r)) cs (skip_form r), nextNode_elements]
  · rw [if_neg hn, show Spec.plan dir (.elem n a c :: Spec.elements r) =
      Spec.planWf dir (Xml.elem n a c :: Spec.elements r) from if_neg hn, ← elements_elem]
    exact tailPart_eq E dir gp _ done (Or.inr ⟨n, a, c, r, rfl⟩)

/-! ### Parameters -/

theorem attributes_sorted (n : Str) (attrs : List (Str × Str)) (c r : List Xml) :
    OMap.Sorted (attributes (.elem n attrs c :: r)).params := by
  unfold attributes
  suffices H : ∀ (l : List (Str × Str)) (d : Container), OMap.Sorted d.params →
      OMap.Sorted (l.foldl (fun c p => c.setValue p.1 p.2 .undef) d).params from H attrs _ OMap.sorted_nil
  intro l
  induction l with
  | nil => intro d h; exact h
  | cons p r ih => intro d h; exact ih _ (OMap.sorted_insert h)

theorem foldl_find (k : Str) : ∀ (l : List (Str × Str)) (d : Container), (l.map Prod.fst).Nodup →
    OMap.find k (l.foldl (fun c p => c.setValue p.1 p.2 .undef) d).params = ((l.lookup k).or (OMap.find k d.params)) := by
  intro l
  induction l with
  | nil => intro d _; rfl
  | cons p r ih =>
    intro d hn
    obtain ⟨q, v⟩ := p
    rw [List.map_cons, List.nodup_cons] at hn
    rw [List.foldl_cons, ih _ hn.2]
    simp only [Container.setValue]
    rw [OMap.find_insert]
    by_cases h : k = q
    · subst h
      have h0 : List.lookup k r = none := by
        rw [List.lookup_eq_none_iff]
        intro p hp
        rw [bne_iff_ne]
        intro e
        exact hn.1 (List.mem_map.2 ⟨p, hp, e.symm⟩)
      rw [h0, List.lookup_cons_self]
      simp
    · rw [if_neg h, List.lookup_cons]
      rw [beq_eq_false_iff_ne.2 h]

theorem attributes_find (k n : Str) (attrs : List (Str × Str)) (c r : List Xml) (h : (attrs.map Prod.fst).Nodup) :
    OMap.find k (attributes (.elem n attrs c :: r)).params = attrs.lookup k := by
  unfold attributes
  rw [foldl_find k attrs _ h]
  simp [Container.empty, OMap.find]

theorem merge_find (k n : Str) (gp : Container) (attrs : List (Str × Str)) (c r : List Xml) (h : (attrs.map Prod.fst).Nodup) :
    OMap.find k (gp.merge (attributes (.elem n attrs c :: r))).params = ((attrs.lookup k).or (OMap.find k gp.params)) := by
  unfold Container.merge
  simp only
  rw [find_mergeLoop (attributes_sorted n attrs c r), attributes_find k n attrs c r h]

theorem withSlash_eq (d : Str) : withSlash d = if d = [] then none else some (Spec.slashed d) := by
  unfold withSlash Spec.slashed
  by_cases h : d = []
  · subst h; rfl
  · rw [if_neg (by simpa using h), if_neg h]
    split <;> rfl

theorem directory_eq (cmdline : Str) (gp : Container) (file before : Option Str)
    (h : OMap.find "dir".toList gp.params = (file.or before)) (hd : Spec.chosen cmdline file before ≠ some []) :
    ∃ gp', directory cmdline gp = some ((Spec.chosen cmdline file before).elim [] Spec.slashed, gp') ∧
      OMap.find "dir".toList gp'.params = (Spec.chosen cmdline file before).map Spec.slashed ∧
      ∀ k, k ≠ "dir".toList → OMap.find k gp'.params = OMap.find k gp.params := by
  unfold directory
  by_cases hc : cmdline = []
  · subst hc
    rw [if_pos rfl]
    have hch : Spec.chosen [] file before = (file.or before) := by
      unfold Spec.chosen
      cases file <;> simp
    rw [hch] at hd ⊢
    simp only [Container.isPresent, Container.getString, h]
    cases hx : (file.or before) with
    | none =>
      refine ⟨gp, rfl, ?_, fun _ _ => rfl⟩
      rw [h, hx]; rfl
    | some d =>
      rw [hx] at hd
      have hd' : d ≠ [] := fun e => hd (by rw [e])
      simp only [Option.isSome_some, if_true, withSlash_eq, if_neg hd']
      refine ⟨_, rfl, ?_, ?_⟩
      · simp [Container.setValue, OMap.find_insert]
      · intro k hk; simp only [Container.setValue, OMap.find_insert]; rw [if_neg hk]
  · rw [if_neg hc]
    have hch : Spec.chosen cmdline file before = some cmdline := by unfold Spec.chosen; rw [if_pos hc]
    rw [hch]
    have hp : (gp.setValue "dir".toList cmdline .undef).isPresent "dir".toList = true := by
      simp [Container.isPresent, Container.setValue, OMap.find_insert]
    have hg : (gp.setValue "dir".toList cmdline .undef).getString "dir".toList = (true, cmdline) := by
      simp [Container.getString, Container.setValue, OMap.find_insert]
    simp only [hp, hg, if_true, withSlash_eq, if_neg hc]
    refine ⟨_, rfl, ?_, ?_⟩
    · simp [Container.setValue, OMap.find_insert]
    · intro k hk; simp only [Container.setValue, OMap.find_insert]; rw [if_neg hk, if_neg hk]

end QDng.RunXml
