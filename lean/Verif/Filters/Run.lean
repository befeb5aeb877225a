import Verif.Filters.Lemmas
import Mathlib.Data.List.GetD

/-
Calls of a filter list.
-/

namespace QDng.Filters

open QDng QDng.Common

variable {V : Type}

/-- What a call does not change. -/
structure Keep (l l' : FList V) : Prop where
  size : l'.size = l.size
  renorm : l'.renorm = l.renorm
  inited : l'.inited = l.inited
  writefile : l'.writefile = l.writefile
  match_ : ∀ n i, Match i (l.slots n) → Match i (l'.slots n)

theorem Keep.refl (l : FList V) : Keep l l := ⟨rfl, rfl, rfl, rfl, fun _ _ h => h⟩

theorem Keep.trans {a b c : FList V} (h : Keep a b) (g : Keep b c) : Keep a c :=
  ⟨g.size.trans h.size, g.renorm.trans h.renorm, g.inited.trans h.inited, g.writefile.trans h.writefile,
    fun n i m => g.match_ n i (h.match_ n i m)⟩

theorem Keep.emit (l : FList V) (t : List Tok) : Keep l (l.emit t) := ⟨rfl, rfl, rfl, rfl, fun _ _ h => h⟩

theorem record_keep (dt : ℝ) (l : FList V) (k : Nat) (z : ℂ) : Keep l (record dt l k z) := by
  refine ⟨rfl, rfl, rfl, rfl, fun n i h => ?_⟩
  unfold record FList.emit
  dsimp only
  by_cases hn : n = k
  · rw [if_pos hn]
    exact ⟨h.act, h.kind, h.int, h.op, h.ms, h.head⟩
  · rw [if_neg hn]
    exact h

theorem record_slot (dt : ℝ) (l : FList V) (k n : Nat) (z : ℂ) (h : n ≠ k) : (record dt l k z).slots n = l.slots n := by
  unfold record FList.emit
  dsimp only
  rw [if_neg h]

theorem record_sum (dt : ℝ) (l : FList V) (k : Nat) (z : ℂ) :
    ((record dt l k z).slots k).sum = if (l.slots k).integrate then (l.slots k).sum + z * dt else z := by
  unfold record FList.emit
  dsimp only
  rw [if_pos rfl]

theorem record_file (dt : ℝ) (l : FList V) (k : Nat) (z : ℂ) :
    (record dt l k z).file = l.file.map (· ++ [Spec.showAs (l.slots k).value
      (if (l.slots k).integrate then (l.slots k).sum + z * dt else z)]) := by
  unfold record FList.emit
  dsimp only
  rw [if_pos rfl, shown_eq]

/-- The list after filter `i` in slot `k`. -/
noncomputable def after (e : Env V) (t dt : ℝ) (l : FList V) (k : Nat) (i : Spec.Item V) (psi : V) : FList V :=
  if Spec.shows i.act then record dt l k (Spec.value e l.renorm i t psi) else l

theorem applyOne_ok (e : Env V) (t dt : ℝ) (l : FList V) (k : Nat) (i : Spec.Item V) (psi p : V) (hm : Match i (l.slots k))
    (h : Spec.step e i t psi = some p) : applyOne e t dt l k psi = .ok (after e t dt l k i psi, p) := by
  unfold applyOne after
  dsimp only
  rw [hm.act]
  unfold Spec.step at h
  cases ha : i.act with
  | expec =>
    obtain ⟨h1, o, h2⟩ := hm.op (by rw [ha]; rfl)
    rw [ha] at h
    simp only [h2, Option.bind_some] at h
    simp only [h1, h2, h, Spec.shows, Spec.value, ha, if_true]
  | expeconly =>
    obtain ⟨h1, o, h2⟩ := hm.op (by rw [ha]; rfl)
    rw [ha] at h
    simp only [Option.some.injEq] at h
    subst h
    simp [h1, h2, Spec.shows, Spec.value, ha]
  | apply =>
    obtain ⟨h1, o, h2⟩ := hm.op (by rw [ha]; rfl)
    rw [ha] at h
    simp only [h2, Option.bind_some] at h
    simp [h1, h2, h, Spec.shows]
  | normalize =>
    rw [ha] at h
    simp only [Option.some.injEq] at h
    subst h
    simp [Spec.shows]
  | rho =>
    rw [ha] at h
    dsimp only at h ⊢
    cases hs : e.states psi with
    | none => rw [hs] at h; simp at h
    | some n =>
      rw [hs] at h
      cases hms : i.ms with
      | none => rw [hms] at h; simp at h
      | some q =>
        obtain ⟨a, b⟩ := q
        rw [hms] at h
        dsimp only at h ⊢
        have hq := hm.ms
        rw [hms] at hq
        simp only [Option.getD_some, Prod.mk.injEq] at hq
        rw [hq.1, hq.2]
        by_cases hr : 0 ≤ a ∧ a < n ∧ 0 ≤ b ∧ b < n
        · rw [if_pos hr] at h ⊢
          simp only [Option.some.injEq] at h
          subst h
          simp [Spec.shows, Spec.value, ha, hms]
        · rw [if_neg hr] at h; simp at h

theorem applyOne_threw (e : Env V) (t dt : ℝ) (l : FList V) (k : Nat) (i : Spec.Item V) (psi : V) (hm : Match i (l.slots k))
    (h : Spec.step e i t psi = none) (hr : i.act ≠ .rho) : ∃ s, applyOne e t dt l k psi = .threw s := by
  unfold applyOne
  dsimp only
  rw [hm.act]
  unfold Spec.step at h
  cases ha : i.act with
  | expec =>
    obtain ⟨h1, o, h2⟩ := hm.op (by rw [ha]; rfl)
    rw [ha] at h
    simp only [h2, Option.bind_some] at h
    simp only [h1, h2, h, if_true]
    exact ⟨_, rfl⟩
  | expeconly => rw [ha] at h; simp at h
  | apply =>
    obtain ⟨h1, o, h2⟩ := hm.op (by rw [ha]; rfl)
    rw [ha] at h
    simp only [h2, Option.bind_some] at h
    simp only [h1, h2, h]
    exact ⟨_, rfl⟩
  | normalize => rw [ha] at h; simp at h
  | rho => exact absurd ha hr

/-- The accumulated sums after the calls `done`. -/
def Sums (e : Env V) (r : Bool) (is : List (Spec.Item V)) (done : List (Call V)) (k : Nat) (l : FList V) : Prop :=
  ∀ j i, k ≤ j → is[j]? = some i → Spec.shows i.act = true → i.int = true →
    (l.slots j).sum = (done.map fun c => Spec.valueIn e r is j c * c.dt).sum

theorem valueIn_at (e : Env V) (r : Bool) (pre rest : List (Spec.Item V)) (i : Spec.Item V) (c : Call V) (psi : V)
    (h : Spec.chain e c.t pre c.psi = some psi) :
    Spec.valueIn e r (pre ++ i :: rest) pre.length c = Spec.value e r i c.t psi := by
  unfold Spec.valueIn
  rw [List.take_left', List.getElem?_append_right le_rfl, h]
  · simp
  · rfl

theorem chain_append (e : Env V) (t : ℝ) : ∀ (a b : List (Spec.Item V)) (psi : V),
    Spec.chain e t (a ++ b) psi = (Spec.chain e t a psi).bind (Spec.chain e t b) := by
  intro a
  induction a with
  | nil => intro b psi; rfl
  | cons i a ih =>
    intro b psi
    show (Spec.step e i t psi).bind _ = ((Spec.step e i t psi).bind _).bind _
    rw [Option.bind_assoc]
    congr 1
    funext q
    exact ih b q

theorem applyAll_ok (e : Env V) (r : Bool) (is : List (Spec.Item V)) (done : List (Call V)) (c : Call V) :
    ∀ (rest pre : List (Spec.Item V)) (l : FList V) (psi p : V), is = pre ++ rest → Spec.chain e c.t pre c.psi = some psi →
    (∀ j i, is[j]? = some i → Match i (l.slots j)) → Sums e r is done pre.length l → l.renorm = r →
    Spec.chain e c.t rest psi = some p →
    ∃ l', applyAll e c.t c.dt rest.length pre.length (l, psi) = .ok (l', p) ∧ Keep l l' ∧
      (∀ n, n < pre.length → l'.slots n = l.slots n) ∧ Sums e r is (done ++ [c]) pre.length l' ∧
      l'.file = l.file.map (· ++ Spec.columns e r is done c pre.length rest) := by
  intro rest
  induction rest with
  | nil =>
    intro pre l psi p his _ _ _ _ hp
    simp only [Spec.chain, Option.some.injEq] at hp
    subst hp
    refine ⟨l, rfl, Keep.refl l, fun _ _ => rfl, fun j i hj hi => ?_, ?_⟩
    · rw [his, List.append_nil, List.getElem?_eq_none hj] at hi
      simp at hi
    · simp [Spec.columns]
  | cons i rest ih =>
    intro pre l psi p his hpre hmatch hsum hr hp
    have hk : is[pre.length]? = some i := by rw [his, List.getElem?_append_right le_rfl]; simp
    obtain ⟨q, hq, hp⟩ := Option.bind_eq_some_iff.mp hp
    have hm := hmatch _ _ hk
    have hone := applyOne_ok e c.t c.dt l pre.length i psi q hm hq
    have hv : Spec.valueIn e r is pre.length c = Spec.value e r i c.t psi := by rw [his]; exact valueIn_at e r pre rest i c psi hpre
    have hkeep : Keep l (after e c.t c.dt l pre.length i psi) := by
      unfold after
      split
      · exact record_keep _ _ _ _
      · exact Keep.refl l
    have hslot : ∀ n, n ≠ pre.length → (after e c.t c.dt l pre.length i psi).slots n = l.slots n := by
      intro n hn
      unfold after
      split
      · exact record_slot _ _ _ _ _ hn
      · rfl
    have hchain : Spec.chain e c.t (pre ++ [i]) c.psi = some q := by
      rw [chain_append, hpre]
      show (Spec.step e i c.t psi).bind _ = _
      rw [hq]
      rfl
    have hlen : (pre ++ [i]).length = pre.length + 1 := by simp
    obtain ⟨l', h1, K, h2, h3, h4⟩ := ih (pre ++ [i]) (after e c.t c.dt l pre.length i psi) q p
      (by rw [his, List.append_assoc]; rfl) hchain (fun j x hx => hkeep.match_ _ _ (hmatch j x hx))
      (fun j x hj hx => by
        rw [hlen] at hj
        rw [hslot j (by omega)]
        exact hsum j x (by omega) hx)
      (by rw [hkeep.renorm, hr]) hp
    rw [hlen] at h1 h2 h3 h4
    refine ⟨l', ?_, hkeep.trans K, fun n hn => ?_, fun j x hj hx hs hi => ?_, ?_⟩
    · rw [List.length_cons]
      unfold applyAll
      dsimp only
      rw [hone]
      exact h1
    · rw [h2 n (by omega), hslot n (by omega)]
    · by_cases hj' : j = pre.length
      · subst hj'
        rw [hk] at hx
        injection hx with hx
        subst hx
        rw [h2 _ (by omega)]
        unfold after
        rw [if_pos hs, record_sum, hm.int, if_pos hi, hsum _ _ le_rfl hk hs hi, List.map_append, List.sum_append, hr]
        simp [hv]
      · exact h3 j x (by omega) hx hs hi
    · rw [h4, show Spec.columns e r is done c pre.length (i :: rest) =
        (if Spec.shows i.act then [Spec.showAs i.kind (Spec.column e r is pre.length i done c)] else []) ++
          Spec.columns e r is done c (pre.length + 1) rest from rfl]
      unfold after
      by_cases hs : Spec.shows i.act = true
      · rw [if_pos hs, if_pos hs, record_file, hm.kind, hm.int, Option.map_map]
        congr 1
        funext x
        simp only [Function.comp, List.append_assoc]
        congr 3
        unfold Spec.column
        rw [hv, hr]
        by_cases hi : i.int = true
        · rw [if_pos hi, if_pos hi, hsum _ _ le_rfl hk hs hi, List.map_append, List.sum_append]
          simp [hv]
        · rw [if_neg hi, if_neg hi]
      · rw [if_neg hs, if_neg hs]
        rfl

/-- The filters `rho` of the list name states the wave function has. -/
def RhoOk (e : Env V) (is : List (Spec.Item V)) (psi : V) : Prop :=
  ∀ i ∈ is, i.act = .rho → ∃ a b, ∃ n : Nat, i.ms = some (a, b) ∧ e.states psi = some n ∧ 0 ≤ a ∧ a < n ∧ 0 ≤ b ∧ b < n

/-- Filters do not change the number of states. -/
def StatesKept (e : Env V) (is : List (Spec.Item V)) : Prop :=
  (∀ p, e.states (e.norm p) = e.states p) ∧
  ∀ i ∈ is, ∀ o t p q, i.op = some o → o.app t p = some q → e.states q = e.states p

theorem step_states (e : Env V) (is : List (Spec.Item V)) (hk : StatesKept e is) (i : Spec.Item V) (hi : i ∈ is) (t : ℝ) (p q : V)
    (h : Spec.step e i t p = some q) : e.states q = e.states p := by
  unfold Spec.step at h
  split at h
  · obtain ⟨o, h1, h2⟩ := Option.bind_eq_some_iff.mp h
    exact hk.2 i hi o t p q h1 h2
  · obtain ⟨o, h1, h2⟩ := Option.bind_eq_some_iff.mp h
    exact hk.2 i hi o t p q h1 h2
  · injection h with h; rw [h]
  · injection h with h; rw [← h]; exact hk.1 p
  · split at h
    · split at h
      · injection h with h; rw [h]
      · simp at h
    · simp at h

theorem applyAll_threw (e : Env V) (t dt : ℝ) (is : List (Spec.Item V)) (hkept : StatesKept e is) :
    ∀ (rest : List (Spec.Item V)) (k : Nat) (l : FList V) (psi : V), (∀ i ∈ rest, i ∈ is) →
    (∀ j i, rest[j]? = some i → Match i (l.slots (k + j))) → RhoOk e rest psi →
    Spec.chain e t rest psi = none → ∃ s, applyAll e t dt rest.length k (l, psi) = .threw s := by
  intro rest
  induction rest with
  | nil => intro k l psi _ _ _ h; simp [Spec.chain] at h
  | cons i rest ih =>
    intro k l psi hsub hmatch hrho h
    have hm := hmatch 0 i (by simp)
    rw [Nat.add_zero] at hm
    rw [List.length_cons]
    unfold applyAll
    dsimp only
    cases hs : Spec.step e i t psi with
    | none =>
      have hne : i.act ≠ .rho := by
        intro ha
        obtain ⟨a, b, n, h1, h2, h3⟩ := hrho i (by simp) ha
        unfold Spec.step at hs
        rw [ha, h1, h2] at hs
        simp [h3] at hs
      obtain ⟨s, h1⟩ := applyOne_threw e t dt l k i psi hm hs hne
      exact ⟨s, by rw [h1]; rfl⟩
    | some q =>
      rw [applyOne_ok e t dt l k i psi q hm hs]
      refine ih (k + 1) _ q (fun x hx => hsub x (by simp [hx])) (fun j x hx => ?_) (fun x hx ha => ?_) ?_
      · have := hmatch (j + 1) x (by rw [List.getElem?_cons_succ]; exact hx)
        rw [show k + 1 + j = k + (j + 1) by omega]
        unfold after
        split
        · exact (record_keep _ _ _ _).match_ _ _ this
        · exact this
      · rw [step_states e is hkept i (hsub i (by simp)) t psi q hs]
        exact hrho x (by simp [hx]) ha
      · unfold Spec.chain at h
        rw [hs] at h
        exact h

/-! ### The first call -/

/-- Naming the column of a filter and checking its states. -/
def nameCheck (e : Env V) (psi : V) (f : Flt V) (l : FList V) : Out (FList V) :=
  let l := if l.writefile ∧ f.action.writes then l.emit [.word f.label] else l
  if f.ms0 > -1 ∨ f.ms1 > -1 then
    match e.states psi with
    | none => .threw l
    | some n => if (n : Int) ≤ f.ms0 ∨ (n : Int) ≤ f.ms1 then .threw l else .ok l
  else .ok l

theorem prepare_eq (e : Env V) (psi : V) (l : FList V) (k : Nat) : prepare e psi l k =
    (if (l.slots k).action ≠ .normalize ∧ (l.slots k).action ≠ .rho then
      match (l.slots k).op with
      | none => .ub
      | some o => if o.ini psi then nameCheck e psi (l.slots k) l else .threw l
    else nameCheck e psi (l.slots k) l) := rfl

/-- The states named by a filter exist. -/
def MsOk (e : Env V) (psi : V) (i : Spec.Item V) : Prop :=
  ∀ a b, i.ms = some (a, b) → 0 ≤ a ∨ 0 ≤ b → ∃ n : Nat, e.states psi = some n ∧ a < n ∧ b < n

theorem nameCheck_ok (e : Env V) (psi : V) (l : FList V) (f : Flt V) (i : Spec.Item V) (hm : Match i f)
    (hw : l.writefile = l.file.isSome) (h : MsOk e psi i) :
    ∃ l', nameCheck e psi f l = .ok l' ∧ Keep l l' ∧ l'.slots = l.slots ∧
      l'.file = l.file.map (· ++ if Spec.shows i.act then [Tok.word i.head] else []) := by
  obtain ⟨l1, hl1⟩ : ∃ l1, l1 = if l.writefile = true ∧ f.action.writes = true then l.emit [.word f.label] else l := ⟨_, rfl⟩
  have hprops : Keep l l1 ∧ l1.slots = l.slots ∧ l1.file = l.file.map (· ++ if Spec.shows i.act then [Tok.word i.head] else []) := by
    rw [hl1, writes_eq, hm.act]
    by_cases hs : Spec.shows i.act = true
    · rw [hm.head hs]
      cases hf : l.file with
      | none =>
        rw [if_neg (by rw [hw, hf]; simp)]
        exact ⟨Keep.refl l, rfl, by rw [hf]; rfl⟩
      | some x =>
        rw [if_pos (by rw [hw, hf]; exact ⟨rfl, hs⟩), if_pos hs]
        exact ⟨Keep.emit l _, rfl, by unfold FList.emit; dsimp only; rw [hf]⟩
    · rw [if_neg (by simp [hs]), if_neg hs]
      refine ⟨Keep.refl l, rfl, ?_⟩
      cases l.file <;> simp
  refine ⟨l1, ?_, hprops⟩
  unfold nameCheck
  dsimp only
  rw [← hl1]
  by_cases hpos : f.ms0 > -1 ∨ f.ms1 > -1
  · rw [if_pos hpos]
    have hq := hm.ms
    cases hms : i.ms with
    | none =>
      rw [hms] at hq
      simp only [Option.getD_none, Prod.mk.injEq] at hq
      omega
    | some q =>
      obtain ⟨a, b⟩ := q
      rw [hms] at hq
      simp only [Option.getD_some, Prod.mk.injEq] at hq
      obtain ⟨n, h1, h2, h3⟩ := h a b hms (by omega)
      rw [h1]
      dsimp only
      rw [if_neg (by omega)]
  · rw [if_neg hpos]

theorem nameCheck_threw (e : Env V) (psi : V) (l : FList V) (f : Flt V) (i : Spec.Item V) (hm : Match i f)
    (h : ¬ MsOk e psi i) : ∃ l', nameCheck e psi f l = .threw l' := by
  unfold MsOk at h
  push Not at h
  obtain ⟨a, b, hms, hpos, h⟩ := h
  have hq := hm.ms
  rw [hms] at hq
  simp only [Option.getD_some, Prod.mk.injEq] at hq
  unfold nameCheck
  dsimp only
  rw [if_pos (by omega : f.ms0 > -1 ∨ f.ms1 > -1)]
  cases hs : e.states psi with
  | none => exact ⟨_, rfl⟩
  | some n =>
    have := h n hs
    dsimp only
    rw [if_pos (by omega)]
    exact ⟨_, rfl⟩

theorem needsOp_iff (a : Action) : (a ≠ .normalize ∧ a ≠ .rho) ↔ Spec.needsOp a = true := by
  cases a <;> simp [Spec.needsOp]

theorem prepare_ok (e : Env V) (psi : V) (l : FList V) (k : Nat) (i : Spec.Item V) (hm : Match i (l.slots k))
    (hw : l.writefile = l.file.isSome) (h : Spec.Ready e psi i) :
    ∃ l', prepare e psi l k = .ok l' ∧ Keep l l' ∧ l'.slots = l.slots ∧
      l'.file = l.file.map (· ++ if Spec.shows i.act then [Tok.word i.head] else []) := by
  rw [prepare_eq, hm.act]
  have hn := nameCheck_ok e psi l (l.slots k) i hm hw h.2
  by_cases ho : Spec.needsOp i.act = true
  · rw [if_pos ((needsOp_iff _).mpr ho), (hm.op ho).1]
    obtain ⟨o, h1, h2⟩ := h.1 ho
    rw [h1]
    dsimp only
    rw [if_pos h2]
    exact hn
  · rw [if_neg (fun hh => ho ((needsOp_iff _).mp hh))]
    exact hn

theorem prepare_threw (e : Env V) (psi : V) (l : FList V) (k : Nat) (i : Spec.Item V) (hm : Match i (l.slots k))
    (h : ¬ Spec.Ready e psi i) : ∃ l', prepare e psi l k = .threw l' := by
  rw [prepare_eq, hm.act]
  by_cases ho : Spec.needsOp i.act = true
  · rw [if_pos ((needsOp_iff _).mpr ho)]
    obtain ⟨h1, o, h2⟩ := hm.op ho
    rw [h1, h2]
    dsimp only
    by_cases hi : o.ini psi = true
    · rw [if_pos hi]
      exact nameCheck_threw e psi l (l.slots k) i hm (fun hh => h ⟨fun _ => ⟨o, h2, hi⟩, hh⟩)
    · rw [if_neg hi]
      exact ⟨_, rfl⟩
  · rw [if_neg (fun hh => ho ((needsOp_iff _).mp hh))]
    exact nameCheck_threw e psi l (l.slots k) i hm (fun hh => h ⟨fun hx => absurd hx ho, hh⟩)

/-- The names of the columns. -/
def names (is : List (Spec.Item V)) : List Tok := (is.filter fun i => Spec.shows i.act).map fun i => .word i.head

theorem prepareAll_ok (e : Env V) (psi : V) : ∀ (rest : List (Spec.Item V)) (k : Nat) (l : FList V),
    (∀ j i, rest[j]? = some i → Match i (l.slots (k + j))) → l.writefile = l.file.isSome → (∀ i ∈ rest, Spec.Ready e psi i) →
    ∃ l', prepareAll e psi rest.length k l = .ok l' ∧ Keep l l' ∧ l'.slots = l.slots ∧ l'.file = l.file.map (· ++ names rest) := by
  intro rest
  induction rest with
  | nil =>
    intro k l _ _ _
    refine ⟨l, rfl, Keep.refl l, rfl, ?_⟩
    cases l.file <;> simp [names]
  | cons i rest ih =>
    intro k l hm hw hr
    obtain ⟨l1, h1, K1, hs1, hf1⟩ := prepare_ok e psi l k i (by have := hm 0 i (by simp); rwa [Nat.add_zero] at this) hw (hr i (by simp))
    obtain ⟨l2, h2, K2, hs2, hf2⟩ := ih (k + 1) l1
      (fun j x hx => by
        rw [hs1, show k + 1 + j = k + (j + 1) by omega]
        exact hm (j + 1) x (by rw [List.getElem?_cons_succ]; exact hx))
      (by rw [K1.writefile, hw, hf1]; cases l.file <;> rfl) (fun x hx => hr x (by simp [hx]))
    refine ⟨l2, ?_, K1.trans K2, hs2.trans hs1, ?_⟩
    · rw [List.length_cons]
      unfold prepareAll
      rw [h1]
      exact h2
    · rw [hf2, hf1, Option.map_map]
      congr 1
      funext x
      by_cases hs : Spec.shows i.act = true <;> simp [names, hs]

theorem prepareAll_threw (e : Env V) (psi : V) : ∀ (rest : List (Spec.Item V)) (k : Nat) (l : FList V),
    (∀ j i, rest[j]? = some i → Match i (l.slots (k + j))) → l.writefile = l.file.isSome → (¬ ∀ i ∈ rest, Spec.Ready e psi i) →
    ∃ l', prepareAll e psi rest.length k l = .threw l' := by
  intro rest
  induction rest with
  | nil => intro k l _ _ h; exact absurd (by simp) h
  | cons i rest ih =>
    intro k l hm hw hr
    have hmi : Match i (l.slots k) := by have := hm 0 i (by simp); rwa [Nat.add_zero] at this
    rw [List.length_cons]
    unfold prepareAll
    by_cases hi : Spec.Ready e psi i
    · obtain ⟨l1, h1, K1, hs1, hf1⟩ := prepare_ok e psi l k i hmi hw hi
      rw [h1]
      refine ih (k + 1) l1 (fun j x hx => ?_) (by rw [K1.writefile, hw, hf1]; cases l.file <;> rfl) (fun hall => hr ?_)
      · rw [hs1, show k + 1 + j = k + (j + 1) by omega]
        exact hm (j + 1) x (by rw [List.getElem?_cons_succ]; exact hx)
      · intro x hx
        rcases List.mem_cons.mp hx with rfl | hx
        · exact hi
        · exact hall x hx
    · obtain ⟨l1, h1⟩ := prepare_threw e psi l k i hmi hi
      rw [h1]
      exact ⟨l1, rfl⟩

/-! ### Calls -/

/-- A list configured with `is` after the calls `done`. -/
structure St (e : Env V) (r : Bool) (is : List (Spec.Item V)) (done : List (Call V)) (l : FList V) : Prop where
  size : l.size = is.length
  match_ : ∀ j i, is[j]? = some i → Match i (l.slots j)
  sums : Sums e r is done 0 l
  renorm : l.renorm = r
  write : l.writefile = l.file.isSome

theorem emitIf (l : FList V) (hw : l.writefile = l.file.isSome) (t : List Tok) :
    (if l.writefile = true then l.emit t else l) = l.emit t := by
  obtain ⟨rn, sz, ini, sl, w, f⟩ := l
  cases f with
  | none => exact ite_self _
  | some x =>
    dsimp only at hw
    subst hw
    rfl

theorem St.emit {e : Env V} {r : Bool} {is : List (Spec.Item V)} {done : List (Call V)} {l : FList V} (h : St e r is done l)
    (t : List Tok) : St e r is done (l.emit t) :=
  ⟨h.size, h.match_, h.sums, h.renorm, by unfold FList.emit; dsimp only; rw [h.write]; cases l.file <;> rfl⟩

theorem firstCall_ok (e : Env V) (r : Bool) (is : List (Spec.Item V)) (done : List (Call V)) (l : FList V) (psi : V)
    (h : St e r is done l) (hr : l.inited = false → ∀ i ∈ is, Spec.Ready e psi i) :
    ∃ l', firstCall e psi l = .ok l' ∧ St e r is done l' ∧
      l'.file = l.file.map (· ++ if l.inited then [] else Spec.header is) := by
  unfold firstCall
  cases hi : l.inited with
  | true => exact ⟨l, rfl, h, by cases l.file <;> simp⟩
  | false =>
    have h0 := h.emit [.word "time".toList]
    obtain ⟨l1, h1, K, hs, hf⟩ := prepareAll_ok e psi is 0 (l.emit [.word "time".toList])
      (fun j i hj => by rw [Nat.zero_add]; exact h0.match_ j i hj) h0.write (hr hi)
    have hw : l1.writefile = l1.file.isSome := by rw [K.writefile, h0.write, hf]; cases (l.emit [.word "time".toList]).file <;> rfl
    have hst : St e r is done l1 := ⟨K.size.trans h0.size, by rw [hs]; exact h0.match_, by
      have := h0.sums
      unfold Sums at this ⊢
      rw [hs]
      exact this, K.renorm.trans h0.renorm, hw⟩
    refine ⟨l1.emit [.newline], ?_, hst.emit _, ?_⟩
    · rw [if_neg (by simp), h.size, h1]
      dsimp only
      rw [emitIf l1 hw]
    · unfold FList.emit at hf ⊢
      dsimp only at hf ⊢
      rw [hf]
      cases l.file <;> simp [Spec.header, names]

theorem firstCall_threw (e : Env V) (r : Bool) (is : List (Spec.Item V)) (done : List (Call V)) (l : FList V) (psi : V)
    (h : St e r is done l) (hi : l.inited = false) (hr : ¬ ∀ i ∈ is, Spec.Ready e psi i) : ∃ l', firstCall e psi l = .threw l' := by
  unfold firstCall
  have h0 := h.emit [.word "time".toList]
  obtain ⟨l1, h1⟩ := prepareAll_threw e psi is 0 (l.emit [.word "time".toList])
    (fun j i hj => by rw [Nat.zero_add]; exact h0.match_ j i hj) h0.write hr
  rw [hi, if_neg (by simp), h.size, h1]
  exact ⟨_, rfl⟩

/-- The line of a call. -/
noncomputable def line (e : Env V) (r : Bool) (is : List (Spec.Item V)) (done : List (Call V)) (c : Call V) : List Tok :=
  [.num c.t] ++ Spec.columns e r is done c 0 is ++ [.newline]

theorem apply_ok (e : Env V) (r : Bool) (is : List (Spec.Item V)) (done : List (Call V)) (l : FList V) (c : Call V) (p : V)
    (hne : is ≠ []) (h : St e r is done l) (hr : l.inited = false → ∀ i ∈ is, Spec.Ready e c.psi i)
    (hp : Spec.chain e c.t is c.psi = some p) :
    ∃ l', apply e c.t c.dt l c.psi = .ok (l', p) ∧ St e r is (done ++ [c]) l' ∧ l'.inited = true ∧
      l'.file = l.file.map (· ++ ((if l.inited then [] else Spec.header is) ++ line e r is done c)) := by
  unfold apply
  have hlen : 0 < is.length := List.length_pos_iff.mpr hne
  rw [if_neg (by rw [h.size]; omega)]
  obtain ⟨l1, h1, S1, hf1⟩ := firstCall_ok e r is done l c.psi h hr
  rw [h1]
  dsimp only
  rw [emitIf l1 S1.write]
  have S2 := S1.emit [.num c.t]
  obtain ⟨l2, h2, K, _, hs, hf2⟩ := applyAll_ok e r is done c is [] (l1.emit [.num c.t]) c.psi p rfl rfl S2.match_ S2.sums S2.renorm hp
  rw [S2.size]
  rw [show ([] : List (Spec.Item V)).length = 0 from rfl] at h2 hs hf2
  rw [h2]
  dsimp only
  have hw : l2.writefile = l2.file.isSome := by rw [K.writefile, S2.write, hf2]; cases (l1.emit [.num c.t]).file <;> rfl
  rw [emitIf l2 hw]
  refine ⟨_, rfl, ⟨K.size.trans S2.size, fun j i hj => K.match_ _ _ (S2.match_ j i hj), hs, K.renorm.trans S2.renorm, ?_⟩, rfl, ?_⟩
  · unfold FList.emit
    dsimp only
    rw [hw]
    cases l2.file <;> rfl
  · unfold FList.emit at hf2 ⊢
    dsimp only at hf2 ⊢
    rw [hf2, hf1]
    cases l.file <;> simp [line]

theorem apply_threw (e : Env V) (r : Bool) (is : List (Spec.Item V)) (done : List (Call V)) (l : FList V) (c : Call V)
    (hne : is ≠ []) (h : St e r is done l) (hk : StatesKept e is)
    (hbad : (l.inited = false ∧ ¬ ∀ i ∈ is, Spec.Ready e c.psi i) ∨
      ((l.inited = false → ∀ i ∈ is, Spec.Ready e c.psi i) ∧ RhoOk e is c.psi ∧ Spec.chain e c.t is c.psi = none)) :
    ∃ s, apply e c.t c.dt l c.psi = .threw s := by
  unfold apply
  have hlen : 0 < is.length := List.length_pos_iff.mpr hne
  rw [if_neg (by rw [h.size]; omega)]
  rcases hbad with ⟨hi, hr⟩ | ⟨hr, hrho, hc⟩
  · obtain ⟨l1, h1⟩ := firstCall_threw e r is done l c.psi h hi hr
    rw [h1]
    exact ⟨_, rfl⟩
  · obtain ⟨l1, h1, S1, hf1⟩ := firstCall_ok e r is done l c.psi h hr
    rw [h1]
    dsimp only
    rw [emitIf l1 S1.write]
    have S2 := S1.emit [.num c.t]
    obtain ⟨s, h2⟩ := applyAll_threw e c.t c.dt is hk is 0 (l1.emit [.num c.t]) c.psi (fun _ h => h)
      (fun j i hj => by rw [Nat.zero_add]; exact S2.match_ j i hj) hrho hc
    rw [S2.size, h2]
    exact ⟨s, rfl⟩

theorem applies_ok (e : Env V) (r : Bool) (is : List (Spec.Item V)) (hne : is ≠ []) :
    ∀ (cs done : List (Call V)) (l : FList V), St e r is done l → l.inited = true → (∀ c ∈ cs, (Spec.chain e c.t is c.psi).isSome) →
    ∃ l' ps, applies e l cs = .ok (l', ps) ∧ St e r is (done ++ cs) l' ∧ ps.map some = cs.map (fun c => Spec.chain e c.t is c.psi) ∧
      l'.file = l.file.map (· ++ Spec.lines e r is done cs) := by
  intro cs
  induction cs with
  | nil =>
    intro done l h hi _
    refine ⟨l, [], rfl, by rw [List.append_nil]; exact h, rfl, ?_⟩
    cases l.file <;> simp [Spec.lines]
  | cons c cs ih =>
    intro done l h hi hc
    obtain ⟨p, hp⟩ := Option.isSome_iff_exists.mp (hc c (by simp))
    obtain ⟨l1, h1, S1, hi1, hf1⟩ := apply_ok e r is done l c p hne h (by rw [hi]; simp) hp
    obtain ⟨l2, ps, h2, S2, hps, hf2⟩ := ih (done ++ [c]) l1 S1 hi1 (fun x hx => hc x (by simp [hx]))
    refine ⟨l2, p :: ps, ?_, by rw [List.append_assoc] at S2; exact S2, ?_, ?_⟩
    · unfold applies
      rw [h1]
      dsimp only
      rw [h2]
    · rw [List.map_cons, List.map_cons, hp, hps]
    · rw [hf2, hf1, hi, Option.map_map]
      congr 1
      funext x
      simp [line, Spec.lines]

theorem applies_threw (e : Env V) (r : Bool) (is : List (Spec.Item V)) (hne : is ≠ []) (hk : StatesKept e is) :
    ∀ (cs done : List (Call V)) (l : FList V), St e r is done l → l.inited = true → (∀ c ∈ cs, RhoOk e is c.psi) →
    (¬ ∀ c ∈ cs, (Spec.chain e c.t is c.psi).isSome) → ∃ s, applies e l cs = .threw s := by
  intro cs
  induction cs with
  | nil => intro done l _ _ _ h; exact absurd (by simp) h
  | cons c cs ih =>
    intro done l h hi hrho hbad
    cases hp : Spec.chain e c.t is c.psi with
    | none =>
      obtain ⟨s, h1⟩ := apply_threw e r is done l c hne h hk (Or.inr ⟨by rw [hi]; simp, hrho c (by simp), hp⟩)
      unfold applies
      rw [h1]
      exact ⟨_, rfl⟩
    | some p =>
      obtain ⟨l1, h1, S1, hi1, hf1⟩ := apply_ok e r is done l c p hne h (by rw [hi]; simp) hp
      obtain ⟨s, h2⟩ := ih (done ++ [c]) l1 S1 hi1 (fun x hx => hrho x (by simp [hx])) (fun hall => hbad (by
        intro x hx
        rcases List.mem_cons.mp hx with rfl | hx
        · rw [hp]; rfl
        · exact hall x hx))
      unfold applies
      rw [h1]
      dsimp only
      rw [h2]
      exact ⟨_, rfl⟩

end QDng.Filters
