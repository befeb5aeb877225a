import Mathlib.Tactic.Abel
import Mathlib.Tactic.Module
import Verif.Coupling.Spec

/-
Lemmas about the search: what the arrays and the package contain.
-/

namespace QDng.Coupling
open Spec

/-! ### Arrays -/

/-- The elements from `p` on replaced by a list. -/
def write (f : Arr) (p : Nat) (ws : List Nat) : Arr :=
  fun k => if k < p then f k else (ws[k - p]?).or (f k)

theorem write_nil (f : Arr) (p : Nat) : write f p [] = f := by
  funext k
  simp [write]

theorem write_single (f : Arr) (p x : Nat) : write f p [x] = f.put p (some x) := by
  funext k
  unfold write Arr.put
  by_cases h : k < p
  · rw [if_pos h, if_neg (by omega)]
  · rw [if_neg h]
    by_cases h2 : k = p
    · simp [h2]
    · rw [if_neg h2]
      have : ([x] : List Nat)[k - p]? = none := by
        rw [List.getElem?_eq_none_iff]; simp; omega
      rw [this]; rfl

theorem write_append (f : Arr) (p : Nat) (a b : List Nat) :
    write (write f p a) (p + a.length) b = write f p (a ++ b) := by
  funext k
  unfold write
  by_cases h : k < p
  · rw [if_pos (by omega : k < p + a.length), if_pos h, if_pos h]
  · rw [if_neg h]
    by_cases h2 : k < p + a.length
    · rw [if_pos h2, if_neg h, List.getElem?_append_left (by omega)]
    · rw [if_neg h2, if_neg h, List.getElem?_append_right (by omega)]
      have : a[k - p]? = none := by rw [List.getElem?_eq_none_iff]; omega
      rw [this, show k - p - a.length = k - (p + a.length) by omega]
      rfl

theorem write_get (f : Arr) (p : Nat) (ws : List Nat) (k x : Nat) (h : ws[k]? = some x) :
    write f p ws (p + k) = some x := by
  unfold write
  rw [if_neg (by omega), show p + k - p = k by omega, h]
  rfl

theorem copy_write (cap : Nat) (sop : Arr) (ws : List Nat) (p : Nat) (found : Arr) (hp : p + ws.length ≤ cap)
    (hs : ∀ k x, ws[k]? = some x → sop (p + k) = some x) :
    copyFound cap sop ws.length p found = some (write found p ws) := by
  induction ws generalizing p found with
  | nil => rw [write_nil]; rfl
  | cons x ws ih =>
    simp only [List.length_cons] at hp ⊢
    unfold copyFound
    have h0 : sop p = some x := hs 0 x rfl
    rw [if_pos (by omega), h0]
    dsimp only
    rw [ih (p + 1) _ (by omega) (fun k y h => by
      have := hs (k + 1) y (by simpa using h)
      rwa [show p + (k + 1) = p + 1 + k by omega] at this), ← write_single]
    have := write_append found p [x] ws
    simp only [List.length_singleton, List.singleton_append] at this
    rw [this]

theorem readFound_write (ws : List Nat) (p : Nat) (f : Arr) (hf : ∀ k x, ws[k]? = some x → f (p + k) = some x) :
    readFound f ws.length p = some ws := by
  induction ws generalizing p with
  | nil => rfl
  | cons x ws ih =>
    rw [List.length_cons]
    unfold readFound
    rw [show f p = some x from hf 0 x rfl]
    dsimp only
    rw [ih (p + 1) (fun k y h => by
      have := hf (k + 1) y (by simpa using h)
      rwa [show p + (k + 1) = p + 1 + k by omega] at this)]
    rfl

/-! ### The package -/

/-- The laser operators that match. -/
abbrev hits (sel : Option (Nat → Bool)) (o : Op) : List Nat := (lasers o).filter (hit sel)

abbrev hitsIn (sel : Option (Nat → Bool)) (o : Ops) : List Nat := (lasersIn o).filter (hit sel)

abbrev hitsOff (sel : Option (Nat → Bool)) (o : Pairs) : List Nat := (lasersOff o).filter (hit sel)

mutual
/-- The part of an operator with the laser operators that match. -/
def pack (sel : Option (Nat → Bool)) : Op → Op
  | .laser id => .laser id
  | .other id => .other id
  | .list p parts => .list p (packIn sel parts)
  | .multi _ pairs => .multi .nil (packOff sel pairs)
  | .grid parts => .grid parts
def packIn (sel : Option (Nat → Bool)) : Ops → Ops
  | .nil => .nil
  | .cons row o rest => if hits sel o = [] then packIn sel rest else .cons row (pack sel o) (packIn sel rest)
def packOff (sel : Option (Nat → Bool)) : Pairs → Pairs
  | .nil => .nil
  | .cons i j low _ rest => packLow sel i j low (packOff sel rest)
def packLow (sel : Option (Nat → Bool)) (i j : Nat) : Entry → Pairs → Pairs
  | .none, rest => rest
  | .some o, rest => if hits sel o = [] then rest else .cons i j (.some (pack sel o)) .none rest
end

/-! ### The search -/

theorem hit_false {sel : Option (Nat → Bool)} {id : Nat} : hits sel (.laser id) = [] ↔ hit sel id = false := by
  unfold hits lasers
  cases h : hit sel id <;> simp [h]

theorem length_zero {l : List Nat} : l.length = 0 ↔ l = [] := List.length_eq_zero_iff

mutual
theorem find_spec (sel : Option (Nat → Bool)) (cap : Nat) : (o : Op) → Regular o → ∀ (found : Arr) (index : Nat),
    (hits sel o = [] → ∃ n, find sel cap o found index = .null n found ∧ (n = 0 ∨ ∃ id, o = .laser id ∧ n = cap)) ∧
    (hits sel o ≠ [] → find sel cap o found index =
      if index + (hits sel o).length ≤ cap then .got (pack sel o) (hits sel o).length (write found index (hits sel o))
      else .ub)
  | .laser id, _, found, index => by
    refine ⟨fun h => ⟨cap, ?_, .inr ⟨id, rfl, rfl⟩⟩, fun h => ?_⟩
    · rw [find, if_pos (hit_false.1 h)]
    · have h1 : hit sel id = true := by
        cases hh : hit sel id
        · exact absurd (hit_false.2 hh) h
        · rfl
      have h2 : hits sel (.laser id) = [id] := by
        show ([id] : List Nat).filter (hit sel) = [id]
        simp [h1]
      rw [find, if_neg (by simp [h1]), h2, write_single]
      by_cases h3 : index < cap
      · rw [if_pos h3, if_pos (by simp; omega)]; rfl
      · rw [if_neg h3, if_neg (by simp; omega)]
  | .other id, _, found, index => ⟨fun _ => ⟨0, rfl, .inl rfl⟩, fun h => absurd rfl h⟩
  | .grid parts, hr, found, index => ⟨fun _ => ⟨0, rfl, .inl rfl⟩, fun h => absurd (by
      show (lasersIn parts).filter _ = []
      rw [show lasersIn parts = [] from hr]; rfl) h⟩
  | .list p parts, hr, found, index => by
    have hs := findList_spec sel cap parts hr (fun _ => none) found index 0
    have hh : hits sel (.list p parts) = hitsIn sel parts := rfl
    rw [find, hs, hh]
    refine ⟨fun h => ⟨0, ?_, .inl rfl⟩, fun h => ?_⟩
    · rw [if_pos (.inl h)]
      unfold endList
      dsimp only
      rw [if_pos (by simp [h])]
    · simp only [Nat.add_zero, Nat.zero_add]
      by_cases h2 : index + (hitsIn sel parts).length ≤ cap
      · rw [if_pos (.inr h2), if_pos h2]
        unfold endList
        dsimp only
        rw [if_neg (fun e => h (length_zero.1 e)), pack]
      · rw [if_neg (by rintro (e | e); exacts [h e, h2 e]), if_neg h2]
        rfl
  | .multi diag pairs, hr, found, index => by
    have hs := findPairs_spec sel cap pairs hr.2 (fun _ => none) found index 0
    have hh : hits sel (.multi diag pairs) = hitsOff sel pairs := by
      show (lasersIn diag ++ lasersOff pairs).filter _ = _
      rw [hr.1]; rfl
    rw [find, hs, hh]
    refine ⟨fun h => ⟨0, ?_, .inl rfl⟩, fun h => ?_⟩
    · rw [if_pos (.inl h)]
      unfold endMulti
      dsimp only
      rw [if_pos (by simp [h])]
    · simp only [Nat.add_zero, Nat.zero_add]
      by_cases h2 : index + (hitsOff sel pairs).length ≤ cap
      · rw [if_pos (.inr h2), if_pos h2]
        unfold endMulti
        dsimp only
        rw [if_neg (fun e => h (length_zero.1 e)), pack]
      · rw [if_neg (by rintro (e | e); exacts [h e, h2 e]), if_neg h2]
        rfl
theorem findList_spec (sel : Option (Nat → Bool)) (cap : Nat) : (o : Ops) → RegularIn o →
    ∀ (sop found : Arr) (index nops : Nat), findList sel cap o sop found index nops =
      if hitsIn sel o = [] ∨ index + nops + (hitsIn sel o).length ≤ cap then
        .done (packIn sel o) (nops + (hitsIn sel o).length) (write found (index + nops) (hitsIn sel o)) else .ub
  | .nil, _, sop, found, index, nops => by
    rw [findList, show hitsIn sel .nil = [] from rfl, if_pos (.inl rfl), write_nil]
    rfl
  | .cons row o rest, hr, sop, found, index, nops => by
    have h1 := find_spec sel cap o hr.1 sop (index + nops)
    have h2 := fun sop => findList_spec sel cap rest hr.2 sop
    have hh : hitsIn sel (.cons row o rest) = hits sel o ++ hitsIn sel rest := by
      show (lasers o ++ lasersIn rest).filter _ = _
      rw [List.filter_append]
    rw [findList, hh]
    by_cases h0 : hits sel o = []
    · obtain ⟨n, hn, _⟩ := h1.1 h0
      rw [hn]
      dsimp only
      rw [h2, packIn, if_pos h0, h0, List.nil_append]
    · rw [h1.2 h0]
      by_cases h3 : index + nops + (hits sel o).length ≤ cap
      · rw [if_pos h3]
        dsimp only
        rw [copy_write cap _ (hits sel o) (index + nops) found h3 (fun k x hx => write_get _ _ _ _ _ hx)]
        dsimp only
        rw [h2, packIn, if_neg h0]
        by_cases h4 : hitsIn sel rest = []
        · rw [if_pos (.inl h4), if_pos (.inr (by simpa [h4] using h3)), h4, write_nil, List.append_nil]
          rfl
        · by_cases h5 : index + (nops + (hits sel o).length) + (hitsIn sel rest).length ≤ cap
          · rw [if_pos (.inr h5), if_pos (.inr (by simp only [List.length_append]; omega))]
            show LRes.done _ _ _ = _
            rw [← Nat.add_assoc index, write_append, List.length_append, Nat.add_assoc nops]
          · rw [if_neg (by rintro (e | e); exacts [h4 e, h5 e]), if_neg]
            · rfl
            · rintro (e | e)
              · exact h0 (List.append_eq_nil_iff.1 e).1
              · simp only [List.length_append] at e; omega
      · rw [if_neg h3, if_neg]
        rintro (e | e)
        · exact h0 (List.append_eq_nil_iff.1 e).1
        · simp only [List.length_append] at e; omega
theorem findPairs_spec (sel : Option (Nat → Bool)) (cap : Nat) : (o : Pairs) → RegularOff o →
    ∀ (sop found : Arr) (index nops : Nat), findPairs sel cap o sop found index nops =
      if hitsOff sel o = [] ∨ index + nops + (hitsOff sel o).length ≤ cap then
        .done (packOff sel o) (nops + (hitsOff sel o).length) (write found (index + nops) (hitsOff sel o)) else .ub
  | .nil, _, sop, found, index, nops => by
    rw [findPairs, show hitsOff sel .nil = [] from rfl, if_pos (.inl rfl), write_nil]
    rfl
  | .cons i j .none .none rest, hr, sop, found, index, nops => by
    rw [findPairs, findPairs_spec sel cap rest hr.2]
    rfl
  | .cons i j .none .same rest, hr, _, _, _, _ => by
    exact hr.1.elim
  | .cons i j .none (.other u) rest, hr, _, _, _, _ => by
    exact hr.1.elim
  | .cons i j (.some o) .none rest, hr, _, _, _, _ => by
    exact hr.1.elim
  | .cons i j (.some o) (.other u) rest, hr, _, _, _, _ => by
    exact hr.1.elim
  | .cons i j (.some o) .same rest, hr, sop, found, index, nops => by
    have h1 := find_spec sel cap o hr.1 sop (index + nops)
    have h2 := fun sop => findPairs_spec sel cap rest hr.2 sop
    have hh : hitsOff sel (.cons i j (.some o) .same rest) = hits sel o ++ hitsOff sel rest := by
      show (lasers o ++ [] ++ lasersOff rest).filter _ = _
      rw [List.append_nil, List.filter_append]
    rw [findPairs, hh, packOff]
    by_cases h0 : hits sel o = []
    · obtain ⟨n, hn, _⟩ := h1.1 h0
      rw [hn]
      dsimp only
      rw [h2, packLow, if_pos h0, h0, List.nil_append]
    · rw [h1.2 h0]
      by_cases h3 : index + nops + (hits sel o).length ≤ cap
      · rw [if_pos h3]
        dsimp only
        rw [copy_write cap _ (hits sel o) (index + nops) found h3 (fun k x hx => write_get _ _ _ _ _ hx)]
        dsimp only
        rw [h2, packLow, if_neg h0]
        by_cases h4 : hitsOff sel rest = []
        · rw [if_pos (.inl h4), if_pos (.inr (by simpa [h4] using h3)), h4, write_nil, List.append_nil]
          rfl
        · by_cases h5 : index + (nops + (hits sel o).length) + (hitsOff sel rest).length ≤ cap
          · rw [if_pos (.inr h5), if_pos (.inr (by simp only [List.length_append]; omega))]
            show PRes.done _ _ _ = _
            rw [← Nat.add_assoc index, write_append, List.length_append, Nat.add_assoc nops]
          · rw [if_neg (by rintro (e | e); exacts [h4 e, h5 e]), if_neg]
            · rfl
            · rintro (e | e)
              · exact h0 (List.append_eq_nil_iff.1 e).1
              · simp only [List.length_append] at e; omega
      · rw [if_neg h3, if_neg]
        rintro (e | e)
        · exact h0 (List.append_eq_nil_iff.1 e).1
        · simp only [List.length_append] at e; omega
end

/-! ### The values of the operators -/

section
variable {A : Type} [Ring A] [Algebra ℝ A]

mutual
theorem value_congr (w : World A) {E E' : Nat → ℝ} : (o : Op) → (∀ id ∈ lasers o, E id = E' id) → value w E o = value w E' o
  | .laser id, h => by rw [value, value, h id (by simp [lasers])]
  | .other id, _ => by rw [value, value]
  | .list false parts, h => by rw [value, value]; exact (values_congr w parts h).1
  | .list true parts, h => by rw [value, value]; exact (values_congr w parts h).2.1
  | .grid parts, h => by rw [value, value]; exact (values_congr w parts h).1
  | .multi diag pairs, h => by
    rw [value, value, (values_congr w diag fun id hi => h id (by simp [lasers, hi])).2.2,
      pairs_congr w pairs fun id hi => h id (by simp [lasers, hi])]
theorem values_congr (w : World A) {E E' : Nat → ℝ} : (o : Ops) → (∀ id ∈ lasersIn o, E id = E' id) →
    valueSum w E o = valueSum w E' o ∧ valueProd w E o = valueProd w E' o ∧ valueDiag w E o = valueDiag w E' o
  | .nil, _ => by simp only [valueSum, valueProd, valueDiag, and_self]
  | .cons row o rest, h => by
    have h1 := value_congr w o fun id hi => h id (by simp [lasersIn, hi])
    obtain ⟨a, b, c⟩ := values_congr w rest fun id hi => h id (by simp [lasersIn, hi])
    refine ⟨?_, ?_, ?_⟩
    · rw [valueSum, valueSum, h1, a]
    · rw [valueProd, valueProd, h1, b]
    · rw [valueDiag, valueDiag, h1, c]
theorem pairs_congr (w : World A) {E E' : Nat → ℝ} : (o : Pairs) → (∀ id ∈ lasersOff o, E id = E' id) →
    valuePairs w E o = valuePairs w E' o
  | .nil, _ => by rw [valuePairs, valuePairs]
  | .cons i j low up rest, h => by
    rw [valuePairs, valuePairs, low_congr w low fun id hi => h id (by simp [lasersOff, hi]),
      up_congr w i j _ up fun id hi => h id (by simp [lasersOff, hi]),
      pairs_congr w rest fun id hi => h id (by simp [lasersOff, hi])]
theorem low_congr (w : World A) {E E' : Nat → ℝ} : (o : Entry) → (∀ id ∈ lasersLow o, E id = E' id) →
    valueEntry w E o = valueEntry w E' o
  | .none, _ => by rw [valueEntry, valueEntry]
  | .some o, h => by rw [valueEntry, valueEntry]; exact value_congr w o fun id hi => h id (by simp [lasersLow, hi])
theorem up_congr (w : World A) {E E' : Nat → ℝ} (i j : Nat) (x : A) : (o : Upper) → (∀ id ∈ lasersUp o, E id = E' id) →
    valueUpper w E i j x o = valueUpper w E' i j x o
  | .none, _ => by rw [valueUpper, valueUpper]
  | .same, _ => by rw [valueUpper, valueUpper]
  | .other o, h => by
    rw [valueUpper, valueUpper, value_congr w o fun id hi => h id (by simp [lasersUp, hi])]
end

theorem packOff_oneSided (sel : Option (Nat → Bool)) : (o : Pairs) → (initPairs (packOff sel o)).oneSided = true
  | .nil => rfl
  | .cons i j .none _ rest => by
    rw [packOff, packLow]
    exact packOff_oneSided sel rest
  | .cons i j (.some o) _ rest => by
    rw [packOff, packLow]
    by_cases h : hits sel o = []
    · rw [if_pos h]; exact packOff_oneSided sel rest
    · rw [if_neg h, initPairs, initEntry, initUpper, Pairs.oneSided]
      exact packOff_oneSided sel rest

/-- The lasers of a list are the ones that match. -/
def Chosen (sel : Option (Nat → Bool)) (ids : List Nat) (l : List Nat) : Prop := ∀ id ∈ l, id ∈ ids ↔ hit sel id = true

theorem free_eq {sel : Option (Nat → Bool)} {ids l : List Nat} (hc : Chosen sel ids l) (h : l.filter (hit sel) = [])
    (E : Nat → ℝ) (e : ℝ) : ∀ id ∈ l, withField ids E e id = withField ids E 0 id := by
  intro id hid
  have : ¬ id ∈ ids := fun hx => by
    have := (hc id hid).1 hx
    exact List.filter_eq_nil_iff.1 h id hid this
  unfold withField
  rw [if_neg this, if_neg this]

mutual
theorem pack_value (w : World A) (sel : Option (Nat → Bool)) (ids : List Nat) (E : Nat → ℝ) (e : ℝ) : (o : Op) →
    Regular o → NoFactor o → Chosen sel ids (lasers o) → hits sel o ≠ [] →
    value w (withField ids E e) o = value w (withField ids E 0) o - e • parent w (initOp (pack sel o))
  | .laser id, _, _, hc, hh => by
    have h1 : id ∈ ids := (hc id (by simp [lasers])).2 (by
      cases hx : hit sel id
      · exact absurd (hit_false.2 hx) hh
      · rfl)
    rw [value, value, pack, initOp, parent]
    unfold withField
    rw [if_pos h1, if_pos h1]
    module
  | .other _, _, _, _, hh => absurd rfl hh
  | .grid parts, hr, _, _, hh => by
    refine absurd ?_ hh
    show (lasersIn parts).filter _ = []
    rw [show lasersIn parts = [] from hr]; rfl
  | .list true parts, _, hn, _, hh => by
    refine absurd ?_ hh
    show (lasersIn parts).filter _ = []
    rw [show lasersIn parts = [] from hn]; rfl
  | .list false parts, hr, hn, hc, _ => by
    rw [value, value, pack, initOp, parent]
    exact pack_sum w sel ids E e parts hr hn hc
  | .multi diag pairs, hr, hn, hc, _ => by
    rw [value, value, pack, initOp, parent, initOps, parentDiag, Pairs.ready, if_pos (packOff_oneSided sel pairs),
      (values_congr w (E := withField ids E e) (E' := withField ids E 0) diag (by rw [hr.1]; simp)).2.2,
      pack_pairs w sel ids E e pairs hr.2 hn fun id hi => hc id (by simp [lasers, hi])]
    module
theorem pack_sum (w : World A) (sel : Option (Nat → Bool)) (ids : List Nat) (E : Nat → ℝ) (e : ℝ) : (o : Ops) →
    RegularIn o → NoFactorIn o → Chosen sel ids (lasersIn o) →
    valueSum w (withField ids E e) o = valueSum w (withField ids E 0) o - e • parentSum w (initOps (packIn sel o))
  | .nil, _, _, _ => by
    rw [valueSum, valueSum, packIn, initOps, parentSum, smul_zero, sub_zero]
  | .cons row o rest, hr, hn, hc => by
    have hc1 : Chosen sel ids (lasers o) := fun id hi => hc id (by simp [lasersIn, hi])
    rw [valueSum, valueSum, packIn, pack_sum w sel ids E e rest hr.2 hn.2 fun id hi => hc id (by simp [lasersIn, hi])]
    by_cases h : hits sel o = []
    · rw [if_pos h, value_congr w o (free_eq hc1 h E e)]
      module
    · rw [if_neg h, initOps, parentSum, pack_value w sel ids E e o hr.1 hn.1 hc1 h]
      module
theorem pack_pairs (w : World A) (sel : Option (Nat → Bool)) (ids : List Nat) (E : Nat → ℝ) (e : ℝ) : (o : Pairs) →
    RegularOff o → NoFactorOff o → Chosen sel ids (lasersOff o) →
    valuePairs w (withField ids E e) o = valuePairs w (withField ids E 0) o -
      e • parentPairs w (initPairs (packOff sel o)).mirror
  | .nil, _, _, _ => by
    rw [valuePairs, valuePairs, packOff, initPairs, Pairs.mirror, parentPairs, smul_zero, sub_zero]
  | .cons i j .none .none rest, hr, hn, hc => by
    rw [valuePairs, valuePairs, packOff, packLow, pack_pairs w sel ids E e rest hr.2 hn.2
      fun id hi => hc id (by simp [lasersOff, hi]), valueEntry, valueEntry, valueUpper, valueUpper]
    module
  | .cons i j .none .same rest, hr, _, _ => by exact hr.1.elim
  | .cons i j .none (.other u) rest, hr, _, _ => by exact hr.1.elim
  | .cons i j (.some o) .none rest, hr, _, _ => by exact hr.1.elim
  | .cons i j (.some o) (.other u) rest, hr, _, _ => by exact hr.1.elim
  | .cons i j (.some o) .same rest, hr, hn, hc => by
    have hc1 : Chosen sel ids (lasers o) := fun id hi => hc id (by simp [lasersOff, lasersLow, hi])
    rw [valuePairs, valuePairs, packOff, packLow, pack_pairs w sel ids E e rest hr.2 hn.2
      fun id hi => hc id (by simp [lasersOff, hi]), valueEntry, valueEntry, valueUpper, valueUpper]
    by_cases h : hits sel o = []
    · rw [if_pos h, value_congr w o (free_eq hc1 h E e)]
      module
    · rw [if_neg h, initPairs, initEntry, initUpper, Pairs.mirror, parentPairs, parentEntry, parentUpper,
        pack_value w sel ids E e o hr.1 hn.1 hc1 h, map_sub, map_sub, map_smul, map_smul]
      module
end

end

end QDng.Coupling
