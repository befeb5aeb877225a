import Mathlib.Order.Basic
import Mathlib.Order.Defs.LinearOrder
import Mathlib.Data.List.Lex
import Mathlib.Data.Char

/-!
# Model of `std::map`

The C++ code uses `std::map<string, T>` at many places (for example
`/repo/src/tools/ParamContainer.h:40-41`, `/repo/src/GlobalOpList.h`, `/repo/src/tools/Memory.h:60`).
It is modelled as an association list kept in strictly increasing key order, which is exactly what
iterating over a `std::map` shows.  Trusted: libstdc++'s map behaves like this list.
-/

namespace QDng

/-- C++ `std::string` as a list of characters (simplification: characters instead of bytes). -/
abbrev Str := List Char

/-- `std::map<K,V>` (used e.g. at `/repo/src/tools/ParamContainer.h:18,40-41`): key/value pairs in
iteration order. -/
abbrev OMap (K V : Type) := List (K × V)

namespace OMap

variable {K V : Type} [LinearOrder K]

/-- `m[k] = v` (`std::map::operator[]` followed by assignment, e.g.
`/repo/src/tools/ParamContainer.cpp:495-496`). -/
def insert (k : K) (v : V) : OMap K V → OMap K V
  | [] => [(k, v)]
  | (k', v') :: r =>
    if k < k' then (k, v) :: (k', v') :: r
    else if k = k' then (k, v) :: r
    else (k', v') :: insert k v r

/-- `m.find(k)` (e.g. `/repo/src/tools/ParamContainer.cpp:132`), `none` is `m.end()`. -/
def find (k : K) : OMap K V → Option V
  | [] => none
  | (k', v') :: r => if k = k' then some v' else find k r

/-- `m.erase(k)` (e.g. `/repo/src/tools/Memory.cpp:261`). -/
def erase (k : K) : OMap K V → OMap K V
  | [] => []
  | (k', v') :: r => if k = k' then r else (k', v') :: erase k r

/-- Representation invariant of `std::map`: keys strictly increasing. -/
def Sorted (m : OMap K V) : Prop := m.Pairwise (fun a b => a.1 < b.1)

theorem sorted_nil : Sorted ([] : OMap K V) := List.Pairwise.nil

theorem mem_insert {k : K} {v : V} {m : OMap K V} {p : K × V} (h : p ∈ insert k v m) :
    p = (k, v) ∨ p ∈ m := by
  induction m with
  | nil => simp [insert] at h; exact Or.inl h
  | cons q r ih =>
    obtain ⟨k', v'⟩ := q
    unfold insert at h
    split at h
    · rcases List.mem_cons.1 h with h | h
      · exact Or.inl h
      · exact Or.inr h
    · split at h
      · rcases List.mem_cons.1 h with h | h
        · exact Or.inl h
        · exact Or.inr (List.mem_cons_of_mem _ h)
      · rcases List.mem_cons.1 h with h | h
        · exact Or.inr (h ▸ List.mem_cons_self)
        · rcases ih h with h | h
          · exact Or.inl h
          · exact Or.inr (List.mem_cons_of_mem _ h)

theorem sorted_insert {k : K} {v : V} {m : OMap K V} (h : Sorted m) : Sorted (insert k v m) := by
  induction m with
  | nil => simp [insert, Sorted]
  | cons q r ih =>
    obtain ⟨k', v'⟩ := q
    have h1 := List.pairwise_cons.1 h
    unfold insert
    split
    · rename_i hlt
      refine List.pairwise_cons.2 ⟨?_, h⟩
      intro a ha
      rcases List.mem_cons.1 ha with ha | ha
      · subst ha; exact hlt
      · exact lt_trans hlt (h1.1 a ha)
    · split
      · rename_i heq
        subst heq
        exact List.pairwise_cons.2 ⟨h1.1, h1.2⟩
      · rename_i hn hne
        refine List.pairwise_cons.2 ⟨?_, ih h1.2⟩
        intro a ha
        rcases mem_insert ha with ha | ha
        · subst ha
          exact lt_of_le_of_ne (not_lt.1 hn) (Ne.symm hne)
        · exact h1.1 a ha

theorem find_none_of_lt {k : K} {m : OMap K V} (h : ∀ p ∈ m, k < p.1) : find k m = none := by
  induction m with
  | nil => rfl
  | cons q r ih =>
    obtain ⟨k', v'⟩ := q
    have := h (k', v') List.mem_cons_self
    unfold find
    rw [if_neg (ne_of_lt this)]
    exact ih (fun p hp => h p (List.mem_cons_of_mem _ hp))

theorem find_insert (k k' : K) (v : V) (m : OMap K V) :
    find k' (insert k v m) = if k' = k then some v else find k' m := by
  induction m with
  | nil => simp [insert, find]
  | cons q r ih =>
    obtain ⟨kq, vq⟩ := q
    unfold insert
    split
    · simp [find]
    · split
      · rename_i heq
        subst heq
        simp only [find]
        split <;> simp
      · rename_i hn hne
        simp only [find, ih]
        by_cases h1 : k' = kq
        · subst h1
          have : ¬ k' = k := fun h => hne h.symm
          simp [this]
        · simp [h1]

theorem erase_sublist (k : K) (m : OMap K V) : (erase k m).Sublist m := by
  induction m with
  | nil => exact List.Sublist.refl _
  | cons q r ih =>
    obtain ⟨k', v'⟩ := q
    unfold erase
    split
    · exact List.sublist_cons_self _ _
    · exact List.Sublist.cons_cons _ ih

theorem sorted_erase {k : K} {m : OMap K V} (h : Sorted m) : Sorted (erase k m) :=
  List.Pairwise.sublist (erase_sublist k m) h

theorem find_erase {m : OMap K V} (h : Sorted m) (k k' : K) :
    find k' (erase k m) = if k' = k then none else find k' m := by
  induction m with
  | nil => simp [erase, find]
  | cons q r ih =>
    obtain ⟨kq, vq⟩ := q
    have h1 := List.pairwise_cons.1 h
    unfold erase
    split
    · rename_i heq
      subst heq
      by_cases h2 : k' = k
      · subst h2
        simp only [if_true]
        exact find_none_of_lt h1.1
      · simp [find, h2]
    · rename_i hne
      simp only [find, ih h1.2]
      by_cases h2 : k' = kq
      · subst h2
        have : ¬ k' = k := fun h => hne h.symm
        simp [this]
      · simp [h2]

theorem find_eq_some_iff {m : OMap K V} (h : Sorted m) (k : K) (v : V) :
    find k m = some v ↔ (k, v) ∈ m := by
  induction m with
  | nil => simp [find]
  | cons q r ih =>
    obtain ⟨kq, vq⟩ := q
    have h1 := List.pairwise_cons.1 h
    unfold find
    split
    · rename_i heq
      subst heq
      constructor
      · intro h2
        simp at h2
        subst h2
        exact List.mem_cons_self
      · intro h2
        rcases List.mem_cons.1 h2 with h2 | h2
        · simp at h2; simp [h2]
        · exact absurd (h1.1 _ h2) (lt_irrefl _)
    · rename_i hne
      rw [ih h1.2]
      constructor
      · exact List.mem_cons_of_mem _
      · intro h2
        rcases List.mem_cons.1 h2 with h2 | h2
        · simp at h2; exact absurd h2.1 hne
        · exact h2

/-- Two maps with the same look-ups are the same map. -/
theorem ext {m n : OMap K V} (hm : Sorted m) (hn : Sorted n) (h : ∀ k, find k m = find k n) :
    m = n := by
  induction m generalizing n with
  | nil =>
    cases n with
    | nil => rfl
    | cons q r =>
      have := h q.1
      simp [find] at this
  | cons p m ih =>
    cases n with
    | nil =>
      have := h p.1
      simp [find] at this
    | cons q r =>
      have hm1 := List.pairwise_cons.1 hm
      have hn1 := List.pairwise_cons.1 hn
      obtain ⟨kp, vp⟩ := p
      obtain ⟨kq, vq⟩ := q
      have hk : kp = kq := by
        rcases lt_trichotomy kp kq with hlt | heq | hgt
        · exfalso
          have h2 := h kp
          have h3 : find kp ((kq, vq) :: r) = none := by
            apply find_none_of_lt
            intro a ha
            rcases List.mem_cons.1 ha with ha | ha
            · subst ha; exact hlt
            · exact lt_trans hlt (hn1.1 a ha)
          rw [h3] at h2
          simp [find] at h2
        · exact heq
        · exfalso
          have h2 := h kq
          have h3 : find kq ((kp, vp) :: m) = none := by
            apply find_none_of_lt
            intro a ha
            rcases List.mem_cons.1 ha with ha | ha
            · subst ha; exact hgt
            · exact lt_trans hgt (hm1.1 a ha)
          rw [h3] at h2
          simp [find] at h2
      subst hk
      have hv : vp = vq := by
        have := h kp
        simpa [find] using this
      subst hv
      congr 1
      apply ih hm1.2 hn1.2
      intro k
      by_cases hkk : k = kp
      · subst hkk
        rw [find_none_of_lt hm1.1, find_none_of_lt hn1.1]
      · have := h k
        simpa [find, hkk] using this

theorem find_mem {m : OMap K V} {k : K} {v : V} (h : find k m = some v) : (k, v) ∈ m := by
  induction m with
  | nil => simp [find] at h
  | cons q r ih =>
    obtain ⟨kq, vq⟩ := q
    unfold find at h
    split at h
    · rename_i hk
      subst hk
      simp at h
      subst h
      exact List.mem_cons_self
    · exact List.mem_cons_of_mem _ (ih h)

theorem insert_same {m : OMap K V} (hm : Sorted m) {k : K} {v : V} (h : find k m = some v) :
    insert k v m = m := by
  apply ext (sorted_insert hm) hm
  intro k'
  rw [find_insert]
  split
  · rename_i hk; rw [hk, h]
  · rfl

theorem erase_none {m : OMap K V} {k : K} (h : find k m = none) : erase k m = m := by
  induction m with
  | nil => rfl
  | cons q r ih =>
    obtain ⟨kq, vq⟩ := q
    unfold find at h
    unfold erase
    split at h
    · simp at h
    · rename_i hk
      rw [if_neg hk, ih h]

/-! ### Mapping the values, sums -/

/-- Apply a function to all values. -/
def mapv {U : Type} (f : V → U) (m : OMap K V) : OMap K U := m.map (fun p => (p.1, f p.2))

theorem mapv_insert {U : Type} (f : V → U) (k : K) (v : V) (m : OMap K V) :
    mapv f (insert k v m) = insert k (f v) (mapv f m) := by
  induction m with
  | nil => rfl
  | cons q r ih =>
    obtain ⟨kq, vq⟩ := q
    show mapv f (insert k v ((kq, vq) :: r)) = insert k (f v) ((kq, f vq) :: mapv f r)
    unfold insert
    split
    · rfl
    · split
      · rfl
      · rw [← ih]; rfl

theorem mapv_erase {U : Type} (f : V → U) (k : K) (m : OMap K V) :
    mapv f (erase k m) = erase k (mapv f m) := by
  induction m with
  | nil => rfl
  | cons q r ih =>
    obtain ⟨kq, vq⟩ := q
    show mapv f (erase k ((kq, vq) :: r)) = erase k ((kq, f vq) :: mapv f r)
    unfold erase
    split
    · rfl
    · rw [← ih]; rfl

theorem find_mapv {U : Type} (f : V → U) (k : K) (m : OMap K V) :
    find k (mapv f m) = (find k m).map f := by
  induction m with
  | nil => rfl
  | cons q r ih =>
    obtain ⟨kq, vq⟩ := q
    show find k ((kq, f vq) :: mapv f r) = _
    unfold find
    split
    · rfl
    · exact ih

theorem sorted_mapv {U : Type} (f : V → U) {m : OMap K V} (h : Sorted m) : Sorted (mapv f m) := by
  unfold Sorted mapv
  rw [List.pairwise_map]
  exact h

/-- Sum of all values. -/
def total (m : OMap K Nat) : Nat := (m.map (fun p => p.2)).sum

theorem total_insert {m : OMap K Nat} {k : K} (v : Nat) (h : find k m = none) :
    total (insert k v m) = total m + v := by
  induction m with
  | nil => simp [insert, total]
  | cons q r ih =>
    obtain ⟨kq, vq⟩ := q
    unfold find at h
    split at h
    · simp at h
    · rename_i hk
      have ih := ih h
      unfold insert
      unfold total at *
      split
      · simp; omega
      · simp at ih ⊢
        omega

theorem total_erase {m : OMap K Nat} {k : K} {v : Nat} (h : find k m = some v) :
    total (erase k m) + v = total m := by
  induction m with
  | nil => simp [find] at h
  | cons q r ih =>
    obtain ⟨kq, vq⟩ := q
    unfold find at h
    unfold erase
    unfold total at *
    split at h
    · rename_i hk
      simp at h
      rw [if_pos hk]
      simp
      omega
    · rename_i hk
      have ih := ih h
      rw [if_neg hk]
      simp
      omega

end OMap
end QDng
