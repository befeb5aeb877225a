import Verif.Linalg.Model
import Mathlib.Algebra.Ring.Basic
import Mathlib.Data.Int.Basic
import Mathlib.Algebra.Ring.Int.Defs

/-
Properties of vector storage (C21), matrix vector products (C23), transposition and the diagonal
(C66) and the order of lower triangular input (C67).
-/

namespace QDng.Linalg

open QDng.Common

/-! ### C21 -/

/-- A vector whose storage is as `initialize` makes it: `k` strides of `n / k` elements. -/
def Vec.Shape {A : Type} (w : Vec A) (n k : Nat) : Prop :=
  w.n = n ∧ w.v.length = k ∧ w.ssize = n / k ∧ ∀ l ∈ w.v, l.length = n / k

theorem shape_init {A : Type} (n k : Nat) (hk : 0 < k) :
    ∃ w, Vec.init A n k = some w ∧ w.Shape n k := by
  refine ⟨_, by unfold Vec.init; rw [if_neg (by omega)], rfl, by simp, rfl, ?_⟩
  intro l hl
  rw [List.mem_replicate] at hl
  rw [hl.2, List.length_replicate]

/-- C21: a new vector has the storage described by `Shape`, for every size and number of strides. -/
theorem C21_init {A : Type} (n k : Nat) (hk : 0 < k) :
    ∃ w, Vec.init A n k = some w ∧ w.n = n ∧ w.v.length = k ∧ w.ssize = n / k ∧
      ∀ l ∈ w.v, l.length = n / k := shape_init n k hk

theorem get_of_shape {A : Type} {w : Vec A} {n k : Nat} (h : w.Shape n k) (hd : k ∣ n) (i : Nat)
    (hi : i < n) : ∃ (hs : i / (n / k) < w.v.length)
      (hj : i % (n / k) < (w.v[i / (n / k)]).length),
      w.get i = some ((w.v[i / (n / k)])[i % (n / k)]) := by
  obtain ⟨h1, h2, h3, h4⟩ := h
  have hm : n / k * k = n := Nat.div_mul_cancel hd
  have hpos : 0 < n / k := by
    rcases Nat.eq_zero_or_pos (n / k) with h0 | h0
    · rw [h0] at hm; omega
    · exact h0
  have hs : i / (n / k) < w.v.length := by
    rw [h2]; apply Nat.div_lt_of_lt_mul; rw [hm]; exact hi
  have hl := h4 _ (List.getElem_mem hs)
  have hj : i % (n / k) < (w.v[i / (n / k)]).length := by rw [hl]; exact Nat.mod_lt _ hpos
  refine ⟨hs, hj, ?_⟩
  unfold Vec.get
  rw [h3, if_neg (by omega), List.getElem?_eq_getElem hs]
  simp only
  rw [List.getElem?_eq_getElem hj]

/-- C21: when the number of strides divides the size, every element below the size can be read and
written without leaving the storage, writing one element changes that element and no other, and the
storage keeps its shape. -/
theorem C21_elements {A : Type} (w : Vec A) (n k i : Nat) (x : A) (h : w.Shape n k) (hd : k ∣ n)
    (hi : i < n) :
    ∃ w', w.put i x = some w' ∧ w'.Shape n k ∧ w'.get i = some (some x) ∧
      ∀ j, j < n → j ≠ i → w'.get j = w.get j ∧ w.get j ≠ none := by
  obtain ⟨hs, hj, _⟩ := get_of_shape h hd i hi
  obtain ⟨h1, h2, h3, h4⟩ := h
  have hm : n / k * k = n := Nat.div_mul_cancel hd
  have hpos : 0 < n / k := by
    rcases Nat.eq_zero_or_pos (n / k) with h0 | h0
    · rw [h0] at hm; omega
    · exact h0
  let l := w.v[i / (n / k)]
  let w' : Vec A := { w with v := w.v.set (i / (n / k)) (l.set (i % (n / k)) (some x)) }
  have hw' : w'.Shape n k := by
    refine ⟨h1, by simpa [w'] using h2, h3, ?_⟩
    intro l' hl'
    rcases List.mem_or_eq_of_mem_set hl' with hl' | hl'
    · exact h4 _ hl'
    · rw [hl', List.length_set]; exact h4 _ (List.getElem_mem hs)
  refine ⟨w', ?_, hw', ?_, ?_⟩
  · unfold Vec.put
    rw [h3, if_neg (by omega), List.getElem?_eq_getElem hs]
    simp only [upd]
    rw [List.getElem?_eq_getElem hj]
    simp only [w', l, h3]
  · obtain ⟨a, b, c⟩ := get_of_shape hw' hd i hi
    rw [c]
    simp [w']
  · intro j hjn hne
    obtain ⟨a, b, c⟩ := get_of_shape hw' hd j hjn
    obtain ⟨a', b', c'⟩ := get_of_shape ⟨h1, h2, h3, h4⟩ hd j hjn
    refine ⟨?_, by rw [c']; simp⟩
    rw [c, c']
    congr 1
    by_cases e1 : i / (n / k) = j / (n / k)
    · have e2 : i % (n / k) ≠ j % (n / k) := by
        intro e2
        apply hne
        rw [← Nat.mod_add_div j (n / k), ← Nat.mod_add_div i (n / k), e1, e2]
      simp only [w', l]
      simp [← e1, List.getElem_set_ne e2]
    · simp [w', List.getElem_set_ne e1]

/-- C21: every position of the storage belongs to an element: no element is unreachable through the
access operator. -/
theorem C21_covers {A : Type} (w : Vec A) (n k s j : Nat) (h : w.Shape n k) (hd : k ∣ n)
    (hs : s < k) (hj : j < n / k) :
    ∃ i, i < n ∧ w.get i = (w.v[s]?).bind (fun l => l[j]?) := by
  have hm : n / k * k = n := Nat.div_mul_cancel hd
  have hdiv : (s * (n / k) + j) / (n / k) = s := by
    rw [Nat.mul_comm, Nat.mul_add_div (by omega), Nat.div_eq_of_lt hj, Nat.add_zero]
  have hmod : (s * (n / k) + j) % (n / k) = j := by
    rw [Nat.mul_comm, Nat.mul_add_mod, Nat.mod_eq_of_lt hj]
  have hi : s * (n / k) + j < n := by
    have : (s + 1) * (n / k) ≤ k * (n / k) := Nat.mul_le_mul_right _ (by omega)
    rw [Nat.mul_comm k, hm, Nat.add_mul] at this
    omega
  refine ⟨s * (n / k) + j, hi, ?_⟩
  unfold Vec.get
  rw [h.2.2.1, if_neg (by omega), hdiv, hmod]
  cases w.v[s]? <;> rfl

/-- C21, the exact limit of the storage: an access below the size is in bounds exactly if it lies in
the `k * (n / k)` allocated elements. -/
theorem C21_bounds {A : Type} (w : Vec A) (n k i : Nat) (h : w.Shape n k) :
    w.get i ≠ none ↔ i < k * (n / k) := by
  obtain ⟨h1, h2, h3, h4⟩ := h
  unfold Vec.get
  rw [h3]
  by_cases h0 : n / k = 0
  · simp [h0]
  · rw [if_neg h0]
    have hpos : 0 < n / k := by omega
    by_cases hi : i < k * (n / k)
    · have hs : i / (n / k) < w.v.length := by
        rw [h2]; apply Nat.div_lt_of_lt_mul; rw [Nat.mul_comm]; exact hi
      rw [List.getElem?_eq_getElem hs]
      simp only
      rw [List.getElem?_eq_getElem (by rw [h4 _ (List.getElem_mem hs)]; exact Nat.mod_lt _ hpos)]
      simp [hi]
    · have hs : w.v.length ≤ i / (n / k) := by
        rw [h2, Nat.le_div_iff_mul_le hpos]; omega
      rw [List.getElem?_eq_none hs]
      simp [hi]

/-- C21 is violated when the number of strides does not divide the size: there always is an element
below the size whose access leaves the storage. -/
theorem C21_violated_remainder {A : Type} (n k : Nat) (hk : 0 < k) (hd : ¬ k ∣ n) :
    ∃ w, Vec.init A n k = some w ∧ ∃ i, i < n ∧ w.get i = none := by
  obtain ⟨w, h1, h2⟩ := shape_init (A := A) n k hk
  have hlt : k * (n / k) < n := by
    have h := Nat.mul_div_le n k
    rcases Nat.lt_or_eq_of_le h with h | h
    · exact h
    · exact absurd ⟨n / k, h.symm⟩ hd
  refine ⟨w, h1, k * (n / k), hlt, ?_⟩
  have := (C21_bounds w n k (k * (n / k)) h2)
  by_cases e : w.get (k * (n / k)) = none
  · exact e
  · have := this.1 e; omega

theorem loop_map {A : Type} (f : A → A) (l : List A) :
    loop l.length (fun i l => upd i f l) l = some (l.map f) := by
  have h := acts_loop (L := l.length) l.length (fun i l => upd i f l) (fun i p => p = i)
    (fun _ => f) (fun k hk => acts_upd f _ hk rfl) (fun k k' _ _ p h1 h2 => by rw [← h1, ← h2])
  obtain ⟨s', h1, h2, h3, _⟩ := h l rfl
  rw [h1]
  congr 1
  apply List.ext_getElem?
  intro p
  by_cases hp : p < l.length
  · rw [h3 p ⟨p, hp, rfl⟩, List.getElem?_map]
  · rw [List.getElem?_eq_none (by omega), List.getElem?_eq_none (by simpa using hp)]

theorem forAll_eq {A : Type} (w : Vec A) (f : Option A → Option A)
    (h : ∀ l ∈ w.v, l.length = w.ssize) :
    w.forAll f = some { w with v := w.v.map (List.map f) } := by
  have : ∀ m, m ≤ w.v.length → loop m (strideLoop w.ssize f) w.v =
      some ((w.v.take m).map (List.map f) ++ w.v.drop m) := by
    intro m hm
    induction m with
    | zero => simp [loop]
    | succ m ih =>
      have hm' : m < w.v.length := by omega
      simp only [loop, ih (by omega), Option.bind_some]
      have e : ((w.v.take m).map (List.map f) ++ w.v.drop m)[m]? = some w.v[m] := by
        rw [List.getElem?_append_right (by simp; omega)]
        simp [Nat.min_eq_left (by omega : m ≤ w.v.length)]
      have hl : w.ssize = (w.v[m]).length := (h _ (List.getElem_mem hm')).symm
      simp only [strideLoop, e]
      rw [hl, loop_map]
      simp only [Option.map_some]
      congr 1
      rw [List.set_append_right _ _ (by simp; omega)]
      simp only [List.length_map, List.length_take, Nat.min_eq_left (by omega : m ≤ w.v.length),
        Nat.sub_self]
      rw [List.drop_eq_getElem_cons hm', List.set_cons_zero, List.take_add_one,
        List.getElem?_eq_getElem hm']
      simp only [List.map_append, Option.toList, List.map_cons, List.map_nil, List.append_assoc,
        List.cons_append, List.nil_append]
  unfold Vec.forAll
  rw [this w.v.length (Nat.le_refl _)]
  simp

/-- C21: scaling a strided vector multiplies every element once, and assigning a scalar sets every
element, for every stride count that divides the size. -/
theorem C21_scale_fill {A : Type} [Mul A] (w : Vec A) (n k : Nat) (c : A) (h : w.Shape n k)
    (hd : k ∣ n) :
    ∃ s f, w.scale c = some s ∧ w.fill c = some f ∧ s.Shape n k ∧ f.Shape n k ∧
      ∀ i, i < n → (∃ x, w.get i = some x ∧ s.get i = some (x.map (fun y => y * c))) ∧
        f.get i = some (some c) := by
  have hss : ∀ l ∈ w.v, l.length = w.ssize := by
    intro l hl; rw [h.2.2.1]; exact h.2.2.2 l hl
  have shp : ∀ g : Option A → Option A,
      Vec.Shape { w with v := w.v.map (List.map g) } n k := by
    intro g
    refine ⟨h.1, by simpa using h.2.1, h.2.2.1, ?_⟩
    intro l hl
    simp only [List.mem_map] at hl
    obtain ⟨l0, h0, rfl⟩ := hl
    rw [List.length_map]; exact h.2.2.2 l0 h0
  have hget : ∀ (g : Option A → Option A) i, i < n → ∃ x, w.get i = some x ∧
      Vec.get { w with v := w.v.map (List.map g) } i = some (g x) := by
    intro g i hi
    obtain ⟨a, b, e⟩ := get_of_shape h hd i hi
    obtain ⟨a', b', e'⟩ := get_of_shape (shp g) hd i hi
    refine ⟨_, e, ?_⟩
    rw [e']
    simp
  refine ⟨_, _, forAll_eq w _ hss, forAll_eq w _ hss, shp _, shp _, ?_⟩
  intro i hi
  refine ⟨hget _ i hi, ?_⟩
  obtain ⟨x, _, e⟩ := hget (fun _ => some c) i hi
  exact e

/-- C21: copying a stride replaces the elements of that stride and no other, for stride numbers in
range. -/
theorem C21_stride_copy {A : Type} (w u : Vec A) (n k n' k' source dest : Nat) (h : w.Shape n k)
    (h' : u.Shape n' k') (hs : source < k') (hd : dest < k) (he : n / k = n' / k') :
    ∃ w', w.strideCopy u source dest = some (true, w') ∧ w'.v = w.v.set dest (u.v[source]'(by
      rw [h'.2.1]; exact hs)) := by
  obtain ⟨h1, h2, h3, h4⟩ := h
  obtain ⟨g1, g2, g3, g4⟩ := h'
  have hdl : dest < w.v.length := by omega
  have hsl : source < u.v.length := by omega
  unfold Vec.strideCopy
  rw [if_neg (by rw [h2, g2, h3, g3, he]; omega)]
  have hlen1 := h4 _ (List.getElem_mem hdl)
  have hlen2 := g4 _ (List.getElem_mem hsl)
  by_cases h0 : w.ssize = 0
  · rw [if_pos h0]
    refine ⟨w, rfl, ?_⟩
    have e1 : w.v[dest] = [] := by
      rw [← List.length_eq_zero_iff, hlen1, ← h3, h0]
    have e2 : u.v[source] = [] := by
      rw [← List.length_eq_zero_iff, hlen2, ← he, ← h3, h0]
    rw [e2]
    have := List.set_getElem_self (as := w.v) (i := dest) hdl
    rw [e1] at this
    exact this.symm
  · rw [if_neg h0, List.getElem?_eq_getElem hdl, List.getElem?_eq_getElem hsl]
    simp only
    have key := acts_loop (L := n / k) w.ssize (copyElem (u.v[source])) (fun i p => p = i)
        (fun p old => match (u.v[source])[p]? with | some x => x | none => old) (by
          intro i hi
          rw [h3] at hi
          have hx : (u.v[source])[i]? = some ((u.v[source])[i]'(by omega)) :=
            List.getElem?_eq_getElem (by omega)
          refine (acts_upd (fun _ => (u.v[source])[i]'(by omega)) _ hi ?_).mono ?_
            (fun _ => Iff.rfl) (fun _ _ => rfl)
          · funext o; simp only [hx]
          · intro s _; simp only [copyElem, hx])
        (fun a b _ _ p h1 h2 => by rw [← h1, ← h2])
    obtain ⟨s', e1, e2, e3, _⟩ := key (w.v[dest]) hlen1
    have e4 : s' = u.v[source] := by
      apply List.ext_getElem?
      intro p
      by_cases hp : p < n / k
      · rw [e3 p ⟨p, by omega, rfl⟩]
        have hx : (u.v[source])[p]? = some ((u.v[source])[p]'(by omega)) :=
          List.getElem?_eq_getElem (by omega)
        rw [List.getElem?_eq_getElem (by omega : p < (w.v[dest]).length)]
        simp only [hx, Option.map_some]
      · rw [List.getElem?_eq_none (by omega), List.getElem?_eq_none (by omega)]
    rw [e1]
    exact ⟨{ w with v := w.v.set dest s' }, rfl, by rw [e4]⟩

/-- C21 is violated by the range test of the stride copy: the stride number equal to the number of
strides passes the test and writes behind the storage. -/
theorem C21_violated_stride_copy :
    ∃ w : Vec Nat, Vec.init Nat 4 2 = some w ∧ w.strideCopy w 0 2 = none ∧
      w.strideCopy w 2 0 = none ∧ w.strideCopy w 0 3 = some (false, w) :=
  ⟨_, rfl, rfl, rfl, rfl⟩

/-- Six elements in three strides meet the hypotheses of C21; the element 4 is position 0 of the
last stride. -/
example : ∃ w : Vec Nat, w.Shape 6 3 ∧ 3 ∣ 6 ∧ w.v = [[some 0, some 1], [some 2, some 3],
    [some 4, some 5]] ∧ w.get 4 = some (some 4) := by
  refine ⟨⟨[[some 0, some 1], [some 2, some 3], [some 4, some 5]], 6, 2⟩, ⟨rfl, rfl, rfl, ?_⟩,
    ⟨2, rfl⟩, rfl, rfl⟩
  intro l hl
  simp at hl
  rcases hl with rfl | rfl | rfl <;> rfl

/-! ### C23 -/

/-- The sum of `f 0`, ..., `f (n - 1)`. -/
def sumN {T : Type} [Zero T] [Add T] (f : Nat → T) : Nat → T
  | 0 => 0
  | n + 1 => sumN f n + f n

/-- A matrix with `rows` rows and `cols` columns and the elements `a i j`. -/
def Mat.Has {U : Type} (M : Mat U) (rows cols : Nat) (a : Nat → Nat → U) : Prop :=
  M.m = rows ∧ M.n = cols ∧ M.v.length = rows * cols ∧
    ∀ i j, i < rows → j < cols → M.get i j = some (a i j)

theorem mvRow {T : Type} [Semiring T] (cols i : Nat) (e : Nat → Option T) (f : Nat → T)
    (a : List T) (ha : cols ≤ a.length) (he : ∀ j, j < cols → e j = some (f j))
    (b : List (Option T)) (hi : i < b.length) :
    (upd i (fun _ => some 0) b).bind (fun b =>
      loop cols (fun j b =>
        match e j, a[j]? with
        | some x, some y => upd i (fun o => o.map (fun s => s + x * y)) b
        | _, _ => none) b) =
    some (b.set i (some (sumN (fun j => f j * (a[j]?).getD 0) cols))) := by
  have h0 : upd i (fun _ => some 0) b = some (b.set i (some (0 : T))) := by
    simp [upd, List.getElem?_eq_getElem hi]
  rw [h0]
  simp only [Option.bind_some]
  induction cols with
  | zero => simp [loop, sumN]
  | succ m ih =>
    have hm : m < a.length := by omega
    simp only [loop, ih (by omega) (fun j hj => he j (by omega)), Option.bind_some,
      he m (by omega), List.getElem?_eq_getElem hm]
    simp [upd, hi, sumN, hm]

theorem mvLoop_spec {T : Type} [Semiring T] (rows cols : Nat) (e : Nat → Nat → Option T)
    (f : Nat → Nat → T) (a : List T) (ha : cols ≤ a.length)
    (he : ∀ i j, i < rows → j < cols → e i j = some (f i j))
    (b : List (Option T)) (hb : rows ≤ b.length) :
    ∃ r, mvLoop rows cols e a b = some r ∧ r.length = b.length ∧
      (∀ i, i < rows → r[i]? = some (some (sumN (fun j => f i j * (a[j]?).getD 0) cols))) ∧
      (∀ i, rows ≤ i → r[i]? = b[i]?) := by
  have key := acts_loop (L := b.length) rows (fun i b =>
    (upd i (fun _ => some 0) b).bind (fun b =>
      loop cols (fun j b =>
        match e i j, a[j]? with
        | some x, some y => upd i (fun o => o.map (fun s => s + x * y)) b
        | _, _ => none) b)) (fun i p => p = i)
    (fun p _ => some (sumN (fun j => f p j * (a[j]?).getD 0) cols))
    (by
      intro i hi s hs
      refine ⟨_, mvRow cols i (e i) (f i) a ha (fun j hj => he i j hi hj) s (by omega),
        by simpa using hs, ?_, ?_⟩
      · rintro p rfl
        rw [List.getElem?_set_self (by omega), List.getElem?_eq_getElem (by omega)]
        rfl
      · intro p hp
        rw [List.getElem?_set_ne (fun h => hp h.symm)])
    (fun a b _ _ p h1 h2 => by rw [← h1, ← h2])
  obtain ⟨r, h1, h2, h3, h4⟩ := key b rfl
  refine ⟨r, h1, h2, ?_, ?_⟩
  · intro i hi
    rw [h3 i ⟨i, hi, rfl⟩, List.getElem?_eq_getElem (by omega)]
    rfl
  · intro i hi
    exact h4 i (by rintro ⟨k, hk, rfl⟩; omega)

/-- C23 for square matrices: without flags the result is the matrix times the vector, with the
transpose flag the transposed matrix times the vector and with both flags the adjoint matrix times
the vector, whatever the result vector held before.  Missing: matrices that are not square (see
`C23_violated_shape`, `C23_violated_bounds`, `C23_violated_transpose`). -/
theorem C23_square_partial {T : Type} [Semiring T] (conj : T → T) (M : Mat T) (n : Nat)
    (m : Nat → Nat → T) (hM : M.Has n n m) (a : List T) (ha : a.length = n)
    (b : List (Option T)) :
    (∀ adj, ∃ r, matVecMult conj b M a false adj = some r ∧ r.length = n ∧
      ∀ i, i < n → r[i]? = some (some (sumN (fun j => m i j * (a[j]?).getD 0) n))) ∧
    (∃ r, matVecMult conj b M a true false = some r ∧ r.length = n ∧
      ∀ i, i < n → r[i]? = some (some (sumN (fun j => m j i * (a[j]?).getD 0) n))) ∧
    (∃ r, matVecMult conj b M a true true = some r ∧ r.length = n ∧
      ∀ i, i < n → r[i]? = some (some (sumN (fun j => conj (m j i) * (a[j]?).getD 0) n))) := by
  obtain ⟨h1, h2, h3, h4⟩ := hM
  have hbl : (if b.length ≠ a.length then List.replicate a.length (none : Option T) else b).length
      = n := by
    by_cases e : b.length ≠ a.length
    · rw [if_pos e, List.length_replicate]; exact ha
    · rw [if_neg e]; omega
  refine ⟨fun adj => ?_, ?_, ?_⟩
  · obtain ⟨r, k1, k2, k3, _⟩ := mvLoop_spec n n (fun i j => M.get i j) m a (by omega)
      (fun i j hi hj => h4 i j hi hj) _ (by omega : n ≤ (if b.length ≠ a.length then
        List.replicate a.length (none : Option T) else b).length)
    refine ⟨r, ?_, by omega, k3⟩
    unfold matVecMult
    rw [if_neg (by omega), if_neg (by simp), h1, h2]
    simpa using k1
  · obtain ⟨r, k1, k2, k3, _⟩ := mvLoop_spec n n (fun i j => M.get j i) (fun i j => m j i) a
      (by omega) (fun i j hi hj => h4 j i hj hi) _ (by omega : n ≤ (if b.length ≠ a.length then
        List.replicate a.length (none : Option T) else b).length)
    refine ⟨r, ?_, by omega, k3⟩
    unfold matVecMult
    rw [if_neg (by simp), if_neg (by omega), h1, h2]
    simpa using k1
  · obtain ⟨r, k1, k2, k3, _⟩ := mvLoop_spec n n (fun i j => (M.get j i).map conj)
      (fun i j => conj (m j i)) a
      (by omega) (fun i j hi hj => by simp only [h4 j i hj hi, Option.map_some]) _
      (by omega : n ≤ (if b.length ≠ a.length then
        List.replicate a.length (none : Option T) else b).length)
    refine ⟨r, ?_, by omega, k3⟩
    unfold matVecMult
    rw [if_neg (by simp), if_neg (by omega), h1, h2]
    simpa using k1

/-- C23: a vector whose size does not fit leaves the result untouched. -/
theorem C23_size_mismatch {T : Type} [Semiring T] (conj : T → T) (M : Mat T) (a : List T)
    (b : List (Option T)) (tr adj : Bool)
    (h : (tr = false ∧ M.n ≠ a.length) ∨ (tr = true ∧ M.m ≠ a.length)) :
    matVecMult conj b M a tr adj = some b := by
  unfold matVecMult
  rcases h with ⟨h1, h2⟩ | ⟨h1, h2⟩
  · rw [if_pos ⟨h2, h1⟩]
  · rw [if_neg (by simp [h1]), if_pos ⟨h2, h1⟩]

/-- C23 is violated for a matrix with fewer rows than columns: the product of a 1 times 2 matrix has
one element, the result has two, and the second one is not initialised. -/
theorem C23_violated_shape (conj : Int → Int) :
    matVecMult conj [] ⟨1, 2, [3, 4]⟩ [5, 6] false false = some [some 39, none] := by
  simp [matVecMult, mvLoop, loop, upd, Mat.get]

/-- C23 is violated for a matrix with more rows than columns: the product writes behind the end of
the result. -/
theorem C23_violated_bounds (conj : Int → Int) :
    matVecMult conj [] ⟨2, 1, [3, 4]⟩ [5] false false = none := by
  simp [matVecMult, mvLoop, loop, upd, Mat.get]

/-- C23 is violated with the transpose flag for a matrix that is not square: the transposed product
of the 2 times 1 matrix (3, 4) with (5, 6) is (39), the call reads a column that does not exist. -/
theorem C23_violated_transpose (conj : Int → Int) :
    matVecMult conj [] ⟨2, 1, [3, 4]⟩ [5, 6] true false = none := by
  simp [matVecMult, mvLoop, loop, upd, Mat.get]

/-- A matrix stored by columns. -/
theorem has_of_list {U : Type} [Inhabited U] (v : List U) (rows cols : Nat)
    (h : v.length = rows * cols) :
    Mat.Has ⟨rows, cols, v⟩ rows cols (fun i j => v.getD (j * rows + i) default) := by
  refine ⟨rfl, rfl, h, ?_⟩
  intro i j hi hj
  have hlt : j * rows + i < v.length := by
    rw [h]
    have : (j + 1) * rows ≤ cols * rows := Nat.mul_le_mul_right _ (by omega)
    rw [Nat.add_mul, Nat.mul_comm cols] at this
    omega
  simp [Mat.get, hj, List.getD_eq_getElem?_getD, hlt]

/-- The matrix with the rows (1, 2) and (3, 4) meets the hypotheses of C23. -/
example : Mat.Has (⟨2, 2, [1, 3, 2, 4]⟩ : Mat Int) 2 2
      (fun i j => ([1, 3, 2, 4] : List Int).getD (j * 2 + i) default) ∧
    matVecMult id [] (⟨2, 2, [1, 3, 2, 4]⟩ : Mat Int) [10, 1] false false =
      some [some 12, some 34] := by
  refine ⟨has_of_list _ _ _ rfl, ?_⟩
  simp [matVecMult, mvLoop, loop, upd, Mat.get]

/-! ### C66 -/

theorem idx_lt {m i j : Nat} (hi : i < m) (hj : j < m) : i * m + j < m * m := by
  have : (i + 1) * m ≤ m * m := Nat.mul_le_mul_right _ (by omega)
  rw [Nat.add_mul] at this
  omega

theorem idx_inj {m i j i' j' : Nat} (hj : j < m) (hj' : j' < m) (h : i * m + j = i' * m + j') :
    i = i' ∧ j = j' := by
  have h1 := congrArg (· / m) h
  have h2 := congrArg (· % m) h
  simp only [Nat.mul_comm _ m, Nat.mul_add_mod, Nat.mod_eq_of_lt hj, Nat.mod_eq_of_lt hj',
    Nat.mul_add_div (by omega : 0 < m), Nat.div_eq_of_lt hj, Nat.div_eq_of_lt hj'] at h1 h2
  omega

/-- What the exchange of two elements does to the storage. -/
theorem swap_step {U : Type} (conj : U → U) (m i j : Nat) (v : List U) (hv : v.length = m * m)
    (hi : i < m) (hj : j < i) :
    ∃ v', (match v[i * m + j]?, v[j * m + i]? with
        | some swap, some other =>
          (upd (i * m + j) (fun _ => conj other) v).bind
            (upd (j * m + i) (fun _ => conj swap))
        | _, _ => none) = some v' ∧ v'.length = m * m ∧
      v'[i * m + j]? = (v[j * m + i]?).map conj ∧ v'[j * m + i]? = (v[i * m + j]?).map conj ∧
      ∀ p, p ≠ i * m + j → p ≠ j * m + i → v'[p]? = v[p]? := by
  have h1 : i * m + j < v.length := by rw [hv]; exact idx_lt hi (by omega)
  have h2 : j * m + i < v.length := by rw [hv]; exact idx_lt (by omega) hi
  have hne : i * m + j ≠ j * m + i := by
    intro h
    have := (idx_inj (by omega) (by omega) h).1
    omega
  refine ⟨(v.set (i * m + j) (conj v[j * m + i])).set (j * m + i) (conj v[i * m + j]), ?_, ?_, ?_,
    ?_, ?_⟩
  · simp only [List.getElem?_eq_getElem h1, List.getElem?_eq_getElem h2, upd, Option.bind_some]
    rw [List.getElem?_eq_getElem (by simpa using h2)]
  · simpa using hv
  · rw [List.getElem?_set_ne (fun h => hne h.symm), List.getElem?_set_self h1,
      List.getElem?_eq_getElem h2]
    rfl
  · rw [List.getElem?_set_self (by simpa using h2), List.getElem?_eq_getElem h1]
    rfl
  · intro p hp1 hp2
    rw [List.getElem?_set_ne (fun h => hp2 h.symm), List.getElem?_set_ne (fun h => hp1 h.symm)]

/-- C66: transposing a square matrix moves the conjugate of each off diagonal element to the
mirrored place and leaves the diagonal as it is; a matrix that is not square is left unchanged. -/
theorem C66_transpose {U : Type} (conj : U → U) (M : Mat U) (n : Nat) (a : Nat → Nat → U)
    (hM : M.Has n n a) :
    ∃ M', M.transpose conj = some M' ∧
      M'.Has n n (fun i j => if i = j then a i j else conj (a j i)) := by
  obtain ⟨h1, h2, h3, h4⟩ := hM
  have hget : ∀ i j, i < n → j < n → M.v[j * n + i]? = some (a i j) := by
    intro i j hi hj
    have := h4 i j hi hj
    simpa [Mat.get, h1, h2, hj] using this
  -- after the rounds for the rows below `k` exactly the elements of these rows are exchanged
  let val : Nat → Nat → Nat → Nat → U := fun k l c r =>
    if r = c then a r c
    else if max r c < k ∨ (max r c = k ∧ min r c < l) then conj (a c r) else a r c
  let Inv : Nat → Nat → List U → Prop := fun k l v =>
    v.length = n * n ∧ ∀ r c, r < n → c < n → v[c * n + r]? = some (val k l c r)
  have inner : ∀ k, k < n → ∀ v, Inv k 0 v → ∃ v', loop k (fun j v =>
        match v[k * n + j]?, v[j * n + k]? with
        | some swap, some other =>
          (upd (k * n + j) (fun _ => conj other) v).bind
            (upd (j * n + k) (fun _ => conj swap))
        | _, _ => none) v = some v' ∧ Inv k k v' := by
    intro k hk v hv
    refine loop_inv k _ (fun l v => Inv k l v) v hv ?_
    intro l hl v hv
    obtain ⟨v', e1, e2, e3, e4, e5⟩ := swap_step conj n k l v hv.1 hk hl
    refine ⟨v', e1, e2, ?_⟩
    intro r c hr hc
    by_cases hA : c = k ∧ r = l
    · obtain ⟨rfl, rfl⟩ := hA
      rw [e3, hv.2 c r hk hr]
      simp only [val, Option.map_some]
      rw [if_neg (by omega), if_neg (by omega), if_neg (by omega), if_pos (by omega)]
    · by_cases hB : c = l ∧ r = k
      · obtain ⟨rfl, rfl⟩ := hB
        rw [e4, hv.2 c r hc hk]
        simp only [val, Option.map_some]
        rw [if_neg (by omega), if_neg (by omega), if_neg (by omega), if_pos (by omega)]
      · have n1 : c * n + r ≠ k * n + l := by
          intro h; exact hA (idx_inj hr (by omega) h)
        have n2 : c * n + r ≠ l * n + k := by
          intro h; exact hB (idx_inj hr (by omega) h)
        rw [e5 _ n1 n2, hv.2 r c hr hc]
        simp only [val]
        congr 1
        by_cases e : r = c
        · rw [if_pos e, if_pos e]
        · rw [if_neg e, if_neg e]
          congr 1
          simp only [eq_iff_iff]
          omega
  have outer := loop_inv n (fun i v =>
      loop i (fun j v =>
        match v[i * n + j]?, v[j * n + i]? with
        | some swap, some other =>
          (upd (i * n + j) (fun _ => conj other) v).bind
            (upd (j * n + i) (fun _ => conj swap))
        | _, _ => none) v) (fun k v => Inv k 0 v) M.v
    ⟨h3, by
      intro r c hr hc
      rw [hget r c hr hc]
      simp only [val]
      by_cases e : r = c
      · rw [if_pos e]
      · rw [if_neg e, if_neg (by omega)]⟩
    (by
      intro k hk v hv
      obtain ⟨v', e1, e2⟩ := inner k hk v hv
      refine ⟨v', e1, e2.1, ?_⟩
      intro r c hr hc
      rw [e2.2 r c hr hc]
      simp only [val]
      congr 1
      by_cases e : r = c
      · rw [if_pos e, if_pos e]
      · rw [if_neg e, if_neg e]
        congr 1
        simp only [eq_iff_iff]
        omega)
  obtain ⟨v', e1, e2, e3⟩ := outer
  refine ⟨{ M with v := v' }, ?_, h1, h2, e2, ?_⟩
  · unfold Mat.transpose
    rw [if_neg (by omega), h1]
    exact congrArg (Option.map _) e1
  · intro i j hi hj
    have := e3 i j hi hj
    simp only [Mat.get, h1, h2, hj, if_true, this, val]
    congr 1
    by_cases e : i = j
    · rw [if_pos e, if_pos e]
    · rw [if_neg e, if_neg e, if_pos (by omega)]

/-- C66: a matrix that is not square is left unchanged. -/
theorem C66_not_square {U : Type} (conj : U → U) (M : Mat U) (h : M.m ≠ M.n) :
    M.transpose conj = some M := by
  unfold Mat.transpose
  rw [if_pos h]

/-- C66: transposing twice gives the matrix back. -/
theorem C66_involution {U : Type} (conj : U → U) (hc : ∀ x, conj (conj x) = x) (M : Mat U)
    (n : Nat) (a : Nat → Nat → U) (hM : M.Has n n a) :
    ∃ M' M'', M.transpose conj = some M' ∧ M'.transpose conj = some M'' ∧ M''.Has n n a := by
  obtain ⟨M', h1, h2⟩ := C66_transpose conj M n a hM
  obtain ⟨M'', h3, h4⟩ := C66_transpose conj M' n _ h2
  refine ⟨M', M'', h1, h3, h4.1, h4.2.1, h4.2.2.1, ?_⟩
  intro i j hi hj
  rw [h4.2.2.2 i j hi hj]
  congr 1
  show (if i = j then if i = j then a i j else conj (a j i)
    else conj (if j = i then a j i else conj (a i j))) = a i j
  by_cases e : i = j
  · rw [if_pos e, if_pos e]
  · rw [if_neg e, if_neg (fun h => e h.symm), hc]

/-- C66 as the adjoint is violated on the diagonal: the adjoint of the 1 times 1 matrix with the
imaginary element i has the element -i, the transposition leaves i.  (The conjugation is modelled on
pairs of integers.) -/
theorem C66_violated_diagonal :
    Mat.transpose (fun z : Int × Int => (z.1, -z.2)) ⟨1, 1, [(0, 1)]⟩ =
      some ⟨1, 1, [(0, 1)]⟩ ∧
    ((fun z : Int × Int => (z.1, -z.2)) (0, 1)) ≠ (0, 1) := by
  refine ⟨rfl, by decide⟩

/-- C66: the diagonal of a square matrix, and the NULL answer for other matrices. -/
theorem C66_diag {U : Type} (M : Mat U) (rows cols : Nat) (a : Nat → Nat → U)
    (hM : M.Has rows cols a) :
    M.diag = some (if rows = cols then some ((List.range rows).map (fun i => some (a i i)))
      else none) := by
  obtain ⟨h1, h2, h3, h4⟩ := hM
  unfold Mat.diag
  by_cases e : rows = cols
  · subst e
    rw [if_neg (by omega), if_pos rfl, h1]
    have key := acts_loop (L := rows) rows (fun i d =>
        match M.get i i with
        | none => none
        | some x => upd i (fun _ => some x) d) (fun i p => p = i)
        (fun p _ => some (a p p))
        (by
          intro i hi
          refine (acts_upd (fun _ => some (a i i)) _ hi rfl).mono ?_ (fun _ => Iff.rfl)
            (fun _ _ => rfl)
          intro s _
          simp only [h4 i i hi hi])
        (fun a b _ _ p h1 h2 => by rw [← h1, ← h2])
    obtain ⟨s', e1, e2, e3, _⟩ := key (List.replicate rows none) (by simp)
    have e4 : s' = (List.range rows).map (fun i => some (a i i)) := by
      apply List.ext_getElem?
      intro p
      by_cases hp : p < rows
      · rw [e3 p ⟨p, hp, rfl⟩, List.getElem?_map, List.getElem?_range hp]
        simp [hp]
      · rw [List.getElem?_eq_none (by omega), List.getElem?_eq_none (by simpa using hp)]
    rw [← e4]
    exact congrArg (Option.map some) e1
  · rw [if_pos (by omega), if_neg e]

example : Mat.transpose (fun z : Int => z) ⟨2, 2, [1, 3, 2, 4]⟩ = some ⟨2, 2, [1, 2, 3, 4]⟩ := rfl

/-! ### C67 -/

/-- Number of elements of a lower triangle with `r` rows. -/
def tri : Nat → Nat
  | 0 => 0
  | r + 1 => tri r + (r + 1)

theorem tri_mono {r s : Nat} (h : r ≤ s) : tri r ≤ tri s := by
  induction s with
  | zero =>
    have : r = 0 := by omega
    subst this; exact Nat.le_refl _
  | succ s ih =>
    by_cases e : r = s + 1
    · subst e; exact Nat.le_refl _
    · have := ih (by omega)
      simp only [tri]; omega

theorem tri_inj {r c r' c' : Nat} (hc : c ≤ r) (hc' : c' ≤ r') (h : tri r + c = tri r' + c') :
    r = r' ∧ c = c' := by
  have key : ∀ {r c r' c' : Nat}, c ≤ r → tri r + c = tri r' + c' → ¬ r < r' := by
    intro r c r' c' hc h hlt
    have h1 := tri_mono (show r + 1 ≤ r' by omega)
    simp only [tri] at h1
    omega
  have h1 := key (r := r) (c := c) (r' := r') (c' := c') hc h
  have h2 := key (r := r') (c := c') (r' := r) (c' := c) hc' h.symm
  have : r = r' := by omega
  subst this
  exact ⟨rfl, by omega⟩

/-- The element at row `i`, column `j` after the list `vec` was read as the rows of a lower
triangle, one after the other: the list element for places in the triangle (with `sym` also for the
mirrored places) as far as the list reaches, and the old element `a i j` otherwise. -/
def lowerTriangle {U : Type} (vec : List U) (sym : Bool) (a : Nat → Nat → U) (i j : Nat) : U :=
  if j ≤ i ∨ sym = true then
    match vec[tri (max i j) + min i j]? with
    | some x => x
    | none => a i j
  else a i j

theorem put_has {U : Type} (M : Mat U) (n : Nat) (a : Nat → Nat → U) (hM : M.Has n n a)
    (i j : Nat) (hi : i < n) (hj : j < n) (x : U) :
    ∃ M', M.put i j x = some M' ∧
      M'.Has n n (fun r c => if r = i ∧ c = j then x else a r c) := by
  obtain ⟨h1, h2, h3, h4⟩ := hM
  have hlt : j * n + i < M.v.length := by rw [h3]; exact idx_lt hj hi
  refine ⟨{ M with v := M.v.set (j * n + i) x }, ?_, h1, h2, by simpa using h3, ?_⟩
  · simp [Mat.put, h1, h2, hj, upd, List.getElem?_eq_getElem hlt]
  · intro r c hr hc
    have := h4 r c hr hc
    simp only [Mat.get, h1, h2, hc, if_true] at this ⊢
    by_cases e : r = i ∧ c = j
    · obtain ⟨rfl, rfl⟩ := e
      rw [List.getElem?_set_self hlt, if_pos ⟨rfl, rfl⟩]
    · rw [List.getElem?_set_ne, if_neg e, this]
      intro h
      have := idx_inj hi hr h
      omega

theorem has_congr {U : Type} {M : Mat U} {n : Nat} {a b : Nat → Nat → U} (h : M.Has n n a)
    (e : ∀ i j, i < n → j < n → a i j = b i j) : M.Has n n b :=
  ⟨h.1, h.2.1, h.2.2.1, fun i j hi hj => by rw [h.2.2.2 i j hi hj, e i j hi hj]⟩

/-- C67: a list that is not longer than the lower triangle fills the triangle row by row (and with
`sym` its mirror image), and nothing else; nothing outside of the matrix is written. -/
theorem C67_reorder {U : Type} (vec : List U) (M : Mat U) (sym : Bool) (n : Nat)
    (a : Nat → Nat → U) (hM : M.Has n n a) (hlen : vec.length ≤ tri n) :
    ∃ M', reorder vec M sym = some M' ∧ M'.Has n n (lowerTriangle vec sym a) := by
  have key := loop_inv vec.length (fun i s =>
    match vec[i]? with
    | none => none
    | some x => reorderStep sym x s)
    (fun k (s : Reorder U) => tri s.r + s.c = k ∧ s.c ≤ s.r ∧ s.clen = s.r + 1 ∧
      s.mat.Has n n (lowerTriangle (vec.take k) sym a))
    { mat := M } (by
      refine ⟨rfl, Nat.le_refl _, rfl, has_congr hM ?_⟩
      intro i j _ _
      simp [lowerTriangle])
    (by
      intro k hk s ⟨h1, h2, h3, h4⟩
      have hr : s.r < n := by
        rcases Nat.lt_or_ge s.r n with h | h
        · exact h
        · have := tri_mono h; omega
      have hc : s.c < n := by omega
      rw [List.getElem?_eq_getElem hk]
      simp only
      -- the elements after this round
      have hval : ∀ i j, i < n → j < n → lowerTriangle (vec.take (k + 1)) sym a i j =
          if (i = s.r ∧ j = s.c) ∨ (sym = true ∧ i = s.c ∧ j = s.r) then vec[k]
          else lowerTriangle (vec.take k) sym a i j := by
        intro i j hi hj
        by_cases hij : j ≤ i ∨ sym = true
        · by_cases hp : tri (max i j) + min i j = k
          · have := tri_inj (by omega : min i j ≤ max i j) h2 (by rw [hp, h1])
            simp only [lowerTriangle, if_pos hij, hp]
            rw [List.getElem?_take_of_lt (by omega), List.getElem?_eq_getElem hk]
            simp only
            rw [if_pos]
            by_cases hji : j ≤ i
            · left; omega
            · right
              rcases hij with hij | hij
              · exact absurd hij hji
              · exact ⟨hij, by omega, by omega⟩
          · have hne : ¬ ((i = s.r ∧ j = s.c) ∨ (sym = true ∧ i = s.c ∧ j = s.r)) := by
              rintro (⟨rfl, rfl⟩ | ⟨_, rfl, rfl⟩)
              · apply hp; rw [Nat.max_eq_left h2, Nat.min_eq_right h2]; exact h1
              · apply hp; rw [Nat.max_eq_right h2, Nat.min_eq_left h2]; exact h1
            rw [if_neg hne]
            simp only [lowerTriangle, if_pos hij]
            have e : (vec.take (k + 1))[tri (max i j) + min i j]? =
                (vec.take k)[tri (max i j) + min i j]? := by
              simp only [List.getElem?_take]
              by_cases h : tri (max i j) + min i j < k
              · rw [if_pos (by omega), if_pos h]
              · rw [if_neg (by omega), if_neg h]
            rw [e]
        · have hne : ¬ ((i = s.r ∧ j = s.c) ∨ (sym = true ∧ i = s.c ∧ j = s.r)) := by
            rintro (⟨rfl, rfl⟩ | ⟨h, _, _⟩)
            · exact hij (Or.inl h2)
            · exact hij (Or.inr h)
          rw [if_neg hne]
          simp only [lowerTriangle, if_neg hij]
      obtain ⟨m1, e1, e2⟩ := put_has s.mat n _ h4 s.r s.c hr hc vec[k]
      have hm : ∃ m2, (if sym then m1.put s.c s.r vec[k] else some m1) = some m2 ∧
          m2.Has n n (lowerTriangle (vec.take (k + 1)) sym a) := by
        cases sym with
        | false =>
          refine ⟨m1, rfl, has_congr e2 ?_⟩
          intro i j hi hj
          rw [hval i j hi hj]
          simp
        | true =>
          obtain ⟨m2, f1, f2⟩ := put_has m1 n _ e2 s.c s.r hc hr vec[k]
          refine ⟨m2, f1, has_congr f2 ?_⟩
          intro i j hi hj
          rw [hval i j hi hj]
          by_cases c1 : i = s.c ∧ j = s.r
          · simp [c1]
          · simp [c1]
      obtain ⟨m2, g1, g2⟩ := hm
      simp only [reorderStep, e1, Option.bind_some, g1]
      by_cases hcl : s.c + 1 = s.clen
      · refine ⟨_, by rw [if_pos hcl], ?_, ?_, ?_, g2⟩
        · simp only [tri]; omega
        · simp
        · simp only; omega
      · refine ⟨⟨m2, s.r, s.clen, s.c + 1⟩, by rw [if_neg hcl], ?_, ?_, h3, g2⟩
        · show tri s.r + (s.c + 1) = k + 1; omega
        · show s.c + 1 ≤ s.r; omega)
  obtain ⟨s, e1, e2, e3, e4, e5⟩ := key
  refine ⟨s.mat, ?_, ?_⟩
  · exact congrArg (Option.map Reorder.mat) e1
  · rw [List.take_of_length_le (Nat.le_refl _)] at e5
    exact e5

/-- A list of five elements in a 3 times 3 matrix: the last element of the triangle keeps its old
value. -/
example : (5 : Nat) ≤ tri 3 ∧ Mat.Has (⟨3, 3, List.replicate 9 (0 : Int)⟩ : Mat Int) 3 3
      (fun i j => (List.replicate 9 (0 : Int)).getD (j * 3 + i) default) ∧
    reorder [1, 2, 3, 4, 5] (⟨3, 3, List.replicate 9 (0 : Int)⟩ : Mat Int) true =
      some ⟨3, 3, [1, 2, 4, 2, 3, 5, 4, 5, 0]⟩ :=
  ⟨by decide, has_of_list _ _ _ rfl, rfl⟩

end QDng.Linalg
