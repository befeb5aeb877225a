import Verif.FftN.Model
import Verif.FftN.Spec
import Mathlib.Data.List.Forall2
import Mathlib.Data.List.GetD
import Mathlib.Tactic.Linarith
import Mathlib.Tactic.Ring

/- Lemmas about the arguments of the transforms. -/

namespace QDng.FftN

open QDng.Deriv Spec

theorem rdims_eq (dims : List Nat) : rdims dims = dims.reverse := by
  apply List.ext_getElem
  · simp [rdims]
  · intro i h1 h2
    have hi : i < dims.length := by simpa using h2
    simp only [rdims, List.getElem_map, List.getElem_range, List.getElem_reverse]
    rw [List.getD_eq_getElem _ _ (by omega)]
    congr 1
    omega

theorem rowPlace_append {ns x : List Nat} (h : ns.length = x.length) (n a : Nat) :
    rowPlace (ns ++ [n]) (x ++ [a]) = rowPlace ns x * n + a := by
  unfold rowPlace
  rw [List.zip_append h, List.foldl_append]
  rfl

theorem rowPlace_reverse {dims x : List Nat} (h : x.length = dims.length) :
    rowPlace dims.reverse x.reverse = place dims x := by
  induction dims generalizing x with
  | nil =>
    have : x = [] := List.length_eq_zero_iff.1 h
    subst this
    rfl
  | cons n ns ih =>
    cases x with
    | nil => simp at h
    | cons a xs =>
      have h' : xs.length = ns.length := by simpa using h
      rw [List.reverse_cons, List.reverse_cons, rowPlace_append (by simp [h']), ih h']
      show _ = a + n * place ns xs
      ring

/-! ### Sums over indices -/

theorem sumIdx_congr {ns : List Nat} {f g : List Nat → ℂ} (h : ∀ x, IsIdx ns x → f x = g x) :
    sumIdx ns f = sumIdx ns g := by
  induction ns generalizing f g with
  | nil => exact h [] List.Forall₂.nil
  | cons n ns ih =>
    refine Finset.sum_congr rfl (fun a ha => ih (fun xs hx => ?_))
    exact h _ (List.Forall₂.cons (Finset.mem_range.1 ha) hx)

theorem sumIdx_comm (ns : List Nat) (n : Nat) (f : Nat → List Nat → ℂ) :
    sumIdx ns (fun x => ∑ a ∈ Finset.range n, f a x) = ∑ a ∈ Finset.range n, sumIdx ns (f a) := by
  induction ns generalizing f with
  | nil => rfl
  | cons m ns ih =>
    show ∑ b ∈ Finset.range m, _ = _
    simp only [ih]
    rw [Finset.sum_comm]
    rfl

theorem sumIdx_append (ns : List Nat) (n : Nat) (f : List Nat → ℂ) :
    sumIdx (ns ++ [n]) f = sumIdx ns (fun x => ∑ a ∈ Finset.range n, f (x ++ [a])) := by
  induction ns generalizing f with
  | nil => rfl
  | cons m ns ih =>
    show ∑ b ∈ Finset.range m, _ = ∑ b ∈ Finset.range m, _
    exact Finset.sum_congr rfl (fun b _ => ih _)

theorem sumIdx_reverse (ns : List Nat) (f : List Nat → ℂ) :
    sumIdx ns.reverse f = sumIdx ns (fun x => f x.reverse) := by
  induction ns generalizing f with
  | nil => rfl
  | cons n ns ih =>
    rw [List.reverse_cons, sumIdx_append, ih, sumIdx_comm]
    refine Finset.sum_congr rfl (fun a _ => ?_)
    simp only [List.reverse_cons]

theorem sum_range_list (n : Nat) (f : Nat → ℂ) :
    ((List.range n).map f).sum = ∑ x ∈ Finset.range n, f x := by
  induction n with
  | zero => rfl
  | succ n ih =>
    rw [List.range_succ, List.map_append, List.sum_append, ih, Finset.sum_range_succ]
    simp

theorem sum_flatMap' (l : List Nat) (g : Nat → List (List Nat)) (f : List Nat → ℂ) :
    ((l.flatMap g).map f).sum = (l.map fun x => ((g x).map f).sum).sum := by
  induction l with
  | nil => rfl
  | cons a l ih =>
    rw [List.flatMap_cons, List.map_append, List.sum_append, ih, List.map_cons, List.sum_cons]

theorem sumIdx_points (ns : List Nat) (f : List Nat → ℂ) :
    sumIdx ns f = ((points ns).map f).sum := by
  induction ns generalizing f with
  | nil => simp [sumIdx, points]
  | cons n ns ih =>
    unfold points
    rw [sum_flatMap', sum_range_list]
    refine Finset.sum_congr rfl (fun a _ => ?_)
    rw [ih, List.map_map]
    rfl

/-! ### The factors -/

theorem kernel_append (sgn : ℝ) {ns q x : List Nat} (h1 : q.length = ns.length)
    (h2 : x.length = ns.length) (n a b : Nat) :
    kernel sgn (ns ++ [n]) (q ++ [a]) (x ++ [b]) = kernel sgn ns q x * root sgn n a b := by
  induction ns generalizing q x with
  | nil =>
    have hq : q = [] := List.length_eq_zero_iff.1 h1
    have hx : x = [] := List.length_eq_zero_iff.1 h2
    subst hq hx
    simp [kernel]
  | cons m ns ih =>
    cases q with
    | nil => simp at h1
    | cons c q =>
      cases x with
      | nil => simp at h2
      | cons d x =>
        show root sgn m c d * kernel sgn (ns ++ [n]) (q ++ [a]) (x ++ [b]) =
          root sgn m c d * kernel sgn ns q x * root sgn n a b
        rw [ih (by simpa using h1) (by simpa using h2), mul_assoc]

theorem kernel_reverse (sgn : ℝ) {ns q x : List Nat} (h1 : q.length = ns.length)
    (h2 : x.length = ns.length) :
    kernel sgn ns.reverse q.reverse x.reverse = kernel sgn ns q x := by
  induction ns generalizing q x with
  | nil =>
    have hq : q = [] := List.length_eq_zero_iff.1 h1
    have hx : x = [] := List.length_eq_zero_iff.1 h2
    subst hq hx
    rfl
  | cons m ns ih =>
    cases q with
    | nil => simp at h1
    | cons c q =>
      cases x with
      | nil => simp at h2
      | cons d x =>
        have h1' : q.length = ns.length := by simpa using h1
        have h2' : x.length = ns.length := by simpa using h2
        rw [List.reverse_cons, List.reverse_cons, List.reverse_cons,
          kernel_append sgn (by simp [h1']) (by simp [h2']), ih h1' h2', mul_comm]
        rfl

theorem root_wave1 (sgn : ℝ) (n a b : Nat) : root sgn n a b = wave1 sgn n a b := by
  unfold root wave1
  congr 1
  push_cast
  ring

theorem kernel_wave (sgn : ℝ) {ns q x : List Nat} (h1 : q.length = ns.length)
    (h2 : x.length = ns.length) : kernel sgn ns q x = wave sgn ns q x := by
  induction ns generalizing q x with
  | nil => simp [kernel, wave]
  | cons m ns ih =>
    cases q with
    | nil => simp at h1
    | cons c q =>
      cases x with
      | nil => simp at h2
      | cons d x =>
        show root sgn m c d * kernel sgn ns q x = _
        rw [ih (by simpa using h1) (by simpa using h2), root_wave1]
        unfold wave wave1
        rw [← Complex.exp_add, List.length_cons, Finset.sum_range_succ']
        congr 1
        simp only [List.getD_cons_succ, List.getD_cons_zero]
        ring

/-! ### Indices and points -/

theorem isIdx_iff (ns x : List Nat) : IsIdx ns x ↔ IsPoint ns x := by
  unfold IsIdx IsPoint
  rw [List.forall₂_iff_get]
  simp only [List.get_eq_getElem]

theorem isIdx_reverse {ns x : List Nat} (h : IsIdx ns x) : IsIdx ns.reverse x.reverse :=
  List.forall₂_reverse_iff.2 h

theorem place_lt {dims p : List Nat} (h : IsIdx dims p) : place dims p < dims.prod := by
  induction h with
  | nil => simp [place]
  | @cons a n p dims ha hp ih =>
    show a + n * place dims p < (n :: dims).prod
    rw [List.prod_cons]
    have := Nat.mul_le_mul_left n (Nat.succ_le_of_lt ih)
    rw [Nat.mul_succ] at this
    omega

theorem place_inj {dims p q : List Nat} (hp : IsIdx dims p) (hq : IsIdx dims q)
    (h : place dims p = place dims q) : p = q := by
  induction hp generalizing q with
  | nil => cases hq; rfl
  | @cons a n p dims ha _ ih =>
    cases hq with
    | @cons b _ q _ hb hq =>
      have h' : a + n * place dims p = b + n * place dims q := h
      have hn : 0 < n := by omega
      have h1 : a = b := by
        have := congrArg (· % n) h'
        simpa [Nat.add_mul_mod_self_left, Nat.mod_eq_of_lt ha, Nat.mod_eq_of_lt hb] using this
      subst h1
      have h2 : place dims p = place dims q := Nat.eq_of_mul_eq_mul_left hn (by omega)
      rw [ih hq h2]

theorem place_surj (dims : List Nat) (m : Nat) (h : m < dims.prod) :
    ∃ p, IsIdx dims p ∧ place dims p = m := by
  induction dims generalizing m with
  | nil =>
    refine ⟨[], List.Forall₂.nil, ?_⟩
    rw [List.prod_nil] at h
    show 0 = m
    omega
  | cons n ns ih =>
    rw [List.prod_cons] at h
    have hn : 0 < n := by
      rcases Nat.eq_zero_or_pos n with rfl | hn
      · simp at h
      · exact hn
    obtain ⟨p, hp, he⟩ := ih (m / n) (Nat.div_lt_of_lt_mul h)
    refine ⟨m % n :: p, List.Forall₂.cons (Nat.mod_lt _ hn) hp, ?_⟩
    show m % n + n * place ns p = m
    rw [he]
    exact Nat.mod_add_div m n

/-! ### Strides -/

theorem foldl_range_prod (dims : List Nat) (m : Nat) :
    (List.range m).foldl (fun l i => l * dims.getD i 0) 1 = ∏ i ∈ Finset.range m, dims.getD i 0 := by
  induction m with
  | zero => rfl
  | succ m ih => rw [List.range_succ, List.foldl_append, ih, Finset.prod_range_succ]; rfl

theorem lothers_eq (dims : List Nat) (m : Nat) :
    lothers dims m = ∏ i ∈ Finset.range m, dims.getD i 0 := by
  unfold lothers
  split
  · exact foldl_range_prod dims m
  · next h =>
    have : m = 0 := by omega
    subst this
    rfl

theorem lothers_succ (n : Nat) (ns : List Nat) (m : Nat) :
    lothers (n :: ns) (m + 1) = n * lothers ns m := by
  rw [lothers_eq, lothers_eq, Finset.prod_range_succ', mul_comm]
  simp

theorem place_sum {dims p : List Nat} (h : p.length = dims.length) :
    place dims p = ∑ i ∈ Finset.range dims.length, p.getD i 0 * lothers dims i := by
  induction dims generalizing p with
  | nil =>
    have : p = [] := List.length_eq_zero_iff.1 h
    subst this
    rfl
  | cons n ns ih =>
    cases p with
    | nil => simp at h
    | cons a p =>
      show a + n * place ns p = _
      rw [ih (by simpa using h), List.length_cons, Finset.sum_range_succ', Finset.mul_sum]
      have h0 : lothers (n :: ns) 0 = 1 := rfl
      rw [h0, add_comm]
      congr 1
      · refine Finset.sum_congr rfl (fun i _ => ?_)
        rw [lothers_succ, List.getD_cons_succ]
        ring
      · simp

theorem filter_sum (m c : Nat) (f : Nat → Nat) :
    (((List.range m).filter fun i => decide (i ≠ c)).map f).sum + (if c < m then f c else 0) =
      ∑ i ∈ Finset.range m, f i := by
  induction m with
  | zero => simp
  | succ m ih =>
    rw [List.range_succ, List.filter_append, List.map_append, List.sum_append, Finset.sum_range_succ,
      ← ih]
    by_cases h : m = c
    · subst h
      simp
    · have h1 : (c < m + 1) ↔ (c < m) := by omega
      simp only [List.filter_cons, List.filter_nil, ne_eq, h, not_false_eq_true, decide_true,
        if_true, List.map_cons, List.map_nil, List.sum_cons, List.sum_nil, h1]
      omega

/-- The indices of the loops that belong to a grid point. -/
def loopIdx (dims : List Nat) (dim : Nat) (p : List Nat) : List Nat :=
  ((List.range dims.length).filter fun i => decide (i ≠ dims.length - dim - 1)).map fun i =>
    p.getD (dims.length - i - 1) 0

theorem loop_sum {dims p : List Nat} (dim : Nat) (h : p.length = dims.length) (hd : dim < dims.length)
    (k : Nat) (st : IoDim → Nat) (hst : ∀ i, st { n := (rdims dims).getD i 0, is := uothers dims i, os := uothers dims i } = uothers dims i)
    (hk : k = p.getD dim 0) :
    k * lothers dims dim +
      (List.zipWith (fun a (L : IoDim) => a * st L) (loopIdx dims dim p) (loopDims dims dim)).sum =
      place dims p := by
  unfold loopIdx loopDims
  rw [List.zipWith_map, List.zipWith_self]
  simp only [hst]
  have h1 := filter_sum dims.length (dims.length - dim - 1)
    (fun i => p.getD (dims.length - i - 1) 0 * uothers dims i)
  rw [if_pos (by omega)] at h1
  have h2 : dims.length - (dims.length - dim - 1) - 1 = dim := by omega
  simp only [uothers, h2] at h1 ⊢
  rw [hk, add_comm, h1, place_sum h,
    ← Finset.sum_range_reflect (fun i => p.getD i 0 * lothers dims i)]
  refine Finset.sum_congr rfl (fun i _ => ?_)
  have h3 : dims.length - i - 1 = dims.length - 1 - i := by omega
  rw [h3]

theorem loop_isIdx {dims p : List Nat} (dim : Nat) (h : IsPoint dims p) :
    IsIdx ((loopDims dims dim).map IoDim.n) (loopIdx dims dim p) := by
  unfold IsIdx loopIdx loopDims
  rw [List.map_map, List.forall₂_map_left_iff, List.forall₂_map_right_iff, List.forall₂_same]
  intro i hi
  have hi' : i < dims.length := List.mem_range.1 (List.mem_filter.1 hi).1
  show p.getD (dims.length - i - 1) 0 < (rdims dims).getD i 0
  have hr : (rdims dims).getD i 0 = dims.getD (dims.length - i - 1) 0 := by
    rw [rdims_eq, List.getD_eq_getElem _ _ (by simpa using hi'), List.getElem_reverse,
      List.getD_eq_getElem _ _ (by omega)]
    congr 1
    omega
  have hl := h.1
  rw [hr, List.getD_eq_getElem _ _ (by omega), List.getD_eq_getElem _ _ (by omega)]
  exact h.2 _ (by omega) (by omega)

theorem loopIdx_set {dims p : List Nat} {dim : Nat} (hd : dim < dims.length) (j : Nat) :
    loopIdx dims dim (p.set dim j) = loopIdx dims dim p := by
  unfold loopIdx
  refine List.map_congr_left (fun i hi => ?_)
  obtain ⟨h1, h2⟩ := List.mem_filter.1 hi
  have h1' := List.mem_range.1 h1
  have h2' : i ≠ dims.length - dim - 1 := by simpa using h2
  rw [List.getD_eq_getElem?_getD, List.getD_eq_getElem?_getD,
    List.getElem?_set_ne (by omega)]

theorem dataDim_n {dims : List Nat} {dim : Nat} (hd : dim < dims.length) :
    (dataDim dims dim).n = dims.getD dim 0 := by
  unfold dataDim
  simp only
  rw [rdims_eq, List.getD_eq_getElem _ _ (by rw [List.length_reverse]; omega),
    List.getElem_reverse, List.getD_eq_getElem _ _ hd]
  congr 1
  omega

/-- A transform over the whole grid in the order of the wave functions. -/
theorem planDft_place {sgn : ℝ} {dims : List Nat} {inp out : Nat → ℂ}
    (h : PlanDft sgn (rdims dims) inp out) {q : List Nat} (hq : IsPoint dims q) :
    out (place dims q) = ((points dims).map fun x => inp (place dims x) * wave sgn dims q x).sum := by
  rw [rdims_eq] at h
  have h1 := h q.reverse (isIdx_reverse ((isIdx_iff _ _).2 hq))
  rw [rowPlace_reverse hq.1, sumIdx_reverse] at h1
  rw [h1, ← sumIdx_points]
  refine sumIdx_congr (fun x hx => ?_)
  have hl : x.length = dims.length := ((isIdx_iff _ _).1 hx).1
  rw [rowPlace_reverse hl, kernel_reverse sgn hq.1 hl, kernel_wave sgn hq.1 hl]

/-- A transform along a dimension in the order of the wave functions. -/
theorem planGuru_place {sgn : ℝ} {dims : List Nat} {dim : Nat} (hd : dim < dims.length)
    {inp out : Nat → ℂ} (h : PlanGuru sgn (dataDim dims dim) (loopDims dims dim) inp out)
    {p : List Nat} (hp : IsPoint dims p) :
    out (place dims p) = ∑ j ∈ Finset.range (dims.getD dim 0),
      inp (place dims (p.set dim j)) * wave1 sgn (dims.getD dim 0) (p.getD dim 0) j := by
  have hl := hp.1
  have hlt : p.getD dim 0 < (dataDim dims dim).n := by
    rw [dataDim_n hd, List.getD_eq_getElem _ _ (by omega), List.getD_eq_getElem _ _ hd]
    exact hp.2 _ (by omega) hd
  have h1 := h (p.getD dim 0) hlt (loopIdx dims dim p) (loop_isIdx dim hp)
  have hos : (dataDim dims dim).os = lothers dims dim := rfl
  have his : (dataDim dims dim).is = lothers dims dim := rfl
  rw [hos, his, loop_sum dim hl hd _ IoDim.os (fun _ => rfl) rfl, dataDim_n hd] at h1
  rw [h1]
  refine Finset.sum_congr rfl (fun j _ => ?_)
  have h2 := loop_sum (p := p.set dim j) dim (by simpa using hl) hd j IoDim.is (fun _ => rfl)
    (by rw [List.getD_eq_getElem _ _ (by simp; omega), List.getElem_set_self])
  rw [loopIdx_set hd] at h2
  rw [h2, root_wave1]

end QDng.FftN
