import Verif.Fd.Model
import Verif.Fd.Spec
import Verif.Stencil.Props
import Mathlib.Analysis.Real.Pi.Bounds
import Mathlib.Algebra.BigOperators.Field

/-
Lemmas on the finite difference operator.
-/

namespace QDng.Fd

open QDng.Common QDng.Grid QDng.Stencil

/-- The stencil set up for a grid. -/
noncomputable def ready (deriv order : Nat) (pbc : Bool) (pfac : List ℂ) (axes : List (Axis ℝ)) : Hofd ℂ :=
  ⟨deriv, order, pbc, coeffs, 1, pfac, axes.map axisC⟩

theorem ready_sizes (deriv order : Nat) (pbc : Bool) (pfac : List ℂ) (axes : List (Axis ℝ)) :
    (ready deriv order pbc pfac axes).sizes = sizes axes := by
  simp [Hofd.sizes, ready, sizes, Function.comp_def, axisC]

theorem setup_iff (deriv order : Nat) (h : checkSetup deriv order = true) :
    (deriv = 1 ∨ deriv = 2) ∧ 2 ≤ order ∧ order ≤ 50 ∧ order % 2 = 0 := by
  obtain ⟨h1, h2, h3, k, h4⟩ := (C35_setup deriv order).1 h
  refine ⟨by omega, by omega, by omega, by omega⟩

theorem one_dim (deriv order : Nat) (pbc : Bool) (pfac : List ℂ) (axes : List (Axis ℝ)) (f : ℝ) (d : Nat) (acc : Bool)
    (inp out : List ℂ) (hs : checkSetup deriv order = true) (hd : d < axes.length) (hf : pfac[d]? = some (f : ℂ))
    (hw : ∀ a ∈ axes, order ≤ a.n) (hin : inp.length = prodL (sizes axes)) (hout : out.length = prodL (sizes axes)) :
    ∃ res, diffDim (ready deriv order pbc pfac axes) inp out d acc = some res ∧ res.length = out.length ∧
      ∀ cs, Valid cs (sizes axes) → res[place cs (sizes axes)]? =
        some ((if acc then out.getD (place cs (sizes axes)) 0 else 0) + (f : ℂ) * term deriv order pbc axes inp cs d) := by
  obtain ⟨h1, h2, h3, h4⟩ := setup_iff deriv order hs
  have ha : axes[d]? = some axes[d] := List.getElem?_eq_getElem hd
  obtain ⟨row, e1, e2, e3⟩ := row_exists (if deriv = 1 then order / 2 - 1 else 25 + (order / 2 - 1)) (by split <;> omega)
  obtain ⟨res, r1, r2, r3⟩ := C35_single (ready deriv order pbc pfac axes) inp out d acc (axisC axes[d]) (f : ℂ)
    (row.map fun x : ℚ => (x : ℂ)) hs (by simp [ready, ha]) hf
    (by
      show (cfTable.map _)[_]? = _
      rw [List.getElem?_map]
      show (cfTable[if deriv = 1 then order / 2 - 1 else 25 + (order / 2 - 1)]?).map _ = _
      rw [e1]
      rfl)
    (by show order / 2 < _; rw [List.length_map]; omega)
    (hw _ (List.getElem_mem hd)) (by rw [ready_sizes]; exact hin) (by rw [ready_sizes]; exact hout)
  refine ⟨res, r1, r2, fun cs hv => ?_⟩
  have hlen := valid_length hv
  have hc : cs[d]? = some (cs[d]'(by rw [hlen, sizes, List.length_map]; exact hd)) := List.getElem?_eq_getElem _
  have h := r3 cs _ (by rw [ready_sizes]; exact hv) hc
  rw [ready_sizes] at h
  rw [h]
  congr 2
  unfold term
  rw [ha, hc]
  show (1 : ℂ) * (f : ℂ) / ((((axes[d].xmax : ℝ) : ℂ) - ((axes[d].xmin : ℝ) : ℂ)) / ((axes[d].n : ℂ) - 1)) ^ deriv *
    central (order / 2) (fun m => (row.map fun x : ℚ => (x : ℂ)).getD (order / 2 - m) 0) (if deriv = 1 then -1 else 1)
      (extend pbc axes[d].n fun y => inp.getD (place (cs.set d y) (sizes axes)) 0) _ = _
  have hcf : (fun m => (row.map fun x : ℚ => (x : ℂ)).getD (order / 2 - m) 0) =
      fun m => ((entry deriv (order / 2) m : ℚ) : ℂ) := by
    funext m
    unfold entry
    rw [e3, List.getD_eq_getElem?_getD, List.getD_eq_getElem?_getD, List.getElem?_map]
    cases row[order / 2 - m]? with
    | none => simp
    | some x => simp
  rw [hcf]
  push_cast
  ring

/-- All dimensions one after the other. -/
theorem all_dims (deriv order : Nat) (pbc : Bool) (pfac : List ℂ) (axes : List (Axis ℝ)) (f : ℝ)
    (inp out : List ℂ) (hs : checkSetup deriv order = true) (hf : ∀ d, d < axes.length → pfac[d]? = some (f : ℂ))
    (hw : ∀ a ∈ axes, order ≤ a.n) (hin : inp.length = prodL (sizes axes)) (hout : out.length = prodL (sizes axes)) :
    ∀ k, k < axes.length → ∃ res, ((diffDim (ready deriv order pbc pfac axes) inp out 0 false).bind fun out =>
        loop k (fun k out => diffDim (ready deriv order pbc pfac axes) inp out (k + 1) true) out) = some res ∧
      res.length = out.length ∧
      ∀ cs, Valid cs (sizes axes) → res[place cs (sizes axes)]? =
        some ((f : ℂ) * ((List.range (k + 1)).map (term deriv order pbc axes inp cs)).sum) := by
  intro k
  induction k with
  | zero =>
    intro h0
    obtain ⟨res, r1, r2, r3⟩ := one_dim deriv order pbc pfac axes f 0 false inp out hs h0 (hf 0 h0) hw hin hout
    refine ⟨res, by rw [r1]; rfl, r2, fun cs hv => ?_⟩
    rw [r3 cs hv]
    simp
  | succ k ih =>
    intro hk
    obtain ⟨r0, a1, a2, a3⟩ := ih (by omega)
    obtain ⟨res, r1, r2, r3⟩ := one_dim deriv order pbc pfac axes f (k + 1) true inp r0 hs hk (hf _ hk) hw hin (by rw [a2, hout])
    refine ⟨res, ?_, by rw [r2, a2], fun cs hv => ?_⟩
    · cases hd : diffDim (ready deriv order pbc pfac axes) inp out 0 false with
      | none => rw [hd] at a1; exact absurd a1 (by simp)
      | some o1 =>
        rw [hd] at a1
        show (loop k _ o1).bind _ = _
        have a1' : loop k (fun k out => diffDim (ready deriv order pbc pfac axes) inp out (k + 1) true) o1 = some r0 := a1
        rw [a1']
        exact r1
    · rw [r3 cs hv, if_pos rfl, List.getD_eq_getElem?_getD, a3 cs hv, List.range_succ (n := k + 1), List.map_append, List.sum_append,
        mul_add]
      simp

theorem massLoop_last (v : List ℝ) (D : Nat) (m : ℝ) (hD : D + 1 ≤ v.length) (h0 : ∀ d x, d < D + 1 → v[d]? = some x → x ≠ 0)
    (hm : v[D]? = some m) :
    massLoop v (D + 1) = .val ((v.take (D + 1)).any fun x => decide (x > -1), -1 / (2 * m)) := by
  induction D generalizing m with
  | zero =>
    have := h0 0 m (by omega) hm
    cases v with
    | nil => cases hm
    | cons x v =>
      have hx : x = m := by simpa using hm
      subst hx
      show massStep (x :: v) (.val (false, 0)) 0 = _
      simp [massStep, this]
  | succ D ih =>
    have hlt : D < v.length := by omega
    have hr := ih v[D] (by omega) (fun d x hd => h0 d x (by omega)) (List.getElem?_eq_getElem hlt)
    unfold massLoop at hr ⊢
    rw [List.range_succ, List.foldl_append, hr, List.foldl_cons, List.foldl_nil]
    unfold massStep
    have := h0 _ m (Nat.lt_succ_self _) hm
    simp only [hm, if_neg this]
    rw [List.take_succ (i := D + 1), hm, List.any_append]
    simp

/-- The factor of all dimensions for given masses: the one of the last mass, or one without masses. -/
def Last (mass : Option (List ℝ)) (D : Nat) (f : ℝ) : Prop :=
  (mass = none ∧ D ≤ 4 ∧ f = 1) ∨
    ∃ v m, mass = some v ∧ D ≤ v.length ∧ (∀ d x, d < D → v[d]? = some x → x ≠ 0) ∧ (∃ x ∈ v.take D, -1 < x) ∧
      v[D - 1]? = some m ∧ f = -1 / (2 * m)

/-- The dimension as it is given to the operator. -/
def dimPar (dim : Option Nat) : Option Int := dim.map fun d => (d : Int)

theorem set_up (deriv order : Nat) (pbc : Bool) (dim : Option Nat) (mass : Option (List ℝ)) (axes : List (Axis ℝ)) (f : ℝ)
    (hs : checkSetup deriv order = true) (hD : axes ≠ []) (hdim : ∀ d, dim = some d → d < axes.length)
    (hm : Last mass axes.length f) :
    ∃ o1 o2, Op.new.initParams deriv order pbc (dimPar dim) mass = .ok o1 ∧ o1.initPsi axes = .ok o2 ∧
      ∃ pfac, (∀ d, d < axes.length → pfac[d]? = some (f : ℂ)) ∧ o2.hofd = some (ready deriv order pbc pfac axes) ∧
        o2.dim = (dimPar dim).getD (-1) ∧ o2.axes = axes ∧ o2.deriv = deriv ∧ o2.order = order ∧
        o2.mass = mass.getD (List.replicate 4 1) := by
  let o1 : Op := ⟨deriv, order, (dimPar dim).getD (-1), List.replicate 4 1, mass, some (newHofd deriv order pbc), []⟩
  have h1 : Op.new.initParams deriv order pbc (dimPar dim) mass = .ok o1 := by
    unfold Op.initParams
    simp only [hs, if_true]
    rfl
  have hd : ¬ ((axes.length : Int) ≤ o1.dim ∨ o1.dim < -1) := by
    show ¬ ((axes.length : Int) ≤ (dimPar dim).getD (-1) ∨ (dimPar dim).getD (-1) < -1)
    cases dim with
    | none =>
      show ¬ ((axes.length : Int) ≤ -1 ∨ (-1 : Int) < -1)
      omega
    | some d =>
      have := hdim d rfl
      show ¬ ((axes.length : Int) ≤ (d : Int) ∨ (d : Int) < -1)
      omega
  have hpos : 0 < axes.length := List.length_pos_iff.2 hD
  rcases hm with ⟨rfl, h4, rfl⟩ | ⟨v, m, rfl, hv, hm0, ⟨x, hx, hx1⟩, hm1, rfl⟩
  · refine ⟨o1, _, h1, if_neg hd, (List.replicate 4 1).map fun m : ℝ => (m : ℂ), ?_, rfl, rfl, rfl, rfl, rfl, rfl⟩
    intro d hdl
    rw [List.getElem?_map, List.getElem?_replicate_of_lt (by omega)]
    rfl
  · have hl : ¬ v.length < 1 := by omega
    have hloop := massLoop_last v (axes.length - 1) m (by omega) (fun d x hd => hm0 d x (by omega)) hm1
    rw [Nat.sub_add_cancel hpos, List.any_eq_true.2 ⟨x, hx, decide_eq_true hx1⟩] at hloop
    refine ⟨o1, { o1 with axes := axes, mass := v, hofd := some (ready deriv order pbc (List.replicate v.length (((-1 / (2 * m) : ℝ)) : ℂ)) axes) }, h1, ?_,
      List.replicate v.length (((-1 / (2 * m) : ℝ)) : ℂ), ?_, rfl, rfl, rfl, rfl, rfl, rfl⟩
    · unfold Op.initPsi
      simp only
      rw [if_neg hd]
      show (if v.length < 1 then _ else match massLoop v axes.length with
        | .ub => _ | .threw => _ | .val (eff, f) => _) = _
      rw [if_neg hl, hloop]
      rfl
    · intro d hdl
      exact List.getElem?_replicate_of_lt (by omega)

/-! ### Neighbours -/

/-- The coordinate of the point `q` along `d`. -/
def xOf (ns : List Nat) (d n q : Nat) : Nat := q / lowOthersOf ns d % n

/-- The point of the line through `q` with the coordinate `y`. -/
def move (ns : List Nat) (d n q y : Nat) : Nat := q - xOf ns d n q * lowOthersOf ns d + y * lowOthersOf ns d

section
variable {ns : List Nat} {d n : Nat} (hn : ns[d]? = some n)
include hn

theorem move_place {cs : List Nat} (hv : Valid cs ns) {y : Nat} (hy : y < n) :
    move ns d n (place cs ns) y = place (cs.set d y) ns ∧ Valid (cs.set d y) ns := by
  have hlt : d < cs.length := by rw [valid_length hv]; exact getElem?_lt hn
  have hc : cs[d]? = some cs[d] := List.getElem?_eq_getElem hlt
  obtain ⟨h1, h2⟩ := valid_set ns cs d _ n y hv hc hn hy
  have h3 := coord_of_place ns cs d _ n hv hc hn
  have h4 := (formula_place ns cs d _ n hv hc hn).2.2
  refine ⟨?_, h1⟩
  unfold move xOf
  rw [h3]
  omega

theorem move_lt {q y : Nat} (hq : q < prodL ns) (hy : y < n) : move ns d n q y < prodL ns := by
  obtain ⟨cs, hv, rfl⟩ := place_surj ns q hq
  obtain ⟨h1, h2⟩ := move_place hn hv hy
  rw [h1]
  exact place_lt h2

theorem xOf_lt {q : Nat} (hq : q < prodL ns) : xOf ns d n q < n := by
  obtain ⟨cs, hv, rfl⟩ := place_surj ns q hq
  have hlt : d < cs.length := by rw [valid_length hv]; exact getElem?_lt hn
  have hc : cs[d]? = some cs[d] := List.getElem?_eq_getElem hlt
  unfold xOf
  rw [coord_of_place ns cs d _ n hv hc hn]
  exact valid_lt hv hc hn

theorem xOf_move {q y : Nat} (hq : q < prodL ns) (hy : y < n) : xOf ns d n (move ns d n q y) = y := by
  obtain ⟨cs, hv, rfl⟩ := place_surj ns q hq
  obtain ⟨h1, h2⟩ := move_place hn hv hy
  have hlt : d < cs.length := by rw [valid_length hv]; exact getElem?_lt hn
  rw [h1]
  exact coord_of_place ns _ d _ n h2 (List.getElem?_set_self hlt) hn

theorem move_move {q y z : Nat} (hq : q < prodL ns) (hy : y < n) (hz : z < n) :
    move ns d n (move ns d n q y) z = move ns d n q z := by
  obtain ⟨cs, hv, rfl⟩ := place_surj ns q hq
  obtain ⟨h1, h2⟩ := move_place hn hv hy
  rw [h1, (move_place hn h2 hz).1, (move_place hn hv hz).1, List.set_set]

theorem move_self {q : Nat} (hq : q < prodL ns) : move ns d n q (xOf ns d n q) = q := by
  obtain ⟨cs, hv, rfl⟩ := place_surj ns q hq
  have hlt : d < cs.length := by rw [valid_length hv]; exact getElem?_lt hn
  have hc : cs[d]? = some cs[d] := List.getElem?_eq_getElem hlt
  have h3 := coord_of_place ns cs d _ n hv hc hn
  have h4 := (formula_place ns cs d _ n hv hc hn).2.2
  unfold move xOf
  rw [h3]
  omega

end

/-- Where a point at the position `u` of a line lies. -/
def tgt (pbc : Bool) (n : Nat) (u : Int) : Option Nat :=
  if 0 ≤ u ∧ u < n then some u.toNat else if pbc then some (u % n).toNat else none

theorem tgt_lt {pbc : Bool} {n : Nat} (hn : 0 < n) {u : Int} {y : Nat} (h : tgt pbc n u = some y) : y < n := by
  unfold tgt at h
  split at h
  · cases h; omega
  · split at h
    · cases h
      have h1 := Int.emod_nonneg u (b := (n : Int)) (by omega)
      have h2 := Int.emod_lt_of_pos u (b := (n : Int)) (by omega)
      omega
    · cases h

theorem tgt_back {pbc : Bool} {n : Nat} {x y : Nat} (hx : x < n) {z : Int} (h : tgt pbc n (x + z) = some y) :
    tgt pbc n (y + -z) = some x := by
  unfold tgt at h ⊢
  split at h
  · cases h
    have : ((((x : Int) + z).toNat : Nat) : Int) + -z = x := by omega
    rw [this, if_pos (by omega)]
    simp
  · split at h
    · rename_i hp
      cases h
      have h1 := Int.emod_nonneg ((x : Int) + z) (b := (n : Int)) (by omega)
      have h2 : (((((x : Int) + z) % n).toNat : Nat) : Int) = ((x : Int) + z) % n := by omega
      rw [h2]
      have h3 : ((((x : Int) + z) % n) + -z) % n = x := by
        rw [Int.emod_add_emod]
        have : (x : Int) + z + -z = x := by omega
        rw [this, Int.emod_eq_of_lt (by omega) (by omega)]
      split
      · rename_i hr
        rw [Int.emod_eq_of_lt hr.1 hr.2] at h3
        rw [h3]
        simp
      · rw [h3]
        simp
    · cases h

theorem extend_tgt {K : Type} [Zero K] (pbc : Bool) (n : Nat) (line : Nat → K) (u : Int) :
    extend pbc n line u = match tgt pbc n u with | some y => line y | none => 0 := by
  unfold extend tgt
  split
  · rfl
  · split <;> rfl

/-- The sum over all points of `a` times `b` at the distance `z` along `d`. -/
noncomputable def link (pbc : Bool) (ns : List Nat) (d n : Nat) (a b : Nat → ℂ) (z : Int) : ℂ :=
  ∑ q ∈ Finset.range (prodL ns), a q * extend pbc n (fun y => b (move ns d n q y)) (xOf ns d n q + z)

theorem link_symm {ns : List Nat} {d n : Nat} (hn : ns[d]? = some n) (pbc : Bool) (a b : Nat → ℂ) (z : Int) :
    link pbc ns d n a b z = link pbc ns d n b a (-z) := by
  have key : ∀ (a b : Nat → ℂ) (z : Int), link pbc ns d n a b z = ∑ q ∈ Finset.range (prodL ns), ∑ q' ∈ Finset.range (prodL ns),
      if (tgt pbc n (xOf ns d n q + z)).map (move ns d n q) = some q' then a q * b q' else 0 := by
    intro a b z
    refine Finset.sum_congr rfl fun q hq => ?_
    rw [Finset.mem_range] at hq
    rw [extend_tgt]
    cases ht : tgt pbc n (xOf ns d n q + z) with
    | none => simp
    | some y =>
      have hy := tgt_lt (by have := xOf_lt hn hq; omega) ht
      simp only [Option.map_some, Option.some.injEq]
      rw [Finset.sum_ite_eq, if_pos (Finset.mem_range.2 (move_lt hn hq hy))]
  rw [key a b z, key b a (-z), Finset.sum_comm]
  refine Finset.sum_congr rfl fun q hq => Finset.sum_congr rfl fun q' hq' => ?_
  rw [Finset.mem_range] at hq hq'
  have dir : ∀ {q q' : Nat} {z : Int}, q < prodL ns →
      (tgt pbc n (xOf ns d n q + z)).map (move ns d n q) = some q' →
      (tgt pbc n (xOf ns d n q' + -z)).map (move ns d n q') = some q := by
    intro q q' z hq h
    have hx := xOf_lt hn hq
    cases ht : tgt pbc n (xOf ns d n q + z) with
    | none => rw [ht] at h; cases h
    | some y =>
      have hy := tgt_lt (by omega) ht
      rw [ht] at h
      simp only [Option.map_some, Option.some.injEq] at h
      subst h
      rw [xOf_move hn hq hy, tgt_back hx ht]
      simp only [Option.map_some, Option.some.injEq]
      rw [move_move hn hq hy hx, move_self hn hq]
  by_cases h : (tgt pbc n (xOf ns d n q' + z)).map (move ns d n q') = some q
  · rw [if_pos h, if_pos (dir hq' h), mul_comm]
  · rw [if_neg h, if_neg fun h' => h ?_]
    have := dir hq h'
    rwa [neg_neg] at this

/-- The derivative along `d` at the point `q`. -/
noncomputable def tq (deriv order : Nat) (pbc : Bool) (ns : List Nat) (d n : Nat) (h : ℂ) (ψ : Nat → ℂ) (q : Nat) : ℂ :=
  central (order / 2) (fun m => ((entry deriv (order / 2) m : ℚ) : ℂ)) (if deriv = 1 then -1 else 1)
    (extend pbc n fun y => ψ (move ns d n q y)) (xOf ns d n q) / h ^ deriv

/-- The spacing of an axis. -/
noncomputable def gap (a : Axis ℝ) : ℝ := (a.xmax - a.xmin) / ((a.n : ℝ) - 1)

theorem term_tq (deriv order : Nat) (pbc : Bool) (axes : List (Axis ℝ)) (ψ : List ℂ) (cs : List Nat) (d : Nat) (a : Axis ℝ)
    (ha : axes[d]? = some a) (hv : Valid cs (sizes axes)) :
    term deriv order pbc axes ψ cs d =
      tq deriv order pbc (sizes axes) d a.n (gap a : ℂ) (fun q => ψ.getD q 0) (place cs (sizes axes)) := by
  have hn : (sizes axes)[d]? = some a.n := by simp [sizes, ha]
  have hlt : d < cs.length := by rw [valid_length hv]; exact getElem?_lt hn
  have hc : cs[d]? = some cs[d] := List.getElem?_eq_getElem hlt
  have hx : xOf (sizes axes) d a.n (place cs (sizes axes)) = cs[d] := coord_of_place _ cs d _ a.n hv hc hn
  have hext : (extend pbc a.n fun y => ψ.getD (place (cs.set d y) (sizes axes)) 0) =
      extend pbc a.n fun y => ψ.getD (move (sizes axes) d a.n (place cs (sizes axes)) y) 0 := by
    funext u
    rw [extend_tgt, extend_tgt]
    cases ht : tgt pbc a.n u with
    | none => rfl
    | some y =>
      have hy := tgt_lt (by have := valid_lt hv hc hn; omega) ht
      simp only
      rw [(move_place hn hv hy).1]
  unfold term tq
  rw [ha, hc, hx]
  simp only
  rw [hext]
  rfl

/-- The form of one dimension. -/
noncomputable def form (deriv order : Nat) (pbc : Bool) (ns : List Nat) (d n : Nat) (h : ℂ) (a b : Nat → ℂ) : ℂ :=
  ((entry deriv (order / 2) 0 : ℚ) * link pbc ns d n a b 0 +
    ∑ k ∈ Finset.range (order / 2), ((entry deriv (order / 2) (k + 1) : ℚ) : ℂ) *
      (link pbc ns d n a b (-(k + 1)) + (if deriv = 1 then -1 else 1) * link pbc ns d n a b (k + 1))) / h ^ deriv

theorem sumTo_range (f : Nat → ℂ) (n : Nat) : sumTo f n = ∑ k ∈ Finset.range n, f k := by
  induction n with
  | zero => rfl
  | succ n ih => rw [Finset.sum_range_succ, ← ih]; rfl

theorem sum_tq (deriv order : Nat) (pbc : Bool) (ns : List Nat) (d n : Nat) (h : ℂ) (a b : Nat → ℂ) :
    ∑ q ∈ Finset.range (prodL ns), a q * tq deriv order pbc ns d n h b q = form deriv order pbc ns d n h a b := by
  unfold tq form central link
  simp only [sumTo_range, ← mul_div_assoc]
  rw [← Finset.sum_div]
  congr 1
  simp only [mul_add, Finset.sum_add_distrib, Finset.mul_sum]
  rw [Finset.sum_comm (s := Finset.range (prodL ns)), Finset.sum_comm (s := Finset.range (prodL ns))]
  refine congrArg₂ _ (Finset.sum_congr rfl fun q _ => ?_) (congrArg₂ _ (Finset.sum_congr rfl fun k _ =>
    Finset.sum_congr rfl fun q _ => ?_) (Finset.sum_congr rfl fun k _ => Finset.sum_congr rfl fun q _ => ?_))
  · rw [add_zero]; ring
  · rw [← sub_eq_add_neg]; ring
  · ring

theorem form_symm {ns : List Nat} {d n : Nat} (hn : ns[d]? = some n) (order : Nat) (pbc : Bool) (h : ℂ) (a b : Nat → ℂ) :
    form 2 order pbc ns d n h a b = form 2 order pbc ns d n h b a := by
  unfold form
  have h0 := link_symm hn pbc a b 0
  rw [neg_zero] at h0
  rw [h0]
  congr 2
  refine Finset.sum_congr rfl fun k _ => ?_
  rw [link_symm hn pbc a b (-(k + 1)), link_symm hn pbc a b (k + 1), neg_neg, if_neg (by decide)]
  ring

theorem entry1_zero (p : Nat) (hp : 1 ≤ p) (hp' : p ≤ 2) : entry 1 p 0 = 0 := by
  have : (List.range 2).all (fun r => decide (entry 1 (r + 1) 0 = 0)) = true := by decide +kernel
  have := of_decide_eq_true (List.all_eq_true.1 this (p - 1) (List.mem_range.2 (by omega)))
  rwa [Nat.sub_add_cancel hp] at this

theorem form_anti {ns : List Nat} {d n : Nat} (hn : ns[d]? = some n) (order : Nat) (pbc : Bool) (h : ℂ) (a b : Nat → ℂ)
    (h1 : 1 ≤ order / 2) (h2 : order / 2 ≤ 2) :
    form 1 order pbc ns d n h a b = - form 1 order pbc ns d n h b a := by
  unfold form
  rw [entry1_zero _ h1 h2, ← neg_div]
  congr 1
  simp only [Rat.cast_zero, zero_mul, zero_add, if_true]
  rw [← Finset.sum_neg_distrib]
  refine Finset.sum_congr rfl fun k _ => ?_
  rw [link_symm hn pbc a b (-(k + 1)), link_symm hn pbc a b (k + 1), neg_neg]
  ring

theorem link_conj (pbc : Bool) (ns : List Nat) (d n : Nat) (a b : Nat → ℂ) (z : Int) :
    starRingEnd ℂ (link pbc ns d n a b z) =
      link pbc ns d n (fun q => starRingEnd ℂ (a q)) (fun q => starRingEnd ℂ (b q)) z := by
  unfold link
  rw [map_sum]
  refine Finset.sum_congr rfl fun q _ => ?_
  rw [map_mul, extend_tgt, extend_tgt]
  cases tgt pbc n (xOf ns d n q + z) with
  | none => simp
  | some y => rfl

theorem form_conj (deriv order : Nat) (pbc : Bool) (ns : List Nat) (d n : Nat) (h : ℝ) (a b : Nat → ℂ) :
    starRingEnd ℂ (form deriv order pbc ns d n (h : ℂ) a b) =
      form deriv order pbc ns d n (h : ℂ) (fun q => starRingEnd ℂ (a q)) (fun q => starRingEnd ℂ (b q)) := by
  unfold form
  have hs : starRingEnd ℂ (if deriv = 1 then -1 else 1) = (if deriv = 1 then -1 else 1) := by split <;> simp
  simp only [map_div₀, map_add, map_mul, map_sum, map_pow, link_conj, Complex.conj_ofReal, map_ratCast, hs]

/-- The sum of the squares. -/
noncomputable def norm2 (ns : List Nat) (ψ : Nat → ℂ) : ℝ := ∑ q ∈ Finset.range (prodL ns), ‖ψ q‖ ^ 2

theorem extend_norm (pbc : Bool) (n : Nat) (f : Nat → ℂ) (u : Int) :
    ((‖extend pbc n f u‖ ^ 2 : ℝ) : ℂ) = extend pbc n (fun y => ((‖f y‖ ^ 2 : ℝ) : ℂ)) u := by
  rw [extend_tgt, extend_tgt]
  cases tgt pbc n u <;> simp

theorem link_bound {ns : List Nat} {d n : Nat} (hn : ns[d]? = some n) (pbc : Bool) (ψ : Nat → ℂ) (z : Int) :
    ‖link pbc ns d n (fun q => starRingEnd ℂ (ψ q)) ψ z‖ ≤ norm2 ns ψ := by
  have h1 : ‖link pbc ns d n (fun q => starRingEnd ℂ (ψ q)) ψ z‖ ≤
      ∑ q ∈ Finset.range (prodL ns), (‖ψ q‖ ^ 2 + ‖extend pbc n (fun y => ψ (move ns d n q y)) (xOf ns d n q + z)‖ ^ 2) / 2 := by
    refine (norm_sum_le _ _).trans (Finset.sum_le_sum fun q _ => ?_)
    rw [norm_mul, RCLike.norm_conj]
    nlinarith [sq_nonneg (‖ψ q‖ - ‖extend pbc n (fun y => ψ (move ns d n q y)) (xOf ns d n q + z)‖)]
  have h2 : ∑ q ∈ Finset.range (prodL ns), ‖extend pbc n (fun y => ψ (move ns d n q y)) (xOf ns d n q + z)‖ ^ 2 ≤ norm2 ns ψ := by
    have e : ((∑ q ∈ Finset.range (prodL ns), ‖extend pbc n (fun y => ψ (move ns d n q y)) (xOf ns d n q + z)‖ ^ 2 : ℝ) : ℂ) =
        ((∑ q ∈ Finset.range (prodL ns), ‖ψ q‖ ^ 2 * ‖extend pbc n (fun _ => (1 : ℂ)) (xOf ns d n q + -z)‖ ^ 2 : ℝ) : ℂ) := by
      have l := link_symm hn pbc (fun _ => (1 : ℂ)) (fun q => ((‖ψ q‖ ^ 2 : ℝ) : ℂ)) z
      unfold link at l
      rw [Complex.ofReal_sum, Complex.ofReal_sum]
      simp only [one_mul, ← extend_norm] at l
      rw [l]
      refine Finset.sum_congr rfl fun q _ => ?_
      rw [Complex.ofReal_mul, extend_norm pbc n (fun _ => (1 : ℂ))]
      simp
    rw [Complex.ofReal_inj] at e
    rw [e]
    refine Finset.sum_le_sum fun q _ => ?_
    have : ‖extend pbc n (fun _ => (1 : ℂ)) (xOf ns d n q + -z)‖ ^ 2 ≤ 1 := by
      rw [extend_tgt]
      cases tgt pbc n (xOf ns d n q + -z) <;> simp
    have h0 : 0 ≤ ‖ψ q‖ ^ 2 := by positivity
    nlinarith
  refine h1.trans ?_
  rw [← Finset.sum_div, Finset.sum_add_distrib]
  have : (∑ q ∈ Finset.range (prodL ns), ‖ψ q‖ ^ 2) = norm2 ns ψ := rfl
  rw [this]
  linarith

/-- The sum of the absolute values of the coefficients of the second derivative. -/
def rowSum (p : Nat) : ℚ := |entry 2 p 0| + 2 * ∑ k ∈ Finset.range p, |entry 2 p (k + 1)|

theorem rowSum_le (p : Nat) (hp : 1 ≤ p) (hp' : p ≤ 25) : rowSum p ≤ 98696 / 10000 := by
  have : (List.range 25).all (fun r => decide (rowSum (r + 1) ≤ 98696 / 10000)) = true := by decide +kernel
  have := of_decide_eq_true (List.all_eq_true.1 this (p - 1) (List.mem_range.2 (by omega)))
  rwa [Nat.sub_add_cancel hp] at this

theorem form_bound {ns : List Nat} {d n : Nat} (hn : ns[d]? = some n) (order : Nat) (pbc : Bool) (h : ℝ) (hh : 0 < h) (ψ : Nat → ℂ)
    (h1 : 1 ≤ order / 2) (h2 : order / 2 ≤ 25) :
    ‖form 2 order pbc ns d n (h : ℂ) (fun q => starRingEnd ℂ (ψ q)) ψ‖ ≤ Real.pi ^ 2 / h ^ 2 * norm2 ns ψ := by
  have hN : 0 ≤ norm2 ns ψ := Finset.sum_nonneg fun q _ => by positivity
  have hr : ((rowSum (order / 2) : ℚ) : ℝ) ≤ Real.pi ^ 2 := by
    have a : ((rowSum (order / 2) : ℚ) : ℝ) ≤ ((98696 / 10000 : ℚ) : ℝ) := by exact_mod_cast rowSum_le _ h1 h2
    have b := Real.pi_gt_d6
    push_cast at a
    nlinarith
  unfold form
  rw [norm_div, norm_pow, Complex.norm_real, Real.norm_of_nonneg hh.le, div_mul_eq_mul_div]
  refine div_le_div_of_nonneg_right ?_ (by positivity)
  refine le_trans ?_ (mul_le_mul_of_nonneg_right hr hN)
  have hq : ∀ x : ℚ, ‖(x : ℂ)‖ = ((|x| : ℚ) : ℝ) := fun x => by
    rw [← Complex.ofReal_ratCast, Complex.norm_real, Real.norm_eq_abs, Rat.cast_abs]
  refine (norm_add_le _ _).trans ?_
  unfold rowSum
  push_cast
  rw [add_mul, mul_assoc, Finset.sum_mul, Finset.mul_sum]
  refine add_le_add ?_ ((norm_sum_le _ _).trans (Finset.sum_le_sum fun k _ => ?_))
  · rw [norm_mul, hq, Rat.cast_abs]
    exact mul_le_mul_of_nonneg_left (link_bound hn pbc ψ 0) (abs_nonneg _)
  · rw [norm_mul, hq, Rat.cast_abs, one_mul]
    have a := link_bound hn pbc ψ (-(k + 1))
    have b := link_bound hn pbc ψ (k + 1)
    have c := norm_add_le (link pbc ns d n (fun q => starRingEnd ℂ (ψ q)) ψ (-(k + 1))) (link pbc ns d n (fun q => starRingEnd ℂ (ψ q)) ψ (k + 1))
    have e := abs_nonneg ((entry 2 (order / 2) (k + 1) : ℚ) : ℝ)
    nlinarith

/-- The stencil of order two is not positive. -/
theorem form_neg {ns : List Nat} {d n : Nat} (hn : ns[d]? = some n) (pbc : Bool) (h : ℝ) (ψ : Nat → ℂ) :
    (form 2 2 pbc ns d n (h : ℂ) (fun q => starRingEnd ℂ (ψ q)) ψ).re ≤ 0 := by
  have e0 : entry 2 1 0 = -2 := by decide +kernel
  have e1 : entry 2 1 1 = 1 := by decide +kernel
  have l0 : link pbc ns d n (fun q => starRingEnd ℂ (ψ q)) ψ 0 = ((norm2 ns ψ : ℝ) : ℂ) := by
    unfold link norm2
    rw [Complex.ofReal_sum]
    refine Finset.sum_congr rfl fun q hq => ?_
    have hx := xOf_lt hn (Finset.mem_range.1 hq)
    rw [extend_tgt, add_zero, tgt, if_pos (by omega)]
    simp only [Int.toNat_natCast]
    rw [move_self hn (Finset.mem_range.1 hq), mul_comm, Complex.mul_conj, Complex.normSq_eq_norm_sq]
  have a := (Complex.re_le_norm _).trans (link_bound hn pbc ψ (-1))
  have b := (Complex.re_le_norm _).trans (link_bound hn pbc ψ 1)
  unfold form
  rw [show (2 / 2 : Nat) = 1 from rfl, Finset.sum_range_one, e0, e1, l0]
  have hre : ∀ z : ℂ, (z / (h : ℂ) ^ 2).re = z.re / h ^ 2 := fun z => by
    rw [← Complex.ofReal_pow, Complex.div_ofReal_re]
  rw [hre]
  refine div_nonpos_of_nonpos_of_nonneg ?_ (by positivity)
  simp at a b ⊢
  linarith

end QDng.Fd
