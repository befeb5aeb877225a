import Verif.Deriv.GLemmas
import Verif.GridFn.Spec
import Mathlib.Algebra.BigOperators.Fin
import Mathlib.Tactic.Ring
import Mathlib.Tactic.Linarith
import Mathlib.Tactic.FieldSimp
import Mathlib.Tactic.Positivity

/-
Helper lemmas for the multiplicative grid operators.
-/

namespace QDng.GridFn

open QDng.Common QDng.Deriv

theorem dx_eq (s : Space) (i : Fin s.d) : (s.axes i).dx = spacing s i := rfl

theorem reach_nonneg {s : Space} (h : s.Ok) (i : Fin s.d) {x : ℝ} (hx : (s.axes i).xmin < x) (p : s.Pt) :
    0 ≤ reach s i x p := by
  unfold reach coord
  have h1 := spacing_pos h i
  have h2 : 0 < x - (s.axes i).xmin := by linarith
  have : (s.axes i).xmin + ((p i : Nat) : ℝ) * spacing s i - (s.axes i).xmin
      = ((p i : Nat) : ℝ) * spacing s i := by ring
  rw [this]
  positivity

theorem reach_eq {s : Space} (h : s.Ok) (i : Fin s.d) (x : ℝ) (p : s.Pt) :
    reach s i x p = ((p i : Nat) : ℝ) / edgePos s i x := by
  unfold reach coord edgePos
  rw [dx_eq]
  have h1 := (spacing_pos h i).ne'
  have : (s.axes i).xmin + ((p i : Nat) : ℝ) * spacing s i - (s.axes i).xmin
      = ((p i : Nat) : ℝ) * spacing s i := by ring
  rw [this, div_div_eq_mul_div]

theorem edgePos_pos {s : Space} (h : s.Ok) (i : Fin s.d) {x : ℝ} (hx : (s.axes i).xmin < x) :
    0 < edgePos s i x := by
  unfold edgePos
  rw [dx_eq]
  exact div_pos (by linarith) (spacing_pos h i)

theorem not_offGrid {s : Space} (h : s.Ok) (i : Fin s.d) {x : ℝ} (hx : (s.axes i).xmin < x)
    (hx2 : x ≤ (s.axes i).xmax) : ¬ offGrid (s.axes i).n (edgePos s i x) := by
  have h0 := edgePos_pos h i hx
  have hsp := spacing_pos h i
  have hn : (2 : ℝ) ≤ (s.axes i).n := by exact_mod_cast (h i).1
  have h1 : edgePos s i x ≤ (s.axes i).n - 1 := by
    unfold edgePos
    rw [dx_eq, div_le_iff₀ hsp]
    have : ((s.axes i).n - 1 : ℝ) * spacing s i = (s.axes i).xmax - (s.axes i).xmin := by
      unfold spacing
      have : ((s.axes i).n : ℝ) - 1 ≠ 0 := by linarith
      field_simp
    rw [this]
    linarith
  intro hoff
  rcases hoff with h2 | h2 <;> linarith

theorem bwLow_eq {s : Space} (h : s.Ok) (i : Fin s.d) {x : ℝ} (hx : (s.axes i).xmin < x) (n : Nat)
    (p : s.Pt) : bwLow (edgePos s i x) n (p i) = some (passLeft s i x n p) := by
  unfold bwLow passLeft
  rw [if_neg (edgePos_pos h i hx).ne', reach_eq h]

theorem bwHigh_eq {s : Space} (h : s.Ok) (i : Fin s.d) {x : ℝ} (hx : (s.axes i).xmin < x) {n : Nat}
    (hn : 1 ≤ n) (p : s.Pt) : bwHigh (edgePos s i x) n (p i) = some (passRight s i x n p) := by
  have h0 := edgePos_pos h i hx
  unfold bwHigh passRight
  rw [reach_eq h]
  by_cases hp : ((p i : Fin _) : Nat) = 0
  · rw [if_pos hp, if_neg h0.ne', hp]
    have : 2 * n ≠ 0 := by omega
    simp [this]
  · rw [if_neg hp]
    have hp' : (0 : ℝ) < ((p i : Fin _) : Nat) := by exact_mod_cast Nat.pos_of_ne_zero hp
    congr 1
    rw [div_pow, div_pow]
    have h1 : 0 < edgePos s i x ^ (2 * n) := by positivity
    have h2 : (0 : ℝ) < (((p i : Fin _) : Nat) : ℝ) ^ (2 * n) := by positivity
    field_simp
    ring

/-- The loop for a mask. -/
theorem buildLoop_mask {s : Space} (h : s.Ok) {n : Nat} (hn : 1 ≤ n) (e : Edges s) (he : e.Inside) :
    ∀ (l : List (Fin s.d)) (f : s.Pt → ℝ),
      buildLoop s n false e l (fun p => some (f p)) =
        (fun p => some (f p * (l.map (dimFactor e n p)).prod), true) := by
  intro l
  induction l with
  | nil => intro f; simp [buildLoop]
  | cons i rest ih =>
    intro f
    have hL : leftStep s n e i (fun p => some (f p)) =
        some (fun p => some (f p * (match e.lp i with | none => 1 | some x => passLeft s i x n p))) := by
      unfold leftStep
      rcases hl : e.lp i with _ | x
      · simp
      · obtain ⟨h1, h2⟩ := he i x (Or.inl hl)
        simp only [if_neg (not_offGrid h i h1 h2), bwLow_eq h i h1]
        rfl
    have hR : ∀ g : s.Pt → ℝ, rightStep s n false e i (fun p => some (g p)) =
        some (fun p => some (g p * (match e.rp i with | none => 1 | some x => passRight s i x n p))) := by
      intro g
      unfold rightStep
      rcases hl : e.rp i with _ | x
      · simp
      · obtain ⟨h1, h2⟩ := he i x (Or.inr hl)
        simp only [if_neg (not_offGrid h i h1 h2), bwHigh_eq h i h1 hn]
        rfl
    unfold buildLoop
    rw [hL]
    simp only []
    rw [hR]
    simp only []
    rw [ih]
    refine Prod.ext (funext fun p => ?_) rfl
    simp only [List.map_cons, List.prod_cons]
    congr 1
    have : dimFactor e n p i = (match e.lp i with | none => 1 | some x => passLeft s i x n p) *
      (match e.rp i with | none => 1 | some x => passRight s i x n p) := rfl
    rw [this]
    ring

/-- The loop for an absorber with edges on the right only. -/
theorem buildLoop_right {s : Space} (h : s.Ok) {n : Nat} (hn : 1 ≤ n) (e : Edges s) (he : e.Inside)
    (hlp : ∀ i, e.lp i = none) :
    ∀ (l : List (Fin s.d)) (f : s.Pt → ℝ),
      buildLoop s n true e l (fun p => some (f p)) =
        (fun p => some (f p + (l.map (dimAbsorb e n p)).sum), true) := by
  intro l
  induction l with
  | nil => intro f; simp [buildLoop]
  | cons i rest ih =>
    intro f
    have hL : leftStep s n e i (fun p => some (f p)) = some (fun p => some (f p)) := by
      unfold leftStep
      rw [hlp i]
    have hR : ∀ g : s.Pt → ℝ, rightStep s n true e i (fun p => some (g p)) =
        some (fun p => some (g p + dimAbsorb e n p i)) := by
      intro g
      unfold rightStep dimAbsorb
      rcases hl : e.rp i with _ | x
      · simp
      · obtain ⟨h1, h2⟩ := he i x (Or.inr hl)
        simp only [if_neg (not_offGrid h i h1 h2), bwHigh_eq h i h1 hn]
        rfl
    unfold buildLoop
    rw [hL]
    simp only []
    rw [hR]
    simp only []
    rw [ih]
    simp only [List.map_cons, List.sum_cons]
    refine Prod.ext (funext fun p => ?_) rfl
    simp only []
    congr 1
    ring

/-- The loop for an absorber with edges on the left only. -/
theorem buildLoop_left {s : Space} (h : s.Ok) (n : Nat) (e : Edges s) (he : e.Inside)
    (hrp : ∀ i, e.rp i = none) :
    ∀ (l : List (Fin s.d)), buildLoop s n true e l (fun _ => some 0) = (fun _ => some 0, true) := by
  intro l
  induction l with
  | nil => simp [buildLoop]
  | cons i rest ih =>
    have hL : leftStep s n e i (fun _ => some 0) = some (fun _ => some 0) := by
      unfold leftStep
      rcases hl : e.lp i with _ | x
      · simp
      · obtain ⟨h1, h2⟩ := he i x (Or.inl hl)
        simp only [if_neg (not_offGrid h i h1 h2), bwLow_eq h i h1]
        simp [mulNum]
    have hR : rightStep s n true e i (fun _ => some 0) = some (fun _ => some 0) := by
      unfold rightStep
      rw [hrp i]
    unfold buildLoop
    rw [hL]
    simp only []
    rw [hR]
    exact ih

theorem dims_ok {a d : Nat} (hd : a = 0 ∨ a = d) : ¬ (a ≠ 0 ∧ a ≠ d) := by
  rintro ⟨h1, h2⟩
  rcases hd with h3 | h3
  · exact h1 h3
  · exact h2 h3

theorem init_mask {s : Space} (h : s.Ok) (o : Gobbler s) (hnew : o.vals = none)
    (hd : o.dims = 0 ∨ o.dims = s.d) (hn : 1 ≤ o.order) (hnip : o.nip = false) (e : Edges s)
    (he : e.Inside) :
    ∃ v : s.Pt → Num, o.init e = .ok { o with dims := s.d, vals := some v } ∧
      ∀ p, v p = some (o.gain * ∏ i, dimFactor e o.order p i) := by
  have hb := buildLoop_mask h hn e he (List.finRange s.d) (fun _ => 1)
  have key : o.init e = if o.gain ≠ 1 then
      .ok { o with dims := s.d, vals := some (fun p => mulNum (some (1 * ((List.finRange s.d).map (dimFactor e o.order p)).prod)) (some o.gain)) }
      else .ok { o with dims := s.d, vals := some (fun p => some (1 * ((List.finRange s.d).map (dimFactor e o.order p)).prod)) } := by
    unfold Gobbler.init
    rw [hnew]
    simp only [if_neg (dims_ok hd), hnip, Bool.false_eq_true, if_false]
    rw [hb]
    simp
  rw [key]
  by_cases hg : o.gain = 1
  · rw [if_neg (by simpa using hg)]
    refine ⟨_, rfl, fun p => ?_⟩
    rw [hg, Fin.prod_univ_def]
  · rw [if_pos hg]
    refine ⟨_, rfl, fun p => ?_⟩
    simp only [mulNum, Option.bind_some, Option.map_some]
    rw [one_mul, Fin.prod_univ_def, mul_comm]

theorem init_right {s : Space} (h : s.Ok) (o : Gobbler s) (hnew : o.vals = none)
    (hd : o.dims = 0 ∨ o.dims = s.d) (hn : 1 ≤ o.order) (hnip : o.nip = true) (e : Edges s)
    (he : e.Inside) (hlp : ∀ i, e.lp i = none) :
    ∃ v : s.Pt → Num, o.init e = .ok { o with dims := s.d, vals := some v } ∧
      ∀ p, v p = some (o.gain * ∑ i, dimAbsorb e o.order p i) := by
  have hb := buildLoop_right h hn e he hlp (List.finRange s.d) (fun _ => 0)
  have key : o.init e = if o.gain ≠ 1 then
      .ok { o with dims := s.d, vals := some (fun p => mulNum (some (0 + ((List.finRange s.d).map (dimAbsorb e o.order p)).sum)) (some o.gain)) }
      else .ok { o with dims := s.d, vals := some (fun p => some (0 + ((List.finRange s.d).map (dimAbsorb e o.order p)).sum)) } := by
    unfold Gobbler.init
    rw [hnew]
    simp only [if_neg (dims_ok hd), hnip, if_true]
    rw [hb]
    simp
  rw [key]
  by_cases hg : o.gain = 1
  · rw [if_neg (by simpa using hg)]
    refine ⟨_, rfl, fun p => ?_⟩
    rw [hg, one_mul, zero_add, Fin.sum_univ_def]
  · rw [if_pos hg]
    refine ⟨_, rfl, fun p => ?_⟩
    simp only [mulNum, Option.bind_some, Option.map_some]
    rw [zero_add, Fin.sum_univ_def, mul_comm]

theorem init_left {s : Space} (h : s.Ok) (o : Gobbler s) (hnew : o.vals = none)
    (hd : o.dims = 0 ∨ o.dims = s.d) (hnip : o.nip = true) (e : Edges s)
    (he : e.Inside) (hrp : ∀ i, e.rp i = none) :
    o.init e = .ok { o with dims := s.d, vals := some (fun _ => some 0) } := by
  have hb := buildLoop_left h o.order e he hrp (List.finRange s.d)
  have key : o.init e = if o.gain ≠ 1 then
      .ok { o with dims := s.d, vals := some (fun _ => mulNum (some 0) (some o.gain)) }
      else .ok { o with dims := s.d, vals := some (fun _ => some 0) } := by
    unfold Gobbler.init
    rw [hnew]
    simp only [if_neg (dims_ok hd), hnip, if_true]
    rw [hb]
    simp
  rw [key]
  by_cases hg : o.gain = 1
  · rw [if_neg (by simpa using hg)]
  · rw [if_pos hg]
    simp [mulNum]

theorem wfMul_eq (s : Space) (φ ψ : s.Wf) : wfMul s φ ψ = (cell s : ℂ) * ip s φ ψ := by
  unfold wfMul cell ip
  have : ∀ (l : List (Fin s.d)) (c : ℂ),
      l.foldl (fun c i => c * (((s.axes i).dx : ℝ) : ℂ)) c
        = (((l.map (fun i => spacing s i)).prod : ℝ) : ℂ) * c := by
    intro l
    induction l with
    | nil => intro c; simp
    | cons i rest ih =>
      intro c
      rw [List.foldl_cons, ih, List.map_cons, List.prod_cons, dx_eq]
      push_cast
      ring
  rw [this, ← Fin.prod_univ_def]

theorem wfMul_scal (s : Space) (φ ψ : s.Wf) : wfMul s φ ψ = scal s φ ψ := wfMul_eq s φ ψ

theorem cell_pos {s : Space} (h : s.Ok) : 0 < cell s := vol_pos h

theorem kickPhase_eq (s : Space) (kn : Fin s.d → ℝ) (p : s.Pt) :
    kickPhase s kn p = ∑ i, kn i * coord s p i := by
  unfold kickPhase
  have : ∀ (l : List (Fin s.d)) (a : ℝ),
      l.foldl (fun a i => if kn i ≠ 0 then
        a + ((s.axes i).xmin + ((p i : Nat) : ℝ) * (s.axes i).dx) * kn i else a) a
        = a + (l.map (fun i => kn i * coord s p i)).sum := by
    intro l
    induction l with
    | nil => intro a; simp
    | cons i rest ih =>
      intro a
      rw [List.foldl_cons, ih, List.map_cons, List.sum_cons]
      by_cases hk : kn i = 0
      · simp [hk]
      · rw [if_pos hk, dx_eq]
        unfold coord
        ring
  rw [this, zero_add, ← Fin.sum_univ_def]

theorem addCoord_eq (s : Space) (scale : ℝ) (i : Fin s.d) (v : s.Pt → ℝ) (p : s.Pt) :
    addCoord s scale i v p = v p + scale * coord s p i := by
  unfold addCoord coord
  rw [dx_eq]
  ring

theorem addCoord_fold (s : Space) (scale : ℝ) (p : s.Pt) :
    ∀ (l : List (Fin s.d)) (v : s.Pt → ℝ),
      (l.foldl (fun v i => addCoord s scale i v) v) p
        = v p + (l.map (fun i => scale * coord s p i)).sum := by
  intro l
  induction l with
  | nil => intro v; simp
  | cons i rest ih =>
    intro v
    rw [List.foldl_cons, ih, addCoord_eq, List.map_cons, List.sum_cons]
    ring

end QDng.GridFn
