import Verif.GridFn.Lemmas
import Verif.Deriv.KinProps
import Mathlib.Analysis.SpecificLimits.Basic
import Mathlib.Topology.Algebra.GroupWithZero
import Mathlib.Topology.Algebra.Monoid

/-
Properties of the Butterworth mask and absorber.
-/

namespace QDng.GridFn

open QDng.Common QDng.Deriv

/-! ### The mask -/

/-- **C147.**  The operator multiplies the wave function with the product of the Butterworth functions
of all edges given in the input, times the gain.  Missing: an edge on the left border of the grid
(`C147_left_border_violated`). -/
theorem C147_mask_partial {s : Space} (h : s.Ok) (o : Gobbler s) (hnew : o.vals = none)
    (hd : o.dims = 0 ∨ o.dims = s.d) (hn : 1 ≤ o.order) (hnip : o.nip = false) (e : Edges s)
    (he : e.Inside) :
    ∃ v, o.init e = .ok { o with dims := s.d, vals := some v } ∧
      ∀ (ψ : s.Wf) p, o.apply v ψ p = some (((o.gain * ∏ i, dimFactor e o.order p i : ℝ) : ℂ) * ψ p) ∧
        o.applyInPlace v ψ p = o.apply v ψ p := by
  obtain ⟨v, hv, hval⟩ := init_mask h o hnew hd hn hnip e he
  refine ⟨v, hv, fun ψ p => ⟨?_, ?_⟩⟩
  · unfold Gobbler.apply
    rw [hval p]
    simp only [Option.map_some, hnip, Bool.false_eq_true, if_false, Option.some.injEq]
    rw [mul_comm]
  · unfold Gobbler.apply Gobbler.applyInPlace
    simp only [hnip, Bool.false_eq_true, if_false]

/-- A mask in two dimensions: left pass at 2 and right pass at 1 in the first dimension, left pass at
`5/2` in the second. -/
noncomputable def squareEdges : Edges square :=
  { lp := fun i => if i = 0 then some 2 else some (5 / 2)
    rp := fun i => if i = 0 then some 1 else none }

theorem squareEdges_inside : squareEdges.Inside := by
  intro i x hx
  show (0 : ℝ) < x ∧ x ≤ 3
  unfold squareEdges at hx
  fin_cases i
  · have : x = 2 ∨ x = 1 := by
      rcases hx with hx | hx
      · left; simpa using hx.symm
      · right; simpa using hx.symm
    rcases this with h | h <;> rw [h] <;> norm_num
  · have : x = 5 / 2 := by
      rcases hx with hx | hx
      · simpa using hx.symm
      · simp at hx
    rw [this]
    norm_num

/-- The hypotheses hold for a mask created from the input. -/
example : square.Ok ∧ squareEdges.Inside ∧
    ∃ o, Gobbler.create square { dims := 2, order := none, gain := none, nip := false, residue := true } = .ok o ∧
      o.vals = none ∧ o.dims = square.d ∧ 1 ≤ o.order ∧ o.nip = false := by
  refine ⟨square_ok, squareEdges_inside, _, rfl, rfl, rfl, ?_, rfl⟩
  show 1 ≤ 20
  omega

theorem passLeft_nonneg {s : Space} (h : s.Ok) (i : Fin s.d) {x : ℝ} (hx : (s.axes i).xmin < x) (n : Nat)
    (p : s.Pt) : 0 < passLeft s i x n p ∧ passLeft s i x n p ≤ 1 := by
  have h1 := pow_nonneg (reach_nonneg h i hx p) (2 * n)
  unfold passLeft
  refine ⟨by positivity, ?_⟩
  rw [div_le_one (by linarith)]
  linarith

theorem passRight_nonneg {s : Space} (h : s.Ok) (i : Fin s.d) {x : ℝ} (hx : (s.axes i).xmin < x)
    (n : Nat) (p : s.Pt) : 0 ≤ passRight s i x n p ∧ passRight s i x n p < 1 := by
  have h1 := pow_nonneg (reach_nonneg h i hx p) (2 * n)
  unfold passRight
  refine ⟨by positivity, ?_⟩
  rw [div_lt_one (by linarith)]
  linarith

theorem dimFactor_range {s : Space} (h : s.Ok) (e : Edges s) (he : e.Inside) (n : Nat) (p : s.Pt)
    (i : Fin s.d) : 0 ≤ dimFactor e n p i ∧ dimFactor e n p i ≤ 1 := by
  have hl : 0 ≤ (match e.lp i with | none => 1 | some x => passLeft s i x n p) ∧
      (match e.lp i with | none => 1 | some x => passLeft s i x n p) ≤ 1 := by
    rcases hx : e.lp i with _ | x
    · simp
    · have := passLeft_nonneg h i (he i x (Or.inl hx)).1 n p
      exact ⟨this.1.le, this.2⟩
  have hr : 0 ≤ (match e.rp i with | none => 1 | some x => passRight s i x n p) ∧
      (match e.rp i with | none => 1 | some x => passRight s i x n p) ≤ 1 := by
    rcases hx : e.rp i with _ | x
    · simp
    · have := passRight_nonneg h i (he i x (Or.inr hx)).1 n p
      exact ⟨this.1, this.2.le⟩
  unfold dimFactor
  exact ⟨mul_nonneg hl.1 hr.1, mul_le_one₀ hl.2 hr.1 hr.2⟩

theorem reach_lt_one {s : Space} (i : Fin s.d) {x : ℝ} (hx : (s.axes i).xmin < x) (p : s.Pt) :
    reach s i x p < 1 ↔ coord s p i < x := by
  unfold reach
  rw [div_lt_one (by linarith)]
  constructor <;> intro <;> linarith

theorem one_lt_reach {s : Space} (i : Fin s.d) {x : ℝ} (hx : (s.axes i).xmin < x) (p : s.Pt) :
    1 < reach s i x p ↔ x < coord s p i := by
  unfold reach
  rw [one_lt_div (by linarith)]
  constructor <;> intro <;> linarith

open Filter Topology

theorem tendsto_reach_zero {s : Space} (h : s.Ok) (i : Fin s.d) {x : ℝ} (hx : (s.axes i).xmin < x)
    (p : s.Pt) (hp : coord s p i < x) : Tendsto (fun n => reach s i x p ^ (2 * n)) atTop (𝓝 0) := by
  have h0 := reach_nonneg h i hx p
  have h1 := (reach_lt_one i hx p).2 hp
  have : (fun n => reach s i x p ^ (2 * n)) = fun n => (reach s i x p ^ 2) ^ n := by
    funext n; rw [pow_mul]
  rw [this]
  exact tendsto_pow_atTop_nhds_zero_of_lt_one (by positivity) (pow_lt_one₀ h0 h1 (by norm_num))

theorem tendsto_reach_top {s : Space} (i : Fin s.d) {x : ℝ} (hx : (s.axes i).xmin < x)
    (p : s.Pt) (hp : x < coord s p i) : Tendsto (fun n => reach s i x p ^ (2 * n)) atTop atTop := by
  have h1 := (one_lt_reach i hx p).2 hp
  have : (fun n => reach s i x p ^ (2 * n)) = fun n => (reach s i x p ^ 2) ^ n := by
    funext n; rw [pow_mul]
  rw [this]
  exact tendsto_pow_atTop_atTop_of_one_lt (one_lt_pow₀ h1 (by norm_num))

theorem tendsto_left_kept {s : Space} (h : s.Ok) (i : Fin s.d) {x : ℝ} (hx : (s.axes i).xmin < x)
    (p : s.Pt) (hp : coord s p i < x) : Tendsto (fun n => passLeft s i x n p) atTop (𝓝 1) := by
  unfold passLeft
  have h1 := (tendsto_reach_zero h i hx p hp).const_add (1 : ℝ)
  have h2 := h1.inv₀ (by norm_num)
  simpa [one_div] using h2

theorem tendsto_left_removed {s : Space} (i : Fin s.d) {x : ℝ} (hx : (s.axes i).xmin < x)
    (p : s.Pt) (hp : x < coord s p i) : Tendsto (fun n => passLeft s i x n p) atTop (𝓝 0) := by
  unfold passLeft
  have h1 := tendsto_atTop_add_const_left atTop (1 : ℝ) (tendsto_reach_top i hx p hp)
  have h2 := h1.inv_tendsto_atTop
  have h3 : (fun n => 1 / (1 + reach s i x p ^ (2 * n)))
      = (fun n => 1 + reach s i x p ^ (2 * n))⁻¹ := by
    funext n; rw [one_div]; rfl
  rw [h3]
  exact h2

theorem right_eq {s : Space} (h : s.Ok) (i : Fin s.d) {x : ℝ} (hx : (s.axes i).xmin < x) (n : Nat)
    (p : s.Pt) : passRight s i x n p = 1 - passLeft s i x n p := by
  have h1 := pow_nonneg (reach_nonneg h i hx p) (2 * n)
  unfold passRight passLeft
  have : (1 : ℝ) + reach s i x p ^ (2 * n) ≠ 0 := by linarith
  field_simp
  ring

theorem tendsto_right_kept {s : Space} (h : s.Ok) (i : Fin s.d) {x : ℝ} (hx : (s.axes i).xmin < x)
    (p : s.Pt) (hp : x < coord s p i) : Tendsto (fun n => passRight s i x n p) atTop (𝓝 1) := by
  have : (fun n => passRight s i x n p) = fun n => 1 - passLeft s i x n p :=
    funext fun n => right_eq h i hx n p
  rw [this]
  simpa using (tendsto_left_removed i hx p hp).const_sub (1 : ℝ)

theorem tendsto_right_removed {s : Space} (h : s.Ok) (i : Fin s.d) {x : ℝ} (hx : (s.axes i).xmin < x)
    (p : s.Pt) (hp : coord s p i < x) : Tendsto (fun n => passRight s i x n p) atTop (𝓝 0) := by
  have : (fun n => passRight s i x n p) = fun n => 1 - passLeft s i x n p :=
    funext fun n => right_eq h i hx n p
  rw [this]
  simpa using (tendsto_left_kept h i hx p hp).const_sub (1 : ℝ)

/-- **C147.**  The factor of the mask is between zero and one, one half on an edge, and with growing
order it tends to one on the side of the edges that is to be left and to zero beyond an edge. -/
theorem C147_sharp {s : Space} (h : s.Ok) (e : Edges s) (he : e.Inside) (p : s.Pt) :
    (∀ n, 0 ≤ ∏ i, dimFactor e n p i ∧ ∏ i, dimFactor e n p i ≤ 1) ∧
      (e.Kept p → Tendsto (fun n => ∏ i, dimFactor e n p i) atTop (𝓝 1)) ∧
      (e.Removed p → Tendsto (fun n => ∏ i, dimFactor e n p i) atTop (𝓝 0)) := by
  refine ⟨fun n => ⟨Finset.prod_nonneg fun i _ => (dimFactor_range h e he n p i).1,
    Finset.prod_le_one (fun i _ => (dimFactor_range h e he n p i).1)
      (fun i _ => (dimFactor_range h e he n p i).2)⟩, fun hk => ?_, fun hr => ?_⟩
  · have h1 : ∀ i ∈ (Finset.univ : Finset (Fin s.d)),
        Tendsto (fun n => dimFactor e n p i) atTop (𝓝 1) := by
      intro i _
      unfold dimFactor
      have hl : Tendsto (fun n => (match e.lp i with | none => 1 | some x => passLeft s i x n p))
          atTop (𝓝 (1 : ℝ)) := by
        rcases hx : e.lp i with _ | x
        · exact tendsto_const_nhds
        · exact tendsto_left_kept h i (he i x (Or.inl hx)).1 p ((hk i).1 x hx)
      have hr : Tendsto (fun n => (match e.rp i with | none => 1 | some x => passRight s i x n p))
          atTop (𝓝 (1 : ℝ)) := by
        rcases hx : e.rp i with _ | x
        · exact tendsto_const_nhds
        · exact tendsto_right_kept h i (he i x (Or.inr hx)).1 p ((hk i).2 x hx)
      have h2 := hl.mul hr
      rw [one_mul] at h2
      exact h2
    simpa using tendsto_finsetProd _ h1
  · obtain ⟨i, hi⟩ := hr
    have h1 : Tendsto (fun n => dimFactor e n p i) atTop (𝓝 0) := by
      unfold dimFactor
      rcases hi with ⟨x, hx, hp⟩ | ⟨x, hx, hp⟩
      · have hl := tendsto_left_removed i (he i x (Or.inl hx)).1 p hp
        rw [hx]
        refine squeeze_zero (fun n => ?_) (fun n => ?_) hl
        · refine mul_nonneg (passLeft_nonneg h i (he i x (Or.inl hx)).1 n p).1.le ?_
          rcases hy : e.rp i with _ | y
          · simp
          · exact (passRight_nonneg h i (he i y (Or.inr hy)).1 n p).1
        · refine mul_le_of_le_one_right (passLeft_nonneg h i (he i x (Or.inl hx)).1 n p).1.le ?_
          rcases hy : e.rp i with _ | y
          · simp
          · exact (passRight_nonneg h i (he i y (Or.inr hy)).1 n p).2.le
      · have hl := tendsto_right_removed h i (he i x (Or.inr hx)).1 p hp
        rw [hx]
        refine squeeze_zero (fun n => ?_) (fun n => ?_) hl
        · refine mul_nonneg ?_ (passRight_nonneg h i (he i x (Or.inr hx)).1 n p).1
          rcases hy : e.lp i with _ | y
          · simp
          · exact (passLeft_nonneg h i (he i y (Or.inl hy)).1 n p).1.le
        · refine mul_le_of_le_one_left (passRight_nonneg h i (he i x (Or.inr hx)).1 n p).1 ?_
          rcases hy : e.lp i with _ | y
          · simp
          · exact (passLeft_nonneg h i (he i y (Or.inl hy)).1 n p).2
    refine squeeze_zero (fun n => Finset.prod_nonneg fun j _ => (dimFactor_range h e he n p j).1)
      (fun n => ?_) h1
    rw [← Finset.mul_prod_erase _ _ (Finset.mem_univ i)]
    exact mul_le_of_le_one_right (dimFactor_range h e he n p i).1
      (Finset.prod_le_one (fun j _ => (dimFactor_range h e he n p j).1)
        (fun j _ => (dimFactor_range h e he n p j).2))

/-- **C147.**  On an edge the factor of that edge is one half; it is larger on the side to be left and
smaller beyond. -/
theorem C147_half {s : Space} (h : s.Ok) (i : Fin s.d) {x : ℝ} (hx : (s.axes i).xmin < x) {n : Nat}
    (hn : 1 ≤ n) (p : s.Pt) :
    (1 / 2 < passLeft s i x n p ↔ coord s p i < x) ∧ (1 / 2 < passRight s i x n p ↔ x < coord s p i) ∧
      (passLeft s i x n p = 1 / 2 ↔ coord s p i = x) := by
  have h0 := reach_nonneg h i hx p
  have h1 := pow_nonneg h0 (2 * n)
  have h2n : 2 * n ≠ 0 := by omega
  have hc : coord s p i = x ↔ reach s i x p = 1 := by
    unfold reach
    rw [div_eq_one_iff_eq (by linarith)]
    constructor <;> intro <;> linarith
  refine ⟨?_, ?_, ?_⟩
  · rw [← reach_lt_one i hx p, ← pow_lt_one_iff_of_nonneg h0 h2n]
    unfold passLeft
    rw [div_lt_div_iff₀ (by norm_num) (by linarith)]
    constructor <;> intro <;> linarith
  · rw [← one_lt_reach i hx p, ← one_lt_pow_iff_of_nonneg h0 h2n]
    unfold passRight
    rw [div_lt_div_iff₀ (by norm_num) (by linarith)]
    constructor <;> intro <;> linarith
  · rw [hc, ← pow_eq_one_iff_of_nonneg h0 h2n]
    unfold passLeft
    rw [div_eq_div_iff (by linarith) (by norm_num)]
    constructor <;> intro <;> linarith

/-- There are points on both sides of the edges of the example. -/
example : squareEdges.Removed (fun _ => 0) ∧ squareEdges.Removed (fun _ => 3) ∧
    ({ lp := fun _ => some 2, rp := fun _ => some (1 / 2) } : Edges square).Kept (fun _ => 1) := by
  have hs : ∀ i, spacing square i = 1 := by
    intro i; unfold spacing; show ((3 : ℝ) - 0) / ((4 : Nat) - 1) = 1; norm_num
  refine ⟨⟨0, Or.inr ⟨1, rfl, ?_⟩⟩, ⟨0, Or.inl ⟨2, rfl, ?_⟩⟩, fun i => ⟨fun x hx => ?_, fun x hx => ?_⟩⟩
  · unfold coord; rw [hs]; show (0 : ℝ) + ((0 : Nat) : ℝ) * 1 < 1; norm_num
  · unfold coord; rw [hs]; show (2 : ℝ) < (0 : ℝ) + ((3 : Nat) : ℝ) * 1; norm_num
  · have : x = 2 := by simpa using hx.symm
    unfold coord; rw [hs, this]; show (0 : ℝ) + ((1 : Nat) : ℝ) * 1 < 2; norm_num
  · have : x = 1 / 2 := by simpa using hx.symm
    unfold coord; rw [hs, this]; show (1 / 2 : ℝ) < (0 : ℝ) + ((1 : Nat) : ℝ) * 1; norm_num

/-- **C147.**  An edge on the left border of the grid is accepted, but the first value of the mask is
not a number then, for a left pass as well as for a right pass. -/
theorem C147_left_border_violated {s : Space} (h : s.Ok) (hd : s.d = 1) (o : Gobbler s)
    (hnew : o.vals = none) (hdim : o.dims = 0) (hnip : o.nip = false) (left : Bool) :
    let e : Edges s := { lp := fun i => if left then some (s.axes i).xmin else none
                         rp := fun i => if left then none else some (s.axes i).xmin }
    ∃ v, o.init e = .ok { o with dims := s.d, vals := some v } ∧
      ∀ ψ : s.Wf, o.apply v ψ (fun i => ⟨0, by have := (h i).1; omega⟩) = none := by
  intro e
  have hpos : ∀ i, edgePos s i (s.axes i).xmin = 0 := by
    intro i; unfold edgePos; simp
  have hoff : ∀ i, ¬ offGrid (s.axes i).n (edgePos s i (s.axes i).xmin) := by
    intro i
    rw [hpos]
    rintro (h1 | h1)
    · have : (0 : ℝ) ≤ (s.axes i).n := Nat.cast_nonneg _
      linarith
    · linarith
  obtain ⟨w, hw, hw0⟩ : ∃ w : s.Pt → Num, buildLoop s o.order false e (List.finRange s.d) (fun _ => some 1)
      = (w, true) ∧ w (fun i => ⟨0, by have := (h i).1; omega⟩) = none := by
    obtain ⟨i0, hi0⟩ : ∃ i0, List.finRange s.d = [i0] := by
      have hl : (List.finRange s.d).length = 1 := by rw [List.length_finRange, hd]
      exact List.length_eq_one_iff.1 hl
    rw [hi0]
    rcases left with _ | _
    · refine ⟨_, by
        unfold buildLoop leftStep rightStep
        simp only [e, Bool.false_eq_true, if_false, if_neg (hoff i0)]
        rfl, ?_⟩
      simp [mulNum, bwHigh, hpos]
    · refine ⟨_, by
        unfold buildLoop leftStep rightStep
        simp only [e, if_true, if_neg (hoff i0)]
        rfl, ?_⟩
      simp [mulNum, bwLow, hpos]
  have key : o.init e = if o.gain ≠ 1 then
      .ok { o with dims := s.d, vals := some (fun p => mulNum (w p) (some o.gain)) }
      else .ok { o with dims := s.d, vals := some w } := by
    unfold Gobbler.init
    rw [hnew]
    simp only [hdim, ne_eq, not_true_eq_false, false_and, if_false, hnip, Bool.false_eq_true]
    rw [hw]
    simp
  rw [key]
  by_cases hg : o.gain = 1
  · rw [if_neg (by simpa using hg)]
    refine ⟨_, rfl, fun ψ => ?_⟩
    unfold Gobbler.apply
    rw [hw0]
    rfl
  · rw [if_pos hg]
    refine ⟨_, rfl, fun ψ => ?_⟩
    unfold Gobbler.apply
    simp only []
    rw [hw0]
    rfl

/-- The hypotheses hold for a grid with one dimension. -/
example : ({ d := 1, axes := fun _ => { n := 4, xmin := 0, xmax := 3 } } : Space).Ok := by
  intro i
  refine ⟨?_, ?_⟩
  · show 2 ≤ 4; omega
  · show (0 : ℝ) < 3; norm_num

/-! ### The absorber -/

theorem dimAbsorb_nonneg {s : Space} (h : s.Ok) (e : Edges s) (he : e.Inside) (n : Nat) (p : s.Pt)
    (i : Fin s.d) : 0 ≤ dimAbsorb e n p i := by
  unfold dimAbsorb
  rcases hx : e.rp i with _ | x
  · exact le_rfl
  · exact (passRight_nonneg h i (he i x (Or.inr hx)).1 n p).1

/-- **C148.**  With `nip` and edges on the right the operator is the absorbing potential `-i V` with
`V` the gain times the sum of the Butterworth functions; it takes probability away from every wave
function, and the conjugate operator is its adjoint.  Missing: edges on the left
(`C148_left_violated`). -/
theorem C148_absorber_partial {s : Space} (h : s.Ok) (o : Gobbler s) (hnew : o.vals = none)
    (hd : o.dims = 0 ∨ o.dims = s.d) (hn : 1 ≤ o.order) (hnip : o.nip = true) (hc : o.conj = false)
    (e : Edges s) (he : e.Inside) (hlp : ∀ i, e.lp i = none) :
    ∃ v, o.init e = .ok { o with dims := s.d, vals := some v } ∧
      (∀ (ψ : s.Wf) p, o.apply v ψ p =
          some (-Complex.I * ((o.gain * ∑ i, dimAbsorb e o.order p i : ℝ) : ℂ) * ψ p) ∧
        o.applyInPlace v ψ p = o.apply v ψ p) ∧
      (∀ (φ ψ A B : s.Wf), (∀ p, o.apply v ψ p = some (A p)) →
        (∀ p, ({ o with conj := true } : Gobbler s).apply v φ p = some (B p)) →
        scal s φ A = scal s B ψ) ∧
      (0 ≤ o.gain → ∀ (ψ A : s.Wf), (∀ p, o.apply v ψ p = some (A p)) → (scal s ψ A).im ≤ 0) := by
  obtain ⟨v, hv, hval⟩ := init_right h o hnew hd hn hnip e he hlp
  have happ : ∀ (ψ : s.Wf) p, o.apply v ψ p =
      some (-Complex.I * ((o.gain * ∑ i, dimAbsorb e o.order p i : ℝ) : ℂ) * ψ p) := by
    intro ψ p
    unfold Gobbler.apply
    rw [hval p]
    simp only [Option.map_some, hnip, hc, if_true, Bool.false_eq_true, if_false, Option.some.injEq]
    push_cast
    ring
  have happc : ∀ (ψ : s.Wf) p, ({ o with conj := true } : Gobbler s).apply v ψ p =
      some (Complex.I * ((o.gain * ∑ i, dimAbsorb e o.order p i : ℝ) : ℂ) * ψ p) := by
    intro ψ p
    unfold Gobbler.apply
    rw [hval p]
    simp only [Option.map_some, hnip, if_true, Option.some.injEq]
    push_cast
    ring
  refine ⟨v, hv, fun ψ p => ⟨happ ψ p, ?_⟩, fun φ ψ A B hA hB => ?_, fun hg ψ A hA => ?_⟩
  · rw [happ ψ p]
    unfold Gobbler.applyInPlace
    rw [hval p]
    simp only [Option.map_some, hnip, hc, if_true, Bool.false_eq_true, if_false, Option.some.injEq]
    have : (⟨0, -1⟩ : ℂ) = -Complex.I := by apply Complex.ext <;> simp
    rw [this]
    ring
  · unfold scal
    congr 1
    refine Finset.sum_congr rfl (fun p _ => ?_)
    have h1 := hA p
    have h2 := hB p
    rw [happ] at h1
    rw [happc] at h2
    rw [← Option.some.inj h1, ← Option.some.inj h2, map_mul, map_mul, Complex.conj_I,
      Complex.conj_ofReal]
    ring
  · have h1 : scal s ψ A = (((∏ i, spacing s i) *
        ∑ p, (o.gain * ∑ i, dimAbsorb e o.order p i) * ‖ψ p‖ ^ 2 : ℝ) : ℂ) * (-Complex.I) := by
      unfold scal
      rw [Complex.ofReal_mul, mul_assoc, Complex.ofReal_sum, Finset.sum_mul]
      congr 1
      refine Finset.sum_congr rfl (fun p _ => ?_)
      have h1 := hA p
      rw [happ] at h1
      rw [← Option.some.inj h1, Complex.ofReal_mul (o.gain * _), Complex.ofReal_pow,
        ← Complex.conj_mul']
      ring
    rw [h1, Complex.im_ofReal_mul, Complex.neg_im, Complex.I_im, mul_neg, mul_one, neg_nonpos]
    refine mul_nonneg (vol_pos h).le (Finset.sum_nonneg fun p _ => ?_)
    refine mul_nonneg (mul_nonneg hg (Finset.sum_nonneg fun i _ => ?_)) (by positivity)
    exact dimAbsorb_nonneg h e he o.order p i

/-- An absorber with edges on the right of both dimensions. -/
noncomputable def rightEdges : Edges square := { lp := fun _ => none, rp := fun _ => some 1 }

theorem rightEdges_inside : rightEdges.Inside := by
  intro i x hx
  show (0 : ℝ) < x ∧ x ≤ 3
  have : x = 1 := by
    rcases hx with hx | hx
    · simp [rightEdges] at hx
    · simpa [rightEdges] using hx.symm
  rw [this]
  norm_num

/-- The hypotheses hold for an absorber created from the input. -/
example : square.Ok ∧ rightEdges.Inside ∧ (∀ i, rightEdges.lp i = none) ∧
    ∃ o, Gobbler.create square { dims := 0, order := some 3, gain := some 2, nip := true, residue := false } = .ok o ∧
      o.vals = none ∧ o.dims = 0 ∧ 1 ≤ o.order ∧ o.nip = true ∧ o.conj = false ∧ 0 ≤ o.gain := by
  refine ⟨square_ok, rightEdges_inside, fun _ => rfl, _, rfl, rfl, rfl, ?_, rfl, rfl, ?_⟩
  · show 1 ≤ 3; omega
  · show (0 : ℝ) ≤ 2; norm_num

/-- **C148.**  With `nip` and edges on the left only the operator is zero on every grid: the absorber
is multiplied to a vector of zeros. -/
theorem C148_left_violated {s : Space} (h : s.Ok) (o : Gobbler s) (hnew : o.vals = none)
    (hd : o.dims = 0 ∨ o.dims = s.d) (hnip : o.nip = true) (e : Edges s) (he : e.Inside)
    (hrp : ∀ i, e.rp i = none) :
    ∃ v, o.init e = .ok { o with dims := s.d, vals := some v } ∧
      ∀ (ψ : s.Wf) p, o.apply v ψ p = some 0 := by
  refine ⟨_, init_left h o hnew hd hnip e he hrp, fun ψ p => ?_⟩
  unfold Gobbler.apply
  simp

/-- The hypotheses hold for edges on the left of both dimensions. -/
example : square.Ok ∧ ({ lp := fun _ => some 2, rp := fun _ => none } : Edges square).Inside := by
  refine ⟨square_ok, fun i x hx => ?_⟩
  show (0 : ℝ) < x ∧ x ≤ 3
  have : x = 2 := by
    rcases hx with hx | hx
    · simpa using hx.symm
    · simp at hx
  rw [this]
  norm_num

/-! ### Bounds -/

/-- **C149.**  The reported largest and smallest values of a mask with positive gain bound all its
values.  Missing: absorbers (`C149_absorber_violated`). -/
theorem C149_bounds_partial {s : Space} (h : s.Ok) (o : Gobbler s) (hnew : o.vals = none)
    (hd : o.dims = 0 ∨ o.dims = s.d) (hn : 1 ≤ o.order) (hnip : o.nip = false) (hg : 0 ≤ o.gain)
    (e : Edges s) (he : e.Inside) :
    ∃ (v : s.Pt → Num) (g : s.Pt → ℝ),
      o.init e = .ok { o with dims := s.d, vals := some v } ∧ (∀ p, v p = some (g p)) ∧
      o.emin.im = 0 ∧ o.emax.im = 0 ∧ ∀ p, o.emin.re ≤ g p ∧ g p ≤ o.emax.re := by
  obtain ⟨v, hv, hval⟩ := init_mask h o hnew hd hn hnip e he
  refine ⟨v, _, hv, hval, ?_, ?_, fun p => ?_⟩
  · unfold Gobbler.emin; rw [hnip]; rfl
  · unfold Gobbler.emax; rw [Complex.ofReal_im]
  · have h1 := (C147_sharp h e he p).1 o.order
    unfold Gobbler.emin Gobbler.emax
    rw [hnip, Complex.ofReal_re]
    exact ⟨mul_nonneg hg h1.1, mul_le_of_le_one_right hg h1.2⟩

/-- The hypotheses hold for the mask of the example. -/
example : square.Ok ∧ squareEdges.Inside ∧
    ∃ o, Gobbler.create square { dims := 0, order := some 7, gain := some 2, nip := false, residue := false } = .ok o ∧
      o.vals = none ∧ o.dims = 0 ∧ 1 ≤ o.order ∧ o.nip = false ∧ 0 ≤ o.gain := by
  refine ⟨square_ok, squareEdges_inside, _, rfl, rfl, rfl, ?_, rfl, ?_⟩
  · show 1 ≤ 7; omega
  · show (0 : ℝ) ≤ 2; norm_num

/-- **C149.**  An absorber with edges in two dimensions has a value larger than `Emax` in magnitude:
the contributions of the dimensions are added. -/
theorem C149_absorber_violated : ∃ o, Gobbler.create square { dims := 0, order := none, gain := none, nip := true, residue := false } = .ok o ∧
    ∃ v, o.init rightEdges = .ok { o with dims := square.d, vals := some v } ∧
      ∃ p g, v p = some g ∧ ‖o.emax‖ < |g| ∧ ‖o.emin‖ < |g| := by
  refine ⟨_, rfl, ?_⟩
  obtain ⟨o, ho⟩ : ∃ o : Gobbler square, o = ⟨0, 20, 1, true, false, false, false, none⟩ := ⟨_, rfl⟩
  have h1 : Gobbler.init o rightEdges = Gobbler.init
      { Gobbler.new square with dims := 0, order := 20, gain := (none : Option ℝ).getD 1, nip := true, residue := false, hermitian := !true } rightEdges := by
    rw [ho]; rfl
  obtain ⟨v, hv, hval⟩ := init_right square_ok o (by rw [ho]) (Or.inl (by rw [ho])) (by rw [ho]; show 1 ≤ 20; omega)
    (by rw [ho]) rightEdges rightEdges_inside (fun _ => rfl)
  refine ⟨v, ?_, fun _ => 3, _, hval _, ?_⟩
  · rw [← h1, hv, ho]; rfl
  · have hs : ∀ i, spacing square i = 1 := by
      intro i; unfold spacing; show ((3 : ℝ) - 0) / ((4 : Nat) - 1) = 1; norm_num
    have hr : ∀ i, reach square i 1 (fun _ => 3) = 3 := by
      intro i
      unfold reach coord
      rw [hs]
      show ((0 : ℝ) + ((3 : Nat) : ℝ) * 1 - 0) / (1 - 0) = 3
      norm_num
    have hsum : o.gain * ∑ i, dimAbsorb rightEdges o.order (fun _ => 3) i
        = 2 * (3 ^ 40 / (1 + 3 ^ 40)) := by
      have h2 : ∀ i, dimAbsorb rightEdges o.order (fun _ => 3) i = 3 ^ 40 / (1 + 3 ^ 40) := by
        intro i
        show passRight square i 1 o.order (fun _ => 3) = _
        unfold passRight
        rw [hr, ho]
        norm_num
      have h3 : (∑ i, dimAbsorb rightEdges o.order (fun _ => 3) i)
          = ∑ i : Fin 2, dimAbsorb rightEdges o.order (fun _ => 3) i := rfl
      rw [h3, Fin.sum_univ_two, h2, h2, ho]
      ring
    rw [hsum]
    have hlt : (1 : ℝ) < |2 * ((3 : ℝ) ^ 40 / (1 + 3 ^ 40))| := by
      rw [abs_of_pos (by positivity)]
      norm_num
    constructor
    · refine lt_of_eq_of_lt ?_ hlt
      show ‖((1 : ℝ) : ℂ)‖ = 1
      simp
    · refine lt_of_eq_of_lt ?_ hlt
      show ‖(⟨0, -1⟩ : ℂ)‖ = 1
      have : (⟨0, -1⟩ : ℂ) = -Complex.I := by apply Complex.ext <;> simp
      rw [this]
      simp

/-! ### Expectation values -/

theorem collect_some {s : Space} (f : s.Pt → Option ℂ) (A : s.Wf) (hA : ∀ p, f p = some (A p)) :
    collect f = some A := by
  unfold collect
  rw [if_pos (fun p => by rw [hA p]; rfl)]
  congr 1
  funext p
  rw [hA p]
  rfl

/-- **C150.**  For an operator with the values `g` the expectation value is the integral of
`g |ψ|^2` (zero for an absorber, whose expectation value is imaginary), with `residue` it is the
integral of `g^2 |ψ|^2`. -/
theorem C150_expectation {s : Space} (o : Gobbler s) (v : s.Pt → Num) (g : s.Pt → ℝ)
    (hv : ∀ p, v p = some (g p)) (ψ : s.Wf) :
    o.expec v ψ = some
      (if o.residue then cell s * ∑ p, g p ^ 2 * ‖ψ p‖ ^ 2
       else if o.nip then 0
       else cell s * ∑ p, g p * ‖ψ p‖ ^ 2) := by
  have hnorm : ∀ z : ℂ, (starRingEnd ℂ) z * z = ((‖z‖ ^ 2 : ℝ) : ℂ) := by
    intro z; rw [Complex.conj_mul', Complex.ofReal_pow]
  obtain ⟨A, hA, hAn⟩ : ∃ A : s.Wf, (∀ p, o.apply v ψ p = some (A p)) ∧
      ∀ p, A p = if o.nip then (g p : ℂ) * Complex.I * ((if o.conj then (1 : ℝ) else -1 : ℝ) : ℂ) * ψ p
        else (g p : ℂ) * ψ p := by
    refine ⟨fun p => if o.nip then ψ p * ((g p : ℂ) * Complex.I) * ((if o.conj then (1 : ℝ) else -1 : ℝ) : ℂ)
      else ψ p * (g p : ℂ), fun p => ?_, fun p => ?_⟩
    · unfold Gobbler.apply
      rw [hv p]
      rfl
    · by_cases hn : o.nip = true
      · simp only [hn, if_true]; ring
      · simp only [hn, if_false, Bool.false_eq_true]; ring
  have hsq : ∀ p, (starRingEnd ℂ) (A p) * A p = ((g p ^ 2 * ‖ψ p‖ ^ 2 : ℝ) : ℂ) := by
    intro p
    rw [hnorm, hAn]
    congr 1
    by_cases hn : o.nip = true
    · rcases hc : o.conj with _ | _ <;> simp [hn, mul_pow]
    · simp [hn, mul_pow]
  unfold Gobbler.expec
  rw [collect_some _ A hA, Option.map_some]
  congr 1
  by_cases hr : o.residue = true
  · rw [if_pos hr, if_pos hr, wfMul_eq]
    unfold ip
    rw [Finset.sum_congr rfl (fun p _ => hsq p), ← Complex.ofReal_sum, ← Complex.ofReal_mul,
      Complex.ofReal_re]
  · rw [if_neg hr, if_neg hr, wfMul_eq]
    unfold ip
    by_cases hn : o.nip = true
    · rw [if_pos hn]
      have : ∀ p, (starRingEnd ℂ) (ψ p) * A p
          = ((g p * ‖ψ p‖ ^ 2 * (if o.conj then (1 : ℝ) else -1) : ℝ) : ℂ) * Complex.I := by
        intro p
        rw [hAn, if_pos hn, Complex.ofReal_mul, Complex.ofReal_mul, ← hnorm]
        ring
      rw [Finset.sum_congr rfl (fun p _ => this p), ← Finset.sum_mul, ← Complex.ofReal_sum,
        Complex.re_ofReal_mul]
      simp
    · rw [if_neg hn]
      have : ∀ p, (starRingEnd ℂ) (ψ p) * A p = ((g p * ‖ψ p‖ ^ 2 : ℝ) : ℂ) := by
        intro p
        rw [hAn, if_neg hn, Complex.ofReal_mul, ← hnorm]
        ring
      rw [Finset.sum_congr rfl (fun p _ => this p), ← Complex.ofReal_sum, ← Complex.ofReal_mul,
        Complex.ofReal_re]

/-- The hypothesis holds for the masks and absorbers with edges inside of the grid. -/
example : ∃ (o : Gobbler square) (v : square.Pt → Num) (g : square.Pt → ℝ), o.residue = true ∧
    o.init squareEdges = .ok { o with dims := square.d, vals := some v } ∧ ∀ p, v p = some (g p) := by
  obtain ⟨v, hv, hval⟩ := init_mask square_ok ⟨0, 4, 1, false, true, false, true, none⟩ rfl (Or.inl rfl)
    (by show 1 ≤ 4; omega) rfl squareEdges squareEdges_inside
  exact ⟨_, v, _, rfl, hv, hval⟩

/-! ### Copies -/

/-- **C151.**  A copy of a mask or absorber that is not conjugated acts on wave functions like the
original and gives the same expectation values and bounds.  Missing: the conjugation and the
Hermiticity of the operator (`C151_flags_violated`). -/
theorem C151_copy_partial {s : Space} (o : Gobbler s) (hc : o.conj = false) :
    ((Gobbler.new s).copy o).vals = o.vals ∧
      (∀ v ψ p, ((Gobbler.new s).copy o).apply v ψ p = o.apply v ψ p ∧
        ((Gobbler.new s).copy o).applyInPlace v ψ p = o.applyInPlace v ψ p) ∧
      (∀ v ψ, ((Gobbler.new s).copy o).expec v ψ = o.expec v ψ) ∧
      ((Gobbler.new s).copy o).emax = o.emax ∧ ((Gobbler.new s).copy o).emin = o.emin := by
  have ha : ∀ v ψ p, ((Gobbler.new s).copy o).apply v ψ p = o.apply v ψ p := by
    intro v ψ p
    unfold Gobbler.apply
    rw [hc]
    rfl
  refine ⟨rfl, fun v ψ p => ⟨ha v ψ p, ?_⟩, fun v ψ => ?_, rfl, rfl⟩
  · unfold Gobbler.applyInPlace
    rw [hc]
    rfl
  · unfold Gobbler.expec
    rw [show ((Gobbler.new s).copy o).apply v ψ = o.apply v ψ from funext (ha v ψ)]
    rfl

/-- The hypothesis holds for an operator created from the input. -/
example : ∃ o, Gobbler.create square { dims := 0, order := some 3, gain := some 2, nip := true, residue := false } = .ok o ∧
    o.conj = false := ⟨_, rfl, rfl⟩

/-- **C151.**  The copy of an absorber says that it is Hermitian, and the copy of a conjugated absorber
is not conjugated. -/
theorem C151_flags_violated : ∃ o : Gobbler square,
    Gobbler.create square { dims := 0, order := none, gain := none, nip := true, residue := false } = .ok o ∧
      o.hermitian = false ∧ ((Gobbler.new square).copy o).hermitian = true ∧
      ∃ v ψ p, ({ o with conj := true } : Gobbler square).apply v ψ p = some Complex.I ∧
        ((Gobbler.new square).copy { o with conj := true }).apply v ψ p = some (-Complex.I) := by
  refine ⟨_, rfl, rfl, rfl, fun _ => some 1, fun _ => 1, fun _ => 0, ?_, ?_⟩
  · unfold Gobbler.apply
    simp
  · unfold Gobbler.apply Gobbler.copy Gobbler.new
    simp

/-! ### Second attempts -/

/-- **C152.**  An edge outside of the grid is refused, but the second attempt to initialise the same
operator succeeds and leaves a mask without that edge. -/
theorem C152_gobbler_violated : ∃ (o o' : Gobbler square) (e : Edges square), o.vals = none ∧
    o.init e = .threw o' ∧ o'.init e = .ok o' ∧ ∃ v, o'.vals = some v ∧ ∀ p, v p = some 1 := by
  refine ⟨⟨0, 4, 1, false, true, false, true, none⟩, ⟨2, 4, 1, false, true, false, true, some (fun _ => some 1)⟩,
    { lp := fun _ => some 9, rp := fun _ => none }, rfl, ?_, rfl, _, rfl, fun _ => rfl⟩
  have hoff : offGrid (square.axes 0).n (edgePos square 0 9) := by
    left
    unfold edgePos
    rw [dx_eq]
    have : spacing square 0 = 1 := by
      unfold spacing; show ((3 : ℝ) - 0) / ((4 : Nat) - 1) = 1; norm_num
    rw [this]
    show ((4 : Nat) : ℝ) + 1 ≤ (9 - 0) / 1
    norm_num
  have hb : buildLoop square 4 false { lp := fun _ => some 9, rp := fun _ => none }
      (List.finRange square.d) (fun _ => some 1) = (fun _ => some 1, false) := by
    have : List.finRange square.d = [0, 1] := rfl
    rw [this]
    unfold buildLoop leftStep
    simp only [if_pos hoff]
  unfold Gobbler.init
  simp only [ne_eq, not_true_eq_false, false_and, if_false, Bool.false_eq_true]
  rw [hb]
  rfl

end QDng.GridFn
