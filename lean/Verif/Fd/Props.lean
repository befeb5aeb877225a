import Verif.Fd.Lemmas

/-
C194-C197: the finite difference operator for grids.
-/

namespace QDng.Fd

open QDng.Common QDng.Grid QDng.Stencil

theorem last_of_accepted (mass : Option (List ℝ)) (D : Nat) (hD : 0 < D) (h : Accepted mass D) : ∃ f, Last mass D f := by
  cases mass with
  | none => exact ⟨1, .inl ⟨rfl, h, rfl⟩⟩
  | some v =>
    obtain ⟨h1, h2, d, x, h3, h4, h5⟩ := h
    exact ⟨_, .inr ⟨v, v[D - 1]'(by omega), rfl, h1, h2,
      ⟨x, List.mem_iff_getElem?.2 ⟨d, by rw [List.getElem?_take_of_lt h3, h4]⟩, h5⟩, List.getElem?_eq_getElem _, rfl⟩⟩

theorem setup_of (deriv order : Nat) (h1 : deriv = 1 ∨ deriv = 2) (h2 : 2 ≤ order) (h3 : order ≤ 50) (h4 : Even order) :
    checkSetup deriv order = true := by
  obtain ⟨k, hk⟩ := h4
  exact (C35_setup deriv order).2 ⟨by omega, by omega, by omega, (k : Int), by omega⟩

/-- The result of a set up operator. -/
theorem apply_last (deriv order : Nat) (pbc : Bool) (dim : Option Nat) (mass : Option (List ℝ)) (axes : List (Axis ℝ)) (f : ℝ)
    (hs : checkSetup deriv order = true) (hD : axes ≠ []) (hdim : ∀ d, dim = some d → d < axes.length)
    (hw : ∀ a ∈ axes, order ≤ a.n) (hm : Last mass axes.length f) :
    ∃ o1 o2, Op.new.initParams deriv order pbc (dimPar dim) mass = .ok o1 ∧ o1.initPsi axes = .ok o2 ∧
      (o2.axes = axes ∧ o2.deriv = deriv ∧ o2.mass = mass.getD (List.replicate 4 1)) ∧
      ∀ ψ out : List ℂ, ψ.length = prodL (sizes axes) → out.length = prodL (sizes axes) →
        ∃ res, o2.apply ψ out = some res ∧ res.length = prodL (sizes axes) ∧
          ∀ cs, Valid cs (sizes axes) → res[place cs (sizes axes)]? =
            some ((f : ℂ) * ((dims axes.length dim).map (term deriv order pbc axes ψ cs)).sum) := by
  obtain ⟨o1, o2, h1, h2, pfac, h3, h4, h5, h6, h7, _, h8⟩ := set_up deriv order pbc dim mass axes f hs hD hdim hm
  refine ⟨o1, o2, h1, h2, ⟨h6, h7, h8⟩, fun ψ out hin hout => ?_⟩
  unfold Op.apply
  rw [h4, h5, h6]
  have hpos : 0 < axes.length := List.length_pos_iff.2 hD
  cases dim with
  | none =>
    obtain ⟨res, r1, r2, r3⟩ := all_dims deriv order pbc pfac axes f ψ out hs h3 hw hin hout (axes.length - 1) (by omega)
    refine ⟨res, ?_, by rw [r2, hout], fun cs hv => ?_⟩
    · show (if (-1 : Int) = -1 then _ else _) = _
      rw [if_pos rfl]
      exact r1
    · rw [r3 cs hv, Nat.sub_add_cancel hpos]
      rfl
  | some d =>
    have hd := hdim d rfl
    obtain ⟨res, r1, r2, r3⟩ := one_dim deriv order pbc pfac axes f d false ψ out hs hd (h3 d hd) hw hin hout
    refine ⟨res, ?_, by rw [r2, hout], fun cs hv => ?_⟩
    · show (if (d : Int) = -1 then _ else if (d : Int) < 0 then _ else _) = _
      rw [if_neg (by omega), if_neg (by omega)]
      exact r1
    · rw [r3 cs hv]
      simp [dims]

/-- C194 (partial: not with different masses, see `C194_violated_masses`). Set up with a first or second derivative, an even order
from 2 to 50 which no dimension of the grid falls below, for all dimensions or one of them, and with the same mass above -1 in all
dimensions (or without masses), the operator gives at each point of the grid the sum of the finite difference derivatives along its
dimensions times -1/(2 m) (without masses: times one), whatever the destination held before. -/
theorem C194_partial (deriv order : Nat) (pbc : Bool) (dim : Option Nat) (mass : Option (List ℝ)) (axes : List (Axis ℝ)) (f : ℝ)
    (h1 : deriv = 1 ∨ deriv = 2) (h2 : 2 ≤ order) (h3 : order ≤ 50) (h4 : Even order)
    (hD : axes ≠ []) (hdim : ∀ d, dim = some d → d < axes.length) (hw : ∀ a ∈ axes, order ≤ a.n)
    (hm : (mass = none ∧ axes.length ≤ 4 ∧ f = 1) ∨
      ∃ v m, mass = some v ∧ (∀ d, d < axes.length → v[d]? = some m) ∧ m ≠ 0 ∧ -1 < m ∧ f = kin m) :
    ∃ o1 o2, Op.new.initParams deriv order pbc (dimPar dim) mass = .ok o1 ∧ o1.initPsi axes = .ok o2 ∧
      ∀ ψ out : List ℂ, ψ.length = prodL (sizes axes) → out.length = prodL (sizes axes) →
        ∃ res, o2.apply ψ out = some res ∧ res.length = prodL (sizes axes) ∧
          ∀ cs, Valid cs (sizes axes) → res[place cs (sizes axes)]? =
            some ((f : ℂ) * ((dims axes.length dim).map (term deriv order pbc axes ψ cs)).sum) := by
  have hpos : 0 < axes.length := List.length_pos_iff.2 hD
  have hl : Last mass axes.length f := by
    rcases hm with h | ⟨v, m, rfl, a, b, c, e⟩
    · exact .inl h
    · refine .inr ⟨v, m, rfl, ?_, fun d x hd hx => ?_, ⟨m, ?_, c⟩, a _ (by omega), e⟩
      · have := getElem?_lt (a (axes.length - 1) (by omega))
        omega
      · rw [a d hd] at hx
        cases hx
        exact b
      · exact List.mem_iff_getElem?.2 ⟨0, by rw [List.getElem?_take_of_lt hpos, a 0 hpos]⟩
  obtain ⟨o1, o2, a, b, _, c⟩ := apply_last deriv order pbc dim mass axes f (setup_of deriv order h1 h2 h3 h4) hD hdim hw hl
  exact ⟨o1, o2, a, b, c⟩

/-- The hypotheses of `C194_partial` can be met: a grid of 4 times 6 points, order 4, the mass 2. -/
example := C194_partial 2 4 true none (some [2, 2]) [⟨4, 0, 3⟩, ⟨6, -1, 1⟩] (kin 2) (.inr rfl) (by decide) (by decide) ⟨2, rfl⟩
  (by simp) (by simp) (by intro a ha; simp at ha; rcases ha with rfl | rfl <;> decide)
  (.inr ⟨_, 2, rfl, fun d hd => by
    have hd : d < 2 := hd
    rcases (show d = 0 ∨ d = 1 by omega) with rfl | rfl <;> rfl, by norm_num, by norm_num, rfl⟩)

/-- A grid of two times two points. -/
noncomputable def smallAxes : List (Axis ℝ) := [⟨2, 0, 1⟩, ⟨2, 0, 1⟩]

/-- The second derivatives of the function which is one at the origin of the small grid. -/
theorem small_term (d : Nat) (hd : d < 2) : term 2 2 false smallAxes [1, 0, 0, 0] [0, 0] d = -2 := by
  have e0 : entry 2 1 0 = -2 := by decide +kernel
  have e1 : entry 2 1 1 = 1 := by decide +kernel
  rcases (show d = 0 ∨ d = 1 by omega) with rfl | rfl <;>
    simp [term, smallAxes, central, sumTo, e0, e1, extend, sizes, place, prodL] <;> norm_num

/-- C194 violated: with the masses 1 and 2 the second derivative along both dimensions gets the factor of the mass 2. For the
function which is one at the origin of a grid of two times two points the result there is 1 in place of 3/2. -/
theorem C194_violated_masses : ∃ o1 o2, Op.new.initParams 2 2 false none (some [1, 2]) = .ok o1 ∧ o1.initPsi smallAxes = .ok o2 ∧
    ∃ res, o2.apply [1, 0, 0, 0] [0, 0, 0, 0] = some res ∧ res[0]? = some 1 ∧
      (kin 1 : ℂ) * term 2 2 false smallAxes [1, 0, 0, 0] [0, 0] 0 +
        (kin 2 : ℂ) * term 2 2 false smallAxes [1, 0, 0, 0] [0, 0] 1 = 3 / 2 := by
  obtain ⟨o1, o2, a, b, _, c⟩ := apply_last 2 2 false none (some [1, 2]) smallAxes (kin 2)
    (setup_of 2 2 (.inr rfl) (by decide) (by decide) ⟨1, rfl⟩) (by simp [smallAxes]) (by simp)
    (by intro a ha; simp [smallAxes] at ha; subst ha; decide)
    (.inr ⟨[1, 2], 2, rfl, by decide, by
      intro d x hd hx
      have hd : d < 2 := hd
      rcases (show d = 0 ∨ d = 1 by omega) with rfl | rfl
      · cases hx; norm_num
      · cases hx; norm_num, ⟨1, by simp [smallAxes], by norm_num⟩, rfl, rfl⟩)
  obtain ⟨res, r1, r2, r3⟩ := c [1, 0, 0, 0] [0, 0, 0, 0] rfl rfl
  refine ⟨o1, o2, a, b, res, r1, ?_, ?_⟩
  · have h := r3 [0, 0] (by simp [Valid, smallAxes, sizes])
    have hp : place [0, 0] (sizes smallAxes) = 0 := rfl
    rw [hp] at h
    rw [h]
    show some ((kin 2 : ℂ) * (term 2 2 false smallAxes [1, 0, 0, 0] [0, 0] 0 +
      (term 2 2 false smallAxes [1, 0, 0, 0] [0, 0] 1 + 0))) = _
    rw [small_term 0 (by decide), small_term 1 (by decide)]
    simp [kin]
    norm_num
  · rw [small_term 0 (by decide), small_term 1 (by decide)]
    simp [kin]
    norm_num

/-- C194 violated: a mass of -1, which is let pass as long as another mass is above, is not left out but makes the kinetic energy
negative: with the masses 1 and -1 the result at the origin is -2. -/
theorem C194_violated_negative : ∃ o1 o2, Op.new.initParams 2 2 false none (some [1, -1]) = .ok o1 ∧ o1.initPsi smallAxes = .ok o2 ∧
    ∃ res, o2.apply [1, 0, 0, 0] [0, 0, 0, 0] = some res ∧ res[0]? = some (-2 : ℂ) := by
  obtain ⟨o1, o2, a, b, _, c⟩ := apply_last 2 2 false none (some [1, -1]) smallAxes (kin (-1))
    (setup_of 2 2 (.inr rfl) (by decide) (by decide) ⟨1, rfl⟩) (by simp [smallAxes]) (by simp)
    (by intro a ha; simp [smallAxes] at ha; subst ha; decide)
    (.inr ⟨[1, -1], -1, rfl, by decide, by
      intro d x hd hx
      have hd : d < 2 := hd
      rcases (show d = 0 ∨ d = 1 by omega) with rfl | rfl
      · cases hx; norm_num
      · cases hx; norm_num, ⟨1, by simp [smallAxes], by norm_num⟩, rfl, rfl⟩)
  obtain ⟨res, r1, r2, r3⟩ := c [1, 0, 0, 0] [0, 0, 0, 0] rfl rfl
  refine ⟨o1, o2, a, b, res, r1, ?_⟩
  have h := r3 [0, 0] (by simp [Valid, smallAxes, sizes])
  have hp : place [0, 0] (sizes smallAxes) = 0 := rfl
  rw [hp] at h
  rw [h]
  show some ((kin (-1) : ℂ) * (term 2 2 false smallAxes [1, 0, 0, 0] [0, 0] 0 +
    (term 2 2 false smallAxes [1, 0, 0, 0] [0, 0] 1 + 0))) = _
  rw [small_term 0 (by decide), small_term 1 (by decide)]
  simp [kin]
  norm_num

/-- C194 violated: fewer masses than dimensions are read behind their end. -/
theorem C194_violated_few : ∃ o1, Op.new.initParams 2 2 false none (some [1]) = .ok o1 ∧ o1.initPsi smallAxes = .ub := by
  refine ⟨_, by unfold Op.initParams; rw [if_pos (by decide)], ?_⟩
  have : massLoop [1] 2 = .ub := by
    show massStep [1] (massStep [1] (.val (false, 0)) 0) 1 = .ub
    simp [massStep]
  unfold Op.initPsi
  simp only [Op.new, smallAxes, List.length_cons, List.length_nil]
  have h2 : massLoop [1] (0 + 1 + 1) = .ub := this
  simp [h2]

/-- The scalar product of a function with the result of the operator as a sum of forms. -/
theorem dot_forms (deriv order : Nat) (pbc : Bool) (ds : List Nat) (axes : List (Axis ℝ)) (f : ℝ) (φ ψ res : List ℂ)
    (hds : ∀ d ∈ ds, d < axes.length) (hl : res.length = prodL (sizes axes))
    (h : ∀ cs, Valid cs (sizes axes) → res[place cs (sizes axes)]? =
      some ((f : ℂ) * (ds.map (term deriv order pbc axes ψ cs)).sum)) :
    dot φ res = (f : ℂ) * (ds.map fun d => form deriv order pbc (sizes axes) d ((axes.getD d ⟨0, 0, 0⟩).n)
      (gap (axes.getD d ⟨0, 0, 0⟩) : ℂ) (fun q => starRingEnd ℂ (φ.getD q 0)) (fun q => ψ.getD q 0)).sum := by
  unfold dot
  rw [hl]
  have h1 : ∀ q ∈ Finset.range (prodL (sizes axes)), starRingEnd ℂ (φ.getD q 0) * res.getD q 0 =
      (f : ℂ) * (ds.map fun d => starRingEnd ℂ (φ.getD q 0) * tq deriv order pbc (sizes axes) d ((axes.getD d ⟨0, 0, 0⟩).n)
        (gap (axes.getD d ⟨0, 0, 0⟩) : ℂ) (fun q => ψ.getD q 0) q).sum := by
    intro q hq
    obtain ⟨cs, hv, rfl⟩ := place_surj (sizes axes) q (Finset.mem_range.1 hq)
    rw [List.getD_eq_getElem?_getD (l := res), h cs hv]
    rw [List.sum_map_mul_left]
    have : ds.map (term deriv order pbc axes ψ cs) = ds.map fun d => tq deriv order pbc (sizes axes) d ((axes.getD d ⟨0, 0, 0⟩).n)
        (gap (axes.getD d ⟨0, 0, 0⟩) : ℂ) (fun q => ψ.getD q 0) (place cs (sizes axes)) := by
      refine List.map_congr_left fun d hd => ?_
      have ha : axes[d]? = some (axes[d]'(hds d hd)) := List.getElem?_eq_getElem (hds d hd)
      rw [term_tq deriv order pbc axes ψ cs d _ ha hv, List.getD_eq_getElem?_getD, ha]
      rfl
    rw [this]
    show _ * ((f : ℂ) * _) = _
    ring
  rw [Finset.sum_congr rfl h1, ← Finset.mul_sum]
  congr 1
  clear h1 h hds
  induction ds with
  | nil => simp
  | cons d ds ih =>
    simp only [List.map_cons, List.sum_cons, Finset.sum_add_distrib]
    rw [ih, sum_tq]

theorem dims_lt {D : Nat} {dim : Option Nat} (hdim : ∀ d, dim = some d → d < D) : ∀ d ∈ dims D dim, d < D := by
  intro d hd
  cases dim with
  | none => exact List.mem_range.1 hd
  | some e =>
    have : d = e := by simpa [dims] using hd
    subst this
    exact hdim _ rfl

theorem form_axis {axes : List (Axis ℝ)} {d : Nat} (hd : d < axes.length) :
    (sizes axes)[d]? = some (axes.getD d ⟨0, 0, 0⟩).n := by
  rw [sizes, List.getElem?_map, List.getD_eq_getElem?_getD, List.getElem?_eq_getElem hd]
  rfl

/-- C195. With the second derivative, with open as well as with periodic boundaries, for all dimensions or one, and for all masses
it can be used with, the operator is hermitian: the scalar product of φ with the operator applied to ψ is the conjugate of the one
of ψ with the operator applied to φ. -/
theorem C195_hermitian (order : Nat) (pbc : Bool) (dim : Option Nat) (mass : Option (List ℝ)) (axes : List (Axis ℝ))
    (h2 : 2 ≤ order) (h3 : order ≤ 50) (h4 : Even order)
    (hD : axes ≠ []) (hdim : ∀ d, dim = some d → d < axes.length) (hw : ∀ a ∈ axes, order ≤ a.n) (hm : Accepted mass axes.length) :
    ∃ o1 o2, Op.new.initParams 2 order pbc (dimPar dim) mass = .ok o1 ∧ o1.initPsi axes = .ok o2 ∧
      ∀ φ ψ out : List ℂ, φ.length = prodL (sizes axes) → ψ.length = prodL (sizes axes) → out.length = prodL (sizes axes) →
        ∃ Tφ Tψ, o2.apply φ out = some Tφ ∧ o2.apply ψ out = some Tψ ∧ dot φ Tψ = starRingEnd ℂ (dot ψ Tφ) := by
  obtain ⟨f, hl⟩ := last_of_accepted mass _ (List.length_pos_iff.2 hD) hm
  obtain ⟨o1, o2, a, b, _, c⟩ := apply_last 2 order pbc dim mass axes f (setup_of 2 order (.inr rfl) h2 h3 h4) hD hdim hw hl
  refine ⟨o1, o2, a, b, fun φ ψ out hφ hψ hout => ?_⟩
  obtain ⟨Tφ, p1, p2, p3⟩ := c φ out hφ hout
  obtain ⟨Tψ, q1, q2, q3⟩ := c ψ out hψ hout
  refine ⟨Tφ, Tψ, p1, q1, ?_⟩
  rw [dot_forms 2 order pbc _ axes f φ ψ Tψ (dims_lt hdim) q2 q3, dot_forms 2 order pbc _ axes f ψ φ Tφ (dims_lt hdim) p2 p3,
    map_mul, Complex.conj_ofReal, map_list_sum, List.map_map]
  congr 2
  refine List.map_congr_left fun d hd => ?_
  rw [Function.comp_apply, form_conj, form_symm (form_axis (dims_lt hdim d hd))]
  simp

/-- C195 for the first derivative of order 2 or 4: it is anti-hermitian. (In the tables of the higher orders the coefficient of the
point itself is not zero but of the order of 10^-22, see C65.) -/
theorem C195_antihermitian (order : Nat) (pbc : Bool) (dim : Option Nat) (mass : Option (List ℝ)) (axes : List (Axis ℝ))
    (h2 : order = 2 ∨ order = 4)
    (hD : axes ≠ []) (hdim : ∀ d, dim = some d → d < axes.length) (hw : ∀ a ∈ axes, order ≤ a.n) (hm : Accepted mass axes.length) :
    ∃ o1 o2, Op.new.initParams 1 order pbc (dimPar dim) mass = .ok o1 ∧ o1.initPsi axes = .ok o2 ∧
      ∀ φ ψ out : List ℂ, φ.length = prodL (sizes axes) → ψ.length = prodL (sizes axes) → out.length = prodL (sizes axes) →
        ∃ Tφ Tψ, o2.apply φ out = some Tφ ∧ o2.apply ψ out = some Tψ ∧ dot φ Tψ = - starRingEnd ℂ (dot ψ Tφ) := by
  obtain ⟨f, hl⟩ := last_of_accepted mass _ (List.length_pos_iff.2 hD) hm
  obtain ⟨o1, o2, a, b, _, c⟩ := apply_last 1 order pbc dim mass axes f
    (setup_of 1 order (.inl rfl) (by omega) (by omega) (by rcases h2 with rfl | rfl <;> decide)) hD hdim hw hl
  refine ⟨o1, o2, a, b, fun φ ψ out hφ hψ hout => ?_⟩
  obtain ⟨Tφ, p1, p2, p3⟩ := c φ out hφ hout
  obtain ⟨Tψ, q1, q2, q3⟩ := c ψ out hψ hout
  refine ⟨Tφ, Tψ, p1, q1, ?_⟩
  rw [dot_forms 1 order pbc _ axes f φ ψ Tψ (dims_lt hdim) q2 q3, dot_forms 1 order pbc _ axes f ψ φ Tφ (dims_lt hdim) p2 p3,
    map_mul, Complex.conj_ofReal, map_list_sum, List.map_map, ← mul_neg]
  congr 1
  have hneg : ∀ l : List ℂ, -l.sum = (l.map fun x => -x).sum := fun l => by
    induction l with
    | nil => simp
    | cons x l ih => simp only [List.map_cons, List.sum_cons, neg_add, ih]
  rw [hneg, List.map_map]
  congr 1
  refine List.map_congr_left fun d hd => ?_
  rw [Function.comp_apply, Function.comp_apply, form_conj, form_anti (form_axis (dims_lt hdim d hd)) _ _ _ _ _ (by omega) (by omega)]
  simp

/-- The hypotheses of `C195_hermitian` can be met, with different masses one of which is -1. -/
example := C195_hermitian 4 true none (some [2, -1]) [⟨4, 0, 3⟩, ⟨6, -1, 1⟩] (by decide) (by decide) ⟨2, rfl⟩
  (by simp) (by simp) (by intro a ha; simp at ha; rcases ha with rfl | rfl <;> decide)
  ⟨by decide, by
    intro d x hd hx
    have hd : d < 2 := hd
    rcases (show d = 0 ∨ d = 1 by omega) with rfl | rfl
    · cases hx; norm_num
    · cases hx; norm_num, 0, 2, by decide, rfl, by norm_num⟩

/-- The hypotheses of `C195_antihermitian` can be met. -/
example := C195_antihermitian 4 false (some 1) none [⟨4, 0, 3⟩, ⟨6, -1, 1⟩] (.inr rfl)
  (by simp) (by simp) (by intro a ha; simp at ha; rcases ha with rfl | rfl <;> decide) (by show 2 ≤ 4; decide)

theorem sum_dims_le {axes : List (Axis ℝ)} {dim : Option Nat} (hdim : ∀ d, dim = some d → d < axes.length) (g : Axis ℝ → ℝ)
    (hg : ∀ a ∈ axes, 0 ≤ g a) :
    ((dims axes.length dim).map fun d => g (axes.getD d ⟨0, 0, 0⟩)).sum ≤ (axes.map g).sum := by
  cases dim with
  | none =>
    have : ((dims axes.length none).map fun d => g (axes.getD d ⟨0, 0, 0⟩)) = axes.map g := by
      refine List.ext_getElem (by simp [dims]) fun i h1 h2 => ?_
      have hi : i < axes.length := by simpa using h2
      simp [dims, hi]
    rw [this]
  | some d =>
    have hd := hdim d rfl
    simp only [dims, List.map_cons, List.map_nil, List.sum_cons, List.sum_nil, add_zero]
    rw [List.getD_eq_getElem?_getD, List.getElem?_eq_getElem hd]
    exact List.single_le_sum (l := axes.map g) (by simpa using hg) _ (List.mem_map_of_mem (List.getElem_mem hd))

theorem zip_same (g : Axis ℝ → ℝ → ℝ) (m : ℝ) : ∀ (axes : List (Axis ℝ)) (v : List ℝ), (∀ d, d < axes.length → v[d]? = some m) →
    List.zipWith g axes v = axes.map fun a => g a m
  | [], _, _ => by simp
  | a :: axes, [], h => by have := h 0 (by simp); simp at this
  | a :: axes, x :: v, h => by
    have h0 : x = m := by simpa using h 0 (by simp)
    subst h0
    rw [List.zipWith_cons_cons, zip_same g x axes v (fun d hd => by simpa using h (d + 1) (by simpa using hd))]
    rfl

theorem norm_sum_map_le (l : List Nat) (F : Nat → ℂ) (G : Nat → ℝ) (h : ∀ d ∈ l, ‖F d‖ ≤ G d) :
    ‖(l.map F).sum‖ ≤ (l.map G).sum := by
  induction l with
  | nil => simp
  | cons d l ih =>
    simp only [List.map_cons, List.sum_cons]
    exact (norm_add_le _ _).trans (add_le_add (h d (by simp)) (ih fun e he => h e (by simp [he])))

theorem norm2_dot (axes : List (Axis ℝ)) (ψ : List ℂ) (h : ψ.length = prodL (sizes axes)) :
    dot ψ ψ = ((norm2 (sizes axes) fun q => ψ.getD q 0 : ℝ) : ℂ) := by
  unfold dot norm2
  rw [h, Complex.ofReal_sum]
  refine Finset.sum_congr rfl fun q _ => ?_
  rw [mul_comm, Complex.mul_conj, Complex.normSq_eq_norm_sq]

/-- C196 (partial: second derivative with the same positive mass in all dimensions; the lower bound only for order two; see
`C196_violated_min` and `C196_violated_first`). The reported maximum of the energy is real and a bound of the expectation value of
the operator: it is not above the maximum times the norm, in absolute value. -/
theorem C196_partial (order : Nat) (pbc : Bool) (dim : Option Nat) (v : List ℝ) (m : ℝ) (axes : List (Axis ℝ))
    (h2 : 2 ≤ order) (h3 : order ≤ 50) (h4 : Even order)
    (hD : axes ≠ []) (hdim : ∀ d, dim = some d → d < axes.length) (hw : ∀ a ∈ axes, order ≤ a.n) (hx : ∀ a ∈ axes, a.xmin < a.xmax)
    (hm : 0 < m) (hv : ∀ d, d < axes.length → v[d]? = some m) :
    ∃ o1 o2, Op.new.initParams 2 order pbc (dimPar dim) (some v) = .ok o1 ∧ o1.initPsi axes = .ok o2 ∧
      ∃ E : ℝ, o2.emax = .val (E : ℂ) ∧ o2.emin = .val 0 ∧
        ∀ ψ out : List ℂ, ψ.length = prodL (sizes axes) → out.length = prodL (sizes axes) →
          ∃ res, o2.apply ψ out = some res ∧ (dot ψ res).im = 0 ∧ |(dot ψ res).re| ≤ E * (dot ψ ψ).re ∧
            (order = 2 → 0 ≤ (dot ψ res).re) := by
  have hpos : 0 < axes.length := List.length_pos_iff.2 hD
  have hl : Last (some v) axes.length (kin m) := by
    refine .inr ⟨v, m, rfl, ?_, fun d x hd hx => ?_, ⟨m, ?_, by linarith⟩, hv _ (by omega), rfl⟩
    · have := getElem?_lt (hv (axes.length - 1) (by omega))
      omega
    · rw [hv d hd] at hx
      cases hx
      exact hm.ne'
    · exact List.mem_iff_getElem?.2 ⟨0, by rw [List.getElem?_take_of_lt hpos, hv 0 hpos]⟩
  have hlen : axes.length ≤ v.length := by
    have := getElem?_lt (hv (axes.length - 1) (by omega))
    omega
  obtain ⟨o1, o2, a, b, ⟨b1, b2, b3⟩, c⟩ := apply_last 2 order pbc dim (some v) axes (kin m) (setup_of 2 order (.inr rfl) h2 h3 h4) hD hdim hw hl
  have hgap : ∀ a ∈ axes, 0 < gap a := fun a ha => by
    have h1 := hw a ha
    have h2' := hx a ha
    have h5 : (2 : ℝ) ≤ (a.n : ℝ) := by exact_mod_cast h2.trans h1
    exact div_pos (by linarith) (by linarith)
  refine ⟨o1, o2, a, b, (axes.map fun a => Real.pi ^ 2 / gap a ^ 2).sum * (1 / (2 * m)), ?_, ?_, fun ψ out hψ hout => ?_⟩
  · unfold Op.emax
    have hlen2 : o2.axes.length ≤ o2.mass.length := by rw [b1, b3]; exact hlen
    rw [if_neg (by rw [b2]; decide), if_pos hlen2, b1, b3]
    congr 2
    rw [Option.getD_some, zip_same _ m axes v hv, ← List.sum_map_mul_right, ← List.sum_map_mul_right]
    congr 1
    refine List.map_congr_left fun a ha => ?_
    have hg := hgap a ha
    have : a.dx = gap a := rfl
    rw [if_pos hm, this]
    field_simp
  · unfold Op.emin
    rw [if_neg (by rw [b2]; decide)]
  · obtain ⟨res, r1, r2, r3⟩ := c ψ out hψ hout
    have hdot := dot_forms 2 order pbc _ axes (kin m) ψ ψ res (dims_lt hdim) r2 r3
    have him : (dot ψ res).im = 0 := by
      have : starRingEnd ℂ (dot ψ res) = dot ψ res := by
        rw [hdot, map_mul, Complex.conj_ofReal, map_list_sum, List.map_map]
        congr 2
        refine List.map_congr_left fun d hd => ?_
        rw [Function.comp_apply, form_conj, form_symm (form_axis (dims_lt hdim d hd))]
        simp
      exact Complex.conj_eq_iff_im.1 this
    refine ⟨res, r1, him, ?_, ?_⟩
    · have hk : ‖((kin m : ℝ) : ℂ)‖ = 1 / (2 * m) := by
        rw [Complex.norm_real, kin, Real.norm_eq_abs, abs_div, abs_neg, abs_one, abs_of_pos (by linarith)]
      have hN : 0 ≤ norm2 (sizes axes) fun q => ψ.getD q 0 := Finset.sum_nonneg fun q _ => by positivity
      rw [norm2_dot axes ψ hψ, Complex.ofReal_re]
      refine (Complex.abs_re_le_norm _).trans ?_
      rw [hdot, norm_mul, hk]
      have hs := norm_sum_map_le (dims axes.length dim) _ (fun d => Real.pi ^ 2 / gap (axes.getD d ⟨0, 0, 0⟩) ^ 2 *
        norm2 (sizes axes) fun q => ψ.getD q 0) fun d hd => form_bound (form_axis (dims_lt hdim d hd)) order pbc
          (gap (axes.getD d ⟨0, 0, 0⟩)) (hgap _ (by
            have := dims_lt hdim d hd
            rw [List.getD_eq_getElem?_getD, List.getElem?_eq_getElem this]
            exact List.getElem_mem this)) (fun q => ψ.getD q 0) (by omega) (by omega)
      have ht := sum_dims_le hdim (fun a => Real.pi ^ 2 / gap a ^ 2) fun a _ => by positivity
      rw [List.sum_map_mul_right] at hs
      have hmi : 0 ≤ 1 / (2 * m) := by positivity
      calc _ ≤ 1 / (2 * m) * (((dims axes.length dim).map fun d => Real.pi ^ 2 / gap (axes.getD d ⟨0, 0, 0⟩) ^ 2).sum *
            norm2 (sizes axes) fun q => ψ.getD q 0) := mul_le_mul_of_nonneg_left hs hmi
        _ ≤ 1 / (2 * m) * ((axes.map fun a => Real.pi ^ 2 / gap a ^ 2).sum * norm2 (sizes axes) fun q => ψ.getD q 0) :=
          mul_le_mul_of_nonneg_left (mul_le_mul_of_nonneg_right ht hN) hmi
        _ = _ := by ring
    · intro ho
      subst ho
      have hsum : ∀ l : List Nat, (∀ d ∈ l, d < axes.length) → ((l.map fun d => form 2 2 pbc (sizes axes) d ((axes.getD d ⟨0, 0, 0⟩).n)
          (gap (axes.getD d ⟨0, 0, 0⟩) : ℂ) (fun q => starRingEnd ℂ (ψ.getD q 0)) (fun q => ψ.getD q 0)).sum).re ≤ 0 := by
        intro l
        induction l with
        | nil => intro _; simp
        | cons d l ih =>
          intro h
          simp only [List.map_cons, List.sum_cons, Complex.add_re]
          have p := form_neg (form_axis (h d (by simp))) pbc (gap (axes.getD d ⟨0, 0, 0⟩)) fun q => ψ.getD q 0
          have q := ih fun e he => h e (by simp [he])
          linarith
      rw [hdot, Complex.re_ofReal_mul]
      have hk : kin m ≤ 0 := div_nonpos_of_nonpos_of_nonneg (by norm_num) (by linarith)
      exact mul_nonneg_of_nonpos_of_nonpos hk (hsum _ (dims_lt hdim))

/-- The hypotheses of `C196_partial` can be met. -/
example := C196_partial 4 true none [2, 2] 2 [⟨4, 0, 3⟩, ⟨6, -1, 1⟩] (by decide) (by decide) ⟨2, rfl⟩
  (by simp) (by simp) (by intro a ha; simp at ha; rcases ha with rfl | rfl <;> decide)
  (by intro a ha; simp at ha; rcases ha with rfl | rfl <;> norm_num) (by norm_num) (fun d hd => by
    have hd : d < 2 := hd
    rcases (show d = 0 ∨ d = 1 by omega) with rfl | rfl <;> rfl)

/-- C196 violated: without masses the operator is the plain second derivative, but the reported minimum stays zero: the function
which is one at the origin has the expectation value -4. -/
theorem C196_violated_min : ∃ o1 o2, Op.new.initParams 2 2 false none none = .ok o1 ∧ o1.initPsi smallAxes = .ok o2 ∧
    o2.emin = .val 0 ∧ ∃ res, o2.apply [1, 0, 0, 0] [0, 0, 0, 0] = some res ∧ dot [1, 0, 0, 0] res = -4 := by
  obtain ⟨o1, o2, a, b, ⟨_, b2, _⟩, c⟩ := apply_last 2 2 false none none smallAxes 1
    (setup_of 2 2 (.inr rfl) (by decide) (by decide) ⟨1, rfl⟩) (by simp [smallAxes]) (by simp)
    (by intro a ha; simp [smallAxes] at ha; subst ha; decide) (.inl ⟨rfl, by decide, rfl⟩)
  obtain ⟨res, r1, r2, r3⟩ := c [1, 0, 0, 0] [0, 0, 0, 0] rfl rfl
  refine ⟨o1, o2, a, b, by unfold Op.emin; rw [if_neg (by rw [b2]; decide)], res, r1, ?_⟩
  have h := r3 [0, 0] (by simp [Valid, smallAxes, sizes])
  have hp : place [0, 0] (sizes smallAxes) = 0 := rfl
  rw [hp] at h
  have hres : res[0]? = some (((1 : ℝ) : ℂ) * (term 2 2 false smallAxes [1, 0, 0, 0] [0, 0] 0 +
    (term 2 2 false smallAxes [1, 0, 0, 0] [0, 0] 1 + 0))) := h
  rw [small_term 0 (by decide), small_term 1 (by decide)] at hres
  have hl : res.length = 4 := r2
  unfold dot
  rw [hl]
  simp only [Finset.sum_range_succ, Finset.sum_range_zero]
  simp [List.getD_eq_getElem?_getD, hres]
  norm_num

/-- A grid with different spacings. -/
noncomputable def unevenAxes : List (Axis ℝ) := [⟨2, 0, 1⟩, ⟨4, 0, 3 / 10⟩]

/-- A wave along the second dimension. -/
noncomputable def wave : List ℂ := [1, 1, Complex.I, Complex.I, -1, -1, -Complex.I, -Complex.I]

/-- C196 violated: the reported maximum of the first derivative is always the one of the first dimension. On a grid with the
spacings 1 and 1/10 and periodic boundaries the derivative along the second dimension has the eigenvalue 10 i, the reported maximum
is π i. -/
theorem C196_violated_first : ∃ o1 o2, Op.new.initParams 1 2 true (some 1) none = .ok o1 ∧ o1.initPsi unevenAxes = .ok o2 ∧
    o2.emax = .val (Real.pi * Complex.I) ∧ ∃ res, o2.apply wave wave = some res ∧
      ∀ cs, Valid cs (sizes unevenAxes) →
        res[place cs (sizes unevenAxes)]? = some (10 * Complex.I * wave.getD (place cs (sizes unevenAxes)) 0) := by
  obtain ⟨o1, o2, a, b, ⟨b1, b2, _⟩, c⟩ := apply_last 1 2 true (some 1) none unevenAxes 1
    (setup_of 1 2 (.inl rfl) (by decide) (by decide) ⟨1, rfl⟩) (by simp [unevenAxes]) (by intro d h; cases h; decide)
    (by intro a ha; simp [unevenAxes] at ha; rcases ha with rfl | rfl <;> decide) (.inl ⟨rfl, by decide, rfl⟩)
  obtain ⟨res, r1, r2, r3⟩ := c wave wave rfl rfl
  refine ⟨o1, o2, a, b, ?_, res, r1, fun cs hv => ?_⟩
  · unfold Op.emax
    rw [if_pos (show o2.deriv = 1 from b2), b1]
    simp [unevenAxes, Axis.dx]
    norm_num
  · rw [r3 cs hv]
    have e0 : entry 1 1 0 = 0 := by decide +kernel
    have e1 : entry 1 1 1 = -1 / 2 := by decide +kernel
    match cs, hv with
    | [x, y], hv =>
      have hx : x < 2 := hv.1
      have hy : y < 4 := hv.2.1
      rcases (show x = 0 ∨ x = 1 by omega) with rfl | rfl <;>
      rcases (show y = 0 ∨ y = 1 ∨ y = 2 ∨ y = 3 by omega) with rfl | rfl | rfl | rfl <;>
      simp [dims, term, unevenAxes, central, sumTo, e0, e1, extend, sizes, place, prodL, wave] <;> ring_nf <;> simp

/-- C197 (partial: see `C197_violated`). Setting up a copy again with parameters and a wave function gives an operator which acts
like the original one set up anew with them, whatever the copied operator was. -/
theorem C197_partial (o : Op) (deriv order : Int) (pbc : Bool) (dim : Int) (mass : List ℝ) (axes : List (Axis ℝ)) (o1 o2 c1 : Op)
    (h1 : o.initParams deriv order pbc (some dim) (some mass) = .ok o1) (h2 : o1.initPsi axes = .ok o2)
    (h3 : o.copy.initParams deriv order pbc (some dim) (some mass) = .ok c1) (ψ out : List ℂ) :
    ∃ c2, c1.initPsi axes = .ok c2 ∧ c2.apply ψ out = o2.apply ψ out := by
  unfold Op.initParams at h1 h3
  split at h1
  · rename_i hs
    rw [if_pos hs] at h3
    cases h1
    cases h3
    refine ⟨o2, ?_, rfl⟩
    have hd : ¬ ((axes.length : Int) ≤ dim ∨ dim < -1) := fun hd => by
      unfold Op.initPsi at h2
      simp only [Option.getD_some, if_pos hd] at h2
      cases h2
    unfold Op.initPsi at h2 ⊢
    simp only [Option.getD_some, if_neg hd] at h2 ⊢
    exact h2
  · cases h1

/-- C197 violated: a copy of an operator which is ready cannot be applied: its stencil is not copied. -/
theorem C197_violated (o : Op) (ψ out : List ℂ) : o.copy.apply ψ out = none := rfl

/-- C197 violated: the copy does not report the same maximum of the energy: the masses are not copied. For an operator with one
dimension of the spacing 1 and the mass 2 it is π²/4, for the copy π²/2. -/
theorem C197_violated_emax : ∃ o1 o2, Op.new.initParams 2 2 false none (some [2]) = .ok o1 ∧ o1.initPsi [⟨2, 0, 1⟩] = .ok o2 ∧
    o2.emax = .val ((Real.pi ^ 2 / 4 : ℝ) : ℂ) ∧ o2.copy.emax = .val ((Real.pi ^ 2 / 2 : ℝ) : ℂ) := by
  obtain ⟨o1, o2, a, b, ⟨b1, b2, b3⟩, _⟩ := apply_last 2 2 false none (some [2]) [⟨2, 0, 1⟩] (kin 2)
    (setup_of 2 2 (.inr rfl) (by decide) (by decide) ⟨1, rfl⟩) (by simp) (by simp)
    (by intro a ha; simp at ha; subst ha; decide)
    (.inr ⟨[2], 2, rfl, by decide, by
      intro d x hd hx
      have hd : d < 1 := hd
      obtain rfl : d = 0 := by omega
      cases hx; norm_num, ⟨2, by simp, by norm_num⟩, rfl, rfl⟩)
  have hd : (2 : Int) ≠ 1 := by decide
  have b2' : o2.deriv = 2 := b2
  refine ⟨o1, o2, a, b, ?_, ?_⟩
  · unfold Op.emax
    rw [b2', b1, b3, if_neg hd]
    simp [Axis.dx]
    norm_num
    ring
  · unfold Op.emax Op.copy
    simp only [b2', b1, Op.new]
    rw [if_neg hd]
    simp [Axis.dx]
    norm_num
    ring

/-- The hypotheses of `C197_partial` can be met: see `C194_partial`; a copy of the new operator is set up like it. -/
example : ∃ o1 c1, Op.new.initParams 2 4 true (some 0) (some [2]) = .ok o1 ∧ Op.new.copy.initParams 2 4 true (some 0) (some [2]) = .ok c1 ∧
    ∃ o2, o1.initPsi [⟨4, 0, 3⟩] = .ok o2 := by
  obtain ⟨o1, o2, a, b, _⟩ := C194_partial 2 4 true (some 0) (some [2]) [⟨4, 0, 3⟩] (kin 2) (.inr rfl) (by decide) (by decide) ⟨2, rfl⟩
    (by simp) (by intro d h; cases h; decide) (by intro a ha; simp at ha; subst ha; decide)
    (.inr ⟨_, 2, rfl, fun d hd => by
      have hd : d < 1 := hd
      obtain rfl : d = 0 := by omega
      rfl, by norm_num, by norm_num, rfl⟩)
  exact ⟨o1, o1, a, a, o2, b⟩

end QDng.Fd
