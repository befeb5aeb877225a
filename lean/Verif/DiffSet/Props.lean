import Verif.DiffSet.Model
import Verif.Stencil.Props
import Mathlib.Tactic.NormNum

/- The properties of the difference operator with choosable method. -/

namespace QDng.DiffSet

open QDng.Common QDng.Grid QDng.Stencil

/-- The finite difference derivative of order `n` of the line through the point `cs` along `dim`, without prefactor. -/
def lineDeriv {K : Type} [Field K] (h : Hofd K) (a : Axis K) (cf : List K) (inp : List K) (sizes : List Nat) (dim : Nat)
    (cs : List Nat) (i : Nat) : K :=
  central (h.order / 2) (fun m => cf.getD (h.order / 2 - m) 0) (if h.deriv = 1 then -1 else 1)
    (extend h.pbc a.n (fun y => inp.getD (place (cs.set dim y) sizes) 0)) i /
    ((a.xmax - a.xmin) / ((a.n : K) - 1)) ^ h.deriv

section
variable {K : Type} [Field K] (h : Hofd K) (inp out : List K) (dim : Nat) (a : Axis K) (f d : K) (pfac : List K) (cf : List K)

/-- A finite difference object that can be used for a dimension. -/
structure Usable : Prop where
  setup : checkSetup h.deriv h.order = true
  axis : h.axes[dim]? = some a
  fac : pfac[dim]? = some f
  row : h.cfc[if h.deriv = 1 then h.order / 2 - 1 else 25 + (h.order / 2 - 1)]? = some cf
  len : h.order / 2 < cf.length
  wide : h.order ≤ a.n
  inLen : inp.length = prodL (h.axes.map Axis.n)
  outLen : out.length = prodL (h.axes.map Axis.n)

/-- **C301** (the adding variant).  The derivative along a dimension times the prefactor of the dimension and the given factor is
added to the result. -/
theorem C301_add (u : Usable h inp out dim a f pfac cf) :
    ∃ res, dndxnAdd pfac h inp out dim d = some res ∧ res.length = out.length ∧
      ∀ cs i, Valid cs (h.axes.map Axis.n) → cs[dim]? = some i →
        res[place cs (h.axes.map Axis.n)]? = some (out.getD (place cs (h.axes.map Axis.n)) 0 +
          d * f * lineDeriv h a cf inp (h.axes.map Axis.n) dim cs i) := by
  obtain ⟨res, h1, h2, h3⟩ := C35_single { h with pfac1 := d, pfac := pfac } inp out dim true a f cf u.setup u.axis u.fac
    u.row u.len u.wide u.inLen u.outLen
  refine ⟨res, h1, h2, ?_⟩
  intro cs i hv hi
  refine (h3 cs i hv hi).trans ?_
  simp only [if_true]
  unfold lineDeriv
  congr 2
  show d * f / _ * _ = d * f * (_ / _)
  rw [div_mul_eq_mul_div, mul_div_assoc]
  rfl

/-- **C301** (the setting variant, if the prefactor of the dimension is one or zero).  The derivative along a dimension times the
prefactor of the dimension and the given factor is stored as the result, whatever was there before. -/
theorem C301_partial (u : Usable h inp out dim a f pfac cf) (hf : f = 1 ∨ f = 0) :
    ∃ res, dndxn pfac h inp out dim d = some res ∧ res.length = out.length ∧
      ∀ cs i, Valid cs (h.axes.map Axis.n) → cs[dim]? = some i →
        res[place cs (h.axes.map Axis.n)]? = some (d * f * lineDeriv h a cf inp (h.axes.map Axis.n) dim cs i) := by
  obtain ⟨res, h1, h2, h3⟩ := C35_single { h with pfac1 := d * f, pfac := pfac } inp out dim false a f cf u.setup u.axis u.fac
    u.row u.len u.wide u.inLen u.outLen
  refine ⟨res, ?_, h2, ?_⟩
  · unfold dndxn
    rw [u.fac]
    exact h1
  · intro cs i hv hi
    refine (h3 cs i hv hi).trans ?_
    unfold lineDeriv
    congr 1
    have hff : d * f * f = d * f := by rcases hf with rfl | rfl <;> simp
    show (if false = true then _ else (0 : K)) + d * f * f / _ * _ = d * f * (_ / _)
    rw [hff, div_mul_eq_mul_div, mul_div_assoc]
    simp only [Bool.false_eq_true, if_false, zero_add]
    rfl

/-- **C301 is violated**: the setting variant multiplies twice with the prefactor of the dimension. -/
theorem C301_violated (u : Usable h inp out dim a f pfac cf) :
    ∃ res, dndxn pfac h inp out dim d = some res ∧
      ∀ cs i, Valid cs (h.axes.map Axis.n) → cs[dim]? = some i →
        res[place cs (h.axes.map Axis.n)]? = some (f * (d * f * lineDeriv h a cf inp (h.axes.map Axis.n) dim cs i)) := by
  obtain ⟨res, h1, h2, h3⟩ := C35_single { h with pfac1 := d * f, pfac := pfac } inp out dim false a f cf u.setup u.axis u.fac
    u.row u.len u.wide u.inLen u.outLen
  refine ⟨res, ?_, ?_⟩
  · unfold dndxn
    rw [u.fac]
    exact h1
  · intro cs i hv hi
    refine (h3 cs i hv hi).trans ?_
    unfold lineDeriv
    congr 1
    show (if false = true then _ else (0 : K)) + d * f * f / _ * _ = f * (d * f * (_ / _))
    have e : ∀ x y : K, d * f * f / x * y = f * (d * f * (y / x)) := by
      intro x y
      rw [div_eq_mul_inv, div_eq_mul_inv]
      ring
    rw [e]
    simp only [Bool.false_eq_true, if_false, zero_add]
    rfl

end

/-- A line of four points with spacing one and the prefactor three. -/
def exHofd : Hofd ℚ := ⟨1, 2, true, [[-1/2, 0]], 1, [], [⟨4, 0, 3⟩]⟩

theorem exUsable (f : ℚ) : Usable exHofd [1, 2, 4, 8] [0, 0, 0, 0] 0 ⟨4, 0, 3⟩ f [f] [-1/2, 0] :=
  ⟨by decide, rfl, rfl, rfl, by decide, by decide, rfl, rfl⟩

example : ∃ res, dndxn [1] exHofd [1, 2, 4, 8] [0, 0, 0, 0] 0 2 = some res ∧
    res[1]? = some (2 * 1 * lineDeriv exHofd ⟨4, 0, 3⟩ [-1/2, 0] [1, 2, 4, 8] [4] 0 [1] 1) := by
  obtain ⟨res, h1, _, h2⟩ := C301_partial exHofd [1, 2, 4, 8] [0, 0, 0, 0] 0 ⟨4, 0, 3⟩ 1 2 [1] [-1/2, 0] (exUsable 1)
    (Or.inl rfl)
  exact ⟨res, h1, h2 [1] 1 (by simp [Valid, exHofd]) rfl⟩

example : ∃ res, dndxn [3] exHofd [1, 2, 4, 8] [0, 0, 0, 0] 0 2 = some res ∧
    res[1]? = some (3 * (2 * 3 * lineDeriv exHofd ⟨4, 0, 3⟩ [-1/2, 0] [1, 2, 4, 8] [4] 0 [1] 1)) := by
  obtain ⟨res, h1, h2⟩ := C301_violated exHofd [1, 2, 4, 8] [0, 0, 0, 0] 0 ⟨4, 0, 3⟩ 3 2 [3] [-1/2, 0] (exUsable 3)
  exact ⟨res, h1, h2 [1] 1 (by simp [Valid, exHofd]) rfl⟩

/-! ### C302 -/

/-- What the parameters have to be. -/
def Acceptable (deriv : Int) (dims : Nat) (pm : Pm) : Prop :=
  (pm.method = none ∨ pm.method = some "FFT" ∨ pm.method = some "HOFD") ∧
  (pm.method = some "HOFD" → (deriv = 1 ∨ deriv = 2) ∧ 2 ≤ pm.order.getD 8 ∧ pm.order.getD 8 ≤ 50 ∧
    ∃ k : Int, pm.order.getD 8 = 2 * k) ∧
  dims ≠ 0 ∧ (∀ d, pm.dim = some d → -1 ≤ d ∧ d < dims)

theorem checkSetup_iff (deriv order : Int) :
    checkSetup deriv order = true ↔ (deriv = 1 ∨ deriv = 2) ∧ 2 ≤ order ∧ order ≤ 50 ∧ ∃ k : Int, order = 2 * k := by
  have ht : order.tmod 2 = 0 ↔ ∃ k : Int, order = 2 * k := by
    rw [← Int.dvd_iff_tmod_eq_zero]
    rfl
  simp only [checkSetup, Bool.and_eq_true, Bool.not_eq_true', Bool.or_eq_false_iff, decide_eq_false_iff_not, ne_eq, not_not, ht]
  constructor
  · rintro ⟨⟨⟨h1, h2⟩, h3⟩, h4, h5⟩
    exact ⟨by omega, by omega, by omega, h2⟩
  · rintro ⟨h1, h2, h3, h4⟩
    exact ⟨⟨⟨by omega, h4⟩, by omega⟩, by omega, by omega⟩

theorem checkDim_spec {G : Type} (o : Obj G) (dim : Option Int) :
    ((∃ o', o.checkDim dim = .ok o') ↔ o.dims ≠ 0 ∧ ∀ d, dim = some d → -1 ≤ d ∧ d < o.dims) ∧
    ∀ o', o.checkDim dim = .ok o' → o'.method = o.method ∧ o'.table = o.table ∧ o'.hofd = o.hofd := by
  unfold Obj.checkDim
  by_cases h0 : o.dims = 0
  · rw [if_pos h0]
    refine ⟨⟨?_, fun h => absurd h0 h.1⟩, ?_⟩
    · rintro ⟨_, h⟩
      cases h
    · intro o' h
      cases h
  · rw [if_neg h0]
    cases dim with
    | none =>
      refine ⟨⟨fun _ => ⟨h0, fun d h => by cases h⟩, fun _ => ⟨o, rfl⟩⟩, ?_⟩
      intro o' h
      cases h
      exact ⟨rfl, rfl, rfl⟩
    | some d =>
      simp only
      by_cases hd : d > o.dims - 1 ∨ d < -1
      · rw [if_pos hd]
        refine ⟨⟨?_, ?_⟩, ?_⟩
        · rintro ⟨_, h⟩
          cases h
        · intro h
          have := h.2 d rfl
          omega
        · intro o' h
          cases h
      · rw [if_neg hd]
        refine ⟨⟨fun _ => ⟨h0, ?_⟩, fun _ => ⟨_, rfl⟩⟩, ?_⟩
        · intro d' h
          cases h
          omega
        · intro o' h
          cases h
          exact ⟨rfl, rfl, rfl⟩

/-- **C302** (for the first set-up of an object).  The set-up succeeds exactly for a known method (the Fourier method if none is
given), a derivative and an even order from 2 to 50 for finite differences (eight if none is given), a grid, and a dimension of the
grid or -1; then the tables of all dimensions belong to the grid, or the finite difference object has the order and boundaries
asked for. -/
theorem C302_partial {G : Type} (deriv : Int) (grid : G) (dims : Nat) (pm : Pm) :
    ((∃ o, (Obj.new deriv grid dims).initParams pm = .ok o) ↔ Acceptable deriv dims pm) ∧
    ∀ o, (Obj.new deriv grid dims).initParams pm = .ok o →
      (pm.method ≠ some "HOFD" → o.method = .fft ∧ ∀ i, i < dims → o.table i = some grid) ∧
      (pm.method = some "HOFD" → o.method = .hofd ∧ o.hofd = some (deriv, pm.order.getD 8, pm.pbc, grid)) := by
  obtain ⟨method, order, pbc, dim⟩ := pm
  have htab : ∀ i : Nat, i < dims → (Obj.new deriv grid dims).initKspace.table i = some grid := by
    intro i hi
    have h1 : (0 : Int) ≤ (i : Int) ∧ (i : Int) < (dims : Int) := by omega
    show (if (0 : Int) ≤ (i : Int) ∧ (i : Int) < (dims : Int) then some grid else none) = some grid
    rw [if_pos h1]
  by_cases hH : method = some "HOFD"
  · subst hH
    have hrun : (Obj.new deriv grid dims).initParams ⟨some "HOFD", order, pbc, dim⟩ =
        (if checkSetup deriv (order.getD 8) then
          ({ Obj.new deriv grid dims with method := .hofd, hofd := some (deriv, order.getD 8, pbc, grid) } : Obj G).checkDim dim
         else .threw { Obj.new deriv grid dims with method := .hofd }) := by
      unfold Obj.initParams
      have hm' : choose (Obj.new deriv grid dims).method (some "HOFD") = some Method.hofd := by
        simp [choose]
      simp only [hm']
      rfl
    rw [hrun]
    by_cases hc : checkSetup deriv (order.getD 8) = true
    · rw [if_pos hc]
      obtain ⟨g1, g2⟩ := checkDim_spec
        ({ Obj.new deriv grid dims with method := .hofd, hofd := some (deriv, order.getD 8, pbc, grid) } : Obj G) dim
      refine ⟨?_, ?_⟩
      · refine g1.trans ?_
        constructor
        · rintro ⟨h1, h2⟩
          exact ⟨Or.inr (Or.inr rfl), fun _ => (checkSetup_iff _ _).1 hc, h1, h2⟩
        · rintro ⟨_, _, h1, h2⟩
          exact ⟨h1, h2⟩
      · intro o ho
        obtain ⟨k1, _, k3⟩ := g2 o ho
        exact ⟨fun h => absurd rfl h, fun _ => ⟨k1, k3⟩⟩
    · rw [if_neg hc]
      refine ⟨⟨?_, fun h => absurd ((checkSetup_iff _ _).2 (h.2.1 rfl)) hc⟩, ?_⟩
      · rintro ⟨_, h⟩
        cases h
      · intro o h
        cases h
  · by_cases hF : method = none ∨ method = some "FFT"
    · have hch : choose Method.fft method = some Method.fft := by
        rcases hF with rfl | rfl <;> simp [choose]
      have hrun : (Obj.new deriv grid dims).initParams ⟨method, order, pbc, dim⟩ =
          (Obj.new deriv grid dims).initKspace.checkDim dim := by
        unfold Obj.initParams
        have hm' : choose (Obj.new deriv grid dims).method method = some Method.fft := hch
        simp only [hm']
        rfl
      rw [hrun]
      obtain ⟨g1, g2⟩ := checkDim_spec (Obj.new deriv grid dims).initKspace dim
      refine ⟨?_, ?_⟩
      · refine g1.trans ?_
        constructor
        · rintro ⟨h1, h2⟩
          exact ⟨by rcases hF with h | h <;> simp [h], fun h => absurd h hH, h1, h2⟩
        · rintro ⟨_, _, h1, h2⟩
          exact ⟨h1, h2⟩
      · intro o ho
        obtain ⟨k1, k2, _⟩ := g2 o ho
        refine ⟨fun _ => ⟨k1, ?_⟩, fun h => absurd h hH⟩
        intro i hi
        rw [k2]
        exact htab i hi
    · obtain ⟨m, rfl⟩ : ∃ m, method = some m := by
        cases method with
        | none => exact absurd (Or.inl rfl) hF
        | some m => exact ⟨m, rfl⟩
      have h1 : m ≠ "FFT" := fun h => hF (Or.inr (by rw [h]))
      have h2 : m ≠ "HOFD" := fun h => hH (by rw [h])
      have hrun : (Obj.new deriv grid dims).initParams ⟨some m, order, pbc, dim⟩ = .threw (Obj.new deriv grid dims) := by
        unfold Obj.initParams
        simp [choose, h1, h2]
      rw [hrun]
      refine ⟨⟨?_, ?_⟩, ?_⟩
      · rintro ⟨_, h⟩
        cases h
      · rintro ⟨h, _⟩
        rcases h with h | h | h
        · cases h
        · exact absurd (Option.some.inj h) h1
        · exact absurd (Option.some.inj h) h2
      · intro o h
        cases h

example : ∃ o, (Obj.new 2 "grid" 2).initParams ⟨some "HOFD", none, true, some 1⟩ = .ok o ∧
    o.hofd = some (2, 8, true, "grid") :=
  ⟨_, rfl, rfl⟩

/-- **C302 is violated**: a second set-up of an object that was set up for a dimension prepares nothing: after a new grid the
tables still belong to the old one, without an error. -/
theorem C302_violated {G : Type} (deriv : Int) (old new : G) (hne : old ≠ new) (dims dims' : Nat) (hd' : dims' ≠ 0) (d : Nat)
    (hd : d < dims) (pm : Pm) (hm : pm.method = none) (hdim : pm.dim = none) :
    ∃ o o', (Obj.new deriv old dims).initParams ⟨none, none, false, some d⟩ = .ok o ∧
      (o.setGrid new dims').initParams pm = .ok o' ∧ (∀ i, o'.table i ≠ some new) ∧ ∀ i, i < dims → o'.table i = some old := by
  obtain ⟨m, order, pbc, dm⟩ := pm
  simp only at hm hdim
  subst hm hdim
  have h1 : (Obj.new deriv old dims).initParams ⟨none, none, false, some d⟩ =
      .ok { (Obj.new deriv old dims).initKspace with dim := d } := by
    unfold Obj.initParams
    have h0 : ¬ dims = 0 := by omega
    have hr : ¬ ((d : Int) > (dims : Int) - 1 ∨ (d : Int) < -1) := by omega
    simp [choose, Obj.new, Obj.initKspace, Obj.checkDim, h0, hr]
  refine ⟨{ (Obj.new deriv old dims).initKspace with dim := d },
    (({ (Obj.new deriv old dims).initKspace with dim := d } : Obj G).setGrid new dims').initKspace, h1, ?_, ?_, ?_⟩
  · have hm : choose (({ (Obj.new deriv old dims).initKspace with dim := d } : Obj G).setGrid new dims').method none =
        some Method.fft := rfl
    unfold Obj.initParams
    simp only [hm]
    show Obj.checkDim _ none = _
    unfold Obj.checkDim
    show (if dims' = 0 then _ else _) = _
    rw [if_neg hd']
    rfl
  · intro i
    have hk : ∀ x : Int, ¬ (x ≤ (i : Int) ∧ (i : Int) < x) := by intro x; omega
    have e2 : (d : Int) > -1 := by omega
    show (if (if (d : Int) > -1 then (d : Int) else 0) ≤ (i : Int) ∧ (i : Int) < (if (d : Int) > -1 then (d : Int) else dims')
      then some new else (Obj.new deriv old dims).initKspace.table i) ≠ some new
    rw [if_neg (by simp only [e2, if_true]; exact hk _)]
    show (if (0 : Int) ≤ (i : Int) ∧ (i : Int) < (dims : Int) then some old else none) ≠ some new
    by_cases hi : (0 : Int) ≤ (i : Int) ∧ (i : Int) < (dims : Int)
    · rw [if_pos hi]
      exact fun h => hne (Option.some.inj h)
    · rw [if_neg hi]
      exact fun h => by cases h
  · intro i hi
    have hk : ∀ x : Int, ¬ (x ≤ (i : Int) ∧ (i : Int) < x) := by intro x; omega
    have e2 : (d : Int) > -1 := by omega
    show (if (if (d : Int) > -1 then (d : Int) else 0) ≤ (i : Int) ∧ (i : Int) < (if (d : Int) > -1 then (d : Int) else dims')
      then some new else (Obj.new deriv old dims).initKspace.table i) = some old
    rw [if_neg (by simp only [e2, if_true]; exact hk _)]
    show (if (0 : Int) ≤ (i : Int) ∧ (i : Int) < (dims : Int) then some old else none) = some old
    rw [if_pos (by omega)]

example : ∃ o o', (Obj.new 1 "old" 2).initParams ⟨none, none, false, some (1 : Nat)⟩ = .ok o ∧
    (o.setGrid "new" 2).initParams ⟨none, none, false, none⟩ = .ok o' ∧ (∀ i, o'.table i ≠ some "new") ∧
    ∀ i, i < 2 → o'.table i = some "old" :=
  C302_violated 1 "old" "new" (by decide) 2 2 (by decide) 1 (by decide) _ rfl rfl

end QDng.DiffSet
