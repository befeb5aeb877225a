import Verif.Stencil.Lines

/-
Properties of the finite difference derivative (C35, C68) and of the absorbing layer (C58).
-/

namespace QDng.Stencil

open QDng.Common QDng.Grid

/-! ### C35 -/

/-- The grid sizes of the operator. -/
def Hofd.sizes {K : Type} (o : Hofd K) : List Nat := o.axes.map Axis.n

theorem hofd_grid {K : Type} (o : Hofd K) (dim n : Nat) (hn : o.sizes[dim]? = some n) :
    ∃ g, activeDim o.grid dim = some g ∧ Prepared g o.sizes dim := by
  have h : activeDim o.grid dim = some { o.grid with active := some (dim, n) } := by
    unfold activeDim
    show (match o.sizes[dim]? with | none => none | some n => some _) = _
    rw [hn]
  exact ⟨_, h, { sizes := [] }, { sizes := o.sizes }, rfl, h⟩

theorem rd_lt {A : Type} (l : List A) (i : Nat) (h : i < l.length) (d : A) :
    rd l (i : Int) = some (l.getD i d) := by
  unfold rd
  rw [if_neg (by omega)]
  simp [List.getElem?_eq_getElem h]

/-- C35: for grids of at least the stencil width (`order` points in the dimension) the derivative
along one dimension is, at every grid point, the prefactor over the spacing to the power of the
derivative, times the central stencil of the row of the table, with the points outside of the grid
taken as zero or wrapped around.  Nothing outside of the arrays is read or written. -/
theorem C35_single {K : Type} [Field K] (o : Hofd K) (inp out : List K) (dim : Nat) (acc : Bool)
    (a : Axis K) (f : K) (cf : List K) (hs : checkSetup o.deriv o.order = true)
    (ha : o.axes[dim]? = some a) (hf : o.pfac[dim]? = some f)
    (hrow : o.cfc[if o.deriv = 1 then o.order / 2 - 1 else 25 + (o.order / 2 - 1)]? = some cf)
    (hcf : o.order / 2 < cf.length) (hwide : o.order ≤ a.n)
    (hin : inp.length = prodL o.sizes) (hout : out.length = prodL o.sizes) :
    ∃ res, diffDim o inp out dim acc = some res ∧ res.length = out.length ∧
      ∀ cs i, Valid cs o.sizes → cs[dim]? = some i →
        res[place cs o.sizes]? = some (
          (if acc then out.getD (place cs o.sizes) 0 else 0) +
          o.pfac1 * f / ((a.xmax - a.xmin) / ((a.n : K) - 1)) ^ o.deriv *
            central (o.order / 2) (fun m => cf.getD (o.order / 2 - m) 0)
              (if o.deriv = 1 then -1 else 1)
              (extend o.pbc a.n (fun y => inp.getD (place (cs.set dim y) o.sizes) 0)) i) := by
  have hn : o.sizes[dim]? = some a.n := by simp [Hofd.sizes, ha]
  obtain ⟨hord, hder⟩ : (o.order % 2 = 0 ∧ 2 ≤ o.order ∧ o.order ≤ 50) ∧
      (o.deriv = 1 ∨ o.deriv = 2) := by
    simp only [checkSetup, Bool.and_eq_true, Bool.not_eq_true', Bool.or_eq_false_iff,
      decide_eq_false_iff_not] at hs
    obtain ⟨⟨⟨h1, h2⟩, h3⟩, h4, h5⟩ := hs
    have h2' : (o.order : Int).tmod 2 = 0 := by
      by_cases e : (o.order : Int).tmod 2 = 0
      · exact e
      · exact absurd e h2
    have e : (o.order : Int).tmod 2 = ((o.order % 2 : Nat) : Int) := rfl
    rw [e] at h2'
    exact ⟨⟨by omega, by omega, by omega⟩, by omega⟩
  have hrow' : o.row = some cf := by
    unfold Hofd.row
    rw [← hrow]
    congr 1
    rcases hder with h | h <;> rw [h] <;> simp <;> omega
  have hh : o.h dim = some (1 / a.dx ^ o.deriv * o.pfac1 * f) := by
    simp [Hofd.h, ha, hf]
  have hdf : o.df = (if o.deriv = 1 then -1 else 1 : K) := by
    unfold Hofd.df
    rcases hder with h | h <;> simp [h]
  obtain ⟨g, hg, hp⟩ := hofd_grid o dim a.n hn
  obtain ⟨n', hn', _, hact, hlo, hno⟩ := prepared_spec hp
  rw [hn] at hn'
  have hnn : n' = a.n := by simpa using hn'.symm
  subst hnn
  let lo := lowOthersOf o.sizes dim
  let n := a.n
  let hfac : K := 1 / a.dx ^ o.deriv * o.pfac1 * f
  let c : Nat → K := fun m => cf.getD (o.order / 2 - m) 0
  let line (r : Nat) : Line K :=
    ⟨((r / lo * n * lo + r % lo : Nat) : Int), cf, n, lo, o.order / 2, hfac, o.df, acc, o.pbc⟩
  let G : Nat → K → K := fun q =>
    put acc (hfac * central (o.order / 2) c o.df (extend o.pbc n (lineOf inp lo n q))
      ((q / lo % n : Nat) : Int))
  have haddr : ∀ r (x : Int), 0 ≤ x → (line r).addr x = formula lo n x.toNat r := by
    intro r x hx
    unfold Line.addr formula
    obtain ⟨k, rfl⟩ := Int.eq_ofNat_of_zero_le hx
    have : ((r / lo * n * lo + r % lo : Nat) : Int) + (k : Int) * (lo : Int) =
      ((r / lo * n * lo + r % lo + k * lo : Nat) : Int) := by push_cast; rfl
    show (((r / lo * n * lo + r % lo : Nat) : Int) + (k : Int) * (lo : Int)).toNat = _
    rw [this]; rfl
  have hgood : ∀ r, r < numOthersOf o.sizes dim → Good (line r) inp (prodL o.sizes) c
      (extend o.pbc n (fun y => inp.getD (formula lo n y r) 0)) := by
    intro r hr
    have hb : ∀ k, k < n → ((r / lo * n * lo + r % lo : Nat) : Int) + (k : Int) * (lo : Int) =
        ((formula lo n k r : Nat) : Int) ∧ formula lo n k r < prodL o.sizes := by
      intro k hk
      obtain ⟨cs, h1, h2, h3, h4, h5⟩ := formula_coords o.sizes dim n r k hn hr hk
      refine ⟨by unfold formula; push_cast; rfl, ?_⟩
      show formula (lowOthersOf o.sizes dim) n k r < _
      rw [h4]; exact place_lt h1
    have hn0 : 0 < n := by have := hord.2.1; show 0 < a.n; omega
    have hlo0 : 0 < lo := by
      obtain ⟨_, _, _, _, _, h⟩ := formula_coords o.sizes dim n r 0 hn hr hn0
      exact h
    constructor
    · exact Int.natCast_nonneg _
    · exact hlo0
    · show 2 * (o.order / 2) ≤ a.n
      omega
    · intro m hm
      have hm' : m ≤ o.order / 2 := hm
      show rd cf (((o.order / 2 : Nat) : Int) - m) = some (cf.getD (o.order / 2 - m) 0)
      have : (((o.order / 2 : Nat) : Int) - m) = ((o.order / 2 - m : Nat) : Int) := by omega
      rw [this]
      exact rd_lt cf _ (by omega) 0
    · intro x h0 h1
      obtain ⟨k, rfl⟩ := Int.eq_ofNat_of_zero_le h0
      have h1' : k < n := by
        have : (k : Int) < (a.n : Int) := h1
        show k < a.n
        omega
      obtain ⟨e1, e2⟩ := hb k h1'
      show rd inp (((r / lo * n * lo + r % lo : Nat) : Int) + (k : Int) * (lo : Int)) = _
      rw [e1, rd_lt inp _ (by omega) 0]
      unfold extend
      rw [if_pos ⟨h0, h1⟩]
      rfl
    · intro x h0 h1
      obtain ⟨k, rfl⟩ := Int.eq_ofNat_of_zero_le h0
      have h1' : k < n := by
        have : (k : Int) < (a.n : Int) := h1
        show k < a.n
        omega
      obtain ⟨e1, e2⟩ := hb k h1'
      show ((r / lo * n * lo + r % lo : Nat) : Int) + (k : Int) * (lo : Int) < _
      rw [e1]
      exact_mod_cast e2
    · intro x h0 h1
      have h0' : - ((o.order / 2 : Nat) : Int) ≤ x := h0
      have hw : ((o.order / 2 : Nat) : Int) ≤ (n : Int) := by
        have : o.order / 2 ≤ a.n := by omega
        exact_mod_cast this
      show extend o.pbc n _ x = if o.pbc then extend o.pbc n _ (x + (n : Int)) else 0
      unfold extend
      rw [if_neg (by omega), if_pos (by omega : 0 ≤ x + (n : Int) ∧ x + (n : Int) < n)]
      congr 2
      rw [← Int.emod_eq_of_lt (a := x + n) (b := n) (by omega) (by omega), Int.add_emod_right]
    · intro x h0 h1
      have h0' : (n : Int) ≤ x := h0
      have h1' : x < (n : Int) + ((o.order / 2 : Nat) : Int) := h1
      have hw : ((o.order / 2 : Nat) : Int) ≤ (n : Int) := by
        have : o.order / 2 ≤ a.n := by omega
        exact_mod_cast this
      show extend o.pbc n _ x = if o.pbc then extend o.pbc n _ (x - (n : Int)) else 0
      unfold extend
      rw [if_neg (by omega), if_pos (by omega : 0 ≤ x - (n : Int) ∧ x - (n : Int) < n)]
      congr 2
      rw [← Int.emod_eq_of_lt (a := x - n) (b := n) (by omega) (by omega), Int.sub_emod_right]
  have hbody : ∀ r, r < numOthersOf o.sizes dim → ∀ s,
      diffLine g cf (o.order / 2) hfac o.df acc o.pbc inp r s = diffSingleDim (line r) inp s := by
    intro r hr s
    have hn0 : 0 < n := by have := hord.2.1; show 0 < a.n; omega
    obtain ⟨_, _, _, _, _, h⟩ := formula_coords o.sizes dim n r 0 hn hr hn0
    have hib : indexBase g r = some (r / lo * n * lo + r % lo) := by
      unfold indexBase
      simp only [hact, hlo]
      rw [if_neg (by omega)]
    unfold diffLine
    rw [hib, hlo, hact]
  have hacts := lines_acts o.sizes dim n hn
    (fun r => diffLine g cf (o.order / 2) hfac o.df acc o.pbc inp r) G (by
      intro r hr
      refine (diffSingleDim_acts (hgood r hr) G ?_).mono (fun s _ => hbody r hr s) ?_
        (fun _ _ => rfl)
      · intro x h0 h1
        have h1' : x.toNat < n := by
          have : x < (n : Int) := h1
          omega
        rw [haddr r x h0]
        obtain ⟨cs, k1, k2, k3, k4, _⟩ := formula_coords o.sizes dim n r x.toNat hn hr h1'
        have hc := coord_of_place o.sizes cs dim _ n k1 k2 hn
        rw [← k4] at hc
        show put acc (hfac * central (o.order / 2) c o.df
          (extend o.pbc n (lineOf inp lo n (formula lo n x.toNat r)))
          ((formula lo n x.toNat r / lo % n : Nat) : Int)) = _
        rw [lineOf_formula inp o.sizes dim n r x.toNat hn hr h1', hc, Int.toNat_of_nonneg h0]
        rfl
      · intro q
        constructor
        · rintro ⟨x, hx, rfl⟩
          exact ⟨(x : Int), by omega, by
            show (x : Int) < (n : Int)
            omega, by rw [haddr r _ (by omega)]; rfl⟩
        · rintro ⟨x, h0, h1, e⟩
          have h1' : x < (n : Int) := h1
          exact ⟨x.toNat, by omega, by rw [e, haddr r x h0]⟩)
  obtain ⟨res, h1, h2, h3, _⟩ := hacts out hout
  refine ⟨res, ?_, by omega, ?_⟩
  · unfold diffDim
    rw [hh, hrow', hg]
    simp only [hno]
    exact h1
  · intro cs i hcs hi
    have hlt := place_lt hcs
    have hc := coord_of_place o.sizes cs dim i n hcs hi hn
    rw [h3 _ hlt, List.getElem?_eq_getElem (by omega), Option.map_some]
    congr 1
    show put acc (hfac * central (o.order / 2) c o.df
      (extend o.pbc n (lineOf inp lo n (place cs o.sizes)))
      ((place cs o.sizes / lo % n : Nat) : Int)) _ = _
    rw [hc]
    have hline : extend o.pbc n (lineOf inp lo n (place cs o.sizes)) =
        extend o.pbc n (fun y => inp.getD (place (cs.set dim y) o.sizes) 0) := by
      have hin' : ∀ y, y < n → lineOf inp lo n (place cs o.sizes) y =
          inp.getD (place (cs.set dim y) o.sizes) 0 := by
        intro y hy
        obtain ⟨_, e⟩ := valid_set o.sizes cs dim i n y hcs hi hn hy
        unfold lineOf
        rw [hc]
        congr 1
        have hle : i * lo ≤ place cs o.sizes := by
          have := (formula_place o.sizes cs dim i n hcs hi hn).2.2
          show i * lowOthersOf o.sizes dim ≤ _
          omega
        show place cs o.sizes - i * lowOthersOf o.sizes dim + y * lowOthersOf o.sizes dim = _
        have hle' : i * lowOthersOf o.sizes dim ≤ place cs o.sizes := hle
        omega
      have hn0 : 0 < n := by have := hord.2.1; show 0 < a.n; omega
      funext x
      unfold extend
      by_cases e : 0 ≤ x ∧ x < (n : Int)
      · rw [if_pos e, if_pos e]; exact hin' _ (by omega)
      · rw [if_neg e, if_neg e]
        by_cases e' : o.pbc = true
        · rw [if_pos e', if_pos e']
          apply hin'
          have h1 := Int.emod_nonneg x (b := (n : Int)) (by omega)
          have h2 := Int.emod_lt_of_pos x (b := (n : Int)) (by omega)
          omega
        · rw [if_neg e', if_neg e']
    rw [hline, hdf]
    have hfe : hfac = o.pfac1 * f / ((a.xmax - a.xmin) / ((a.n : K) - 1)) ^ o.deriv := by
      show 1 / a.dx ^ o.deriv * o.pfac1 * f = _
      unfold Axis.dx
      rw [div_eq_mul_inv, div_eq_mul_inv (o.pfac1 * f)]
      ring
    rw [hfe]
    unfold put
    cases acc
    · simp only [Bool.false_eq_true, if_false, zero_add]; rfl
    · have e : out.getD (place cs o.sizes) 0 = out[place cs o.sizes]'(by omega) := by
        simp [List.getElem?_eq_getElem (show place cs o.sizes < out.length by omega)]
      simp only [if_true]
      rw [e]

/-- C35: an operator can be set up exactly for even orders from 2 to 50 and the first and second
derivative. -/
theorem C35_setup (deriv order : Int) : checkSetup deriv order = true ↔
    (deriv = 1 ∨ deriv = 2) ∧ 2 ≤ order ∧ order ≤ 50 ∧ ∃ k, order = 2 * k := by
  simp only [checkSetup, Bool.and_eq_true, Bool.not_eq_true', Bool.or_eq_false_iff,
    decide_eq_false_iff_not]
  constructor
  · rintro ⟨⟨⟨h1, h2⟩, h3⟩, h4, h5⟩
    refine ⟨by omega, by omega, by omega, order.tdiv 2, ?_⟩
    have h2' : order.tmod 2 = 0 := by
      by_cases e : order.tmod 2 = 0
      · exact e
      · exact absurd e h2
    have := Int.mul_tdiv_add_tmod order 2
    omega
  · rintro ⟨h1, h2, h3, k, rfl⟩
    exact ⟨⟨⟨by omega, by simp⟩, by omega⟩, by omega, by omega⟩

/-- An operator that meets the hypotheses of C35: second derivative of order 4 along the second
dimension of a grid of 2 times 5 points, with periodic boundaries. -/
def exampleOp : Hofd ℚ :=
  ⟨2, 4, true, List.replicate 26 [] ++ [[-1 / 12, 4 / 3, -5 / 2]], 1, [1, 2], [⟨2, 0, 1⟩, ⟨5, 0, 4⟩]⟩

example : checkSetup exampleOp.deriv exampleOp.order = true ∧
    exampleOp.axes[1]? = some ⟨5, 0, 4⟩ ∧ exampleOp.pfac[1]? = some 2 ∧
    exampleOp.cfc[if exampleOp.deriv = 1 then exampleOp.order / 2 - 1
      else 25 + (exampleOp.order / 2 - 1)]? = some [-1 / 12, 4 / 3, -5 / 2] ∧
    exampleOp.order ≤ 5 ∧
    diffDim exampleOp [1, 0, 4, 0, 9, 0, 16, 0, 25, 1] (List.replicate 10 0) 1 false =
      some [409 / 6, 8 / 3, -1 / 6, -1 / 6, 4, -1 / 6, 59 / 6, 8 / 3, -491 / 6, -5] := by
  refine ⟨by decide +kernel, rfl, rfl, rfl, by decide +kernel, ?_⟩
  decide +kernel

/-- C35 needs the width of the grid: with fewer points than the order the call reads outside of the
array. -/
theorem C35_narrow :
    diffDim (⟨2, 4, false, List.replicate 26 [] ++ [[-1 / 12, 4 / 3, -5 / 2]], 1, [1],
      [⟨2, 0, 1⟩]⟩ : Hofd ℚ) [1, 2] [0, 0] 0 false = none := by
  decide +kernel

/-! ### C58 -/

/-- One multiplication at an address. -/
theorem wr_mul {K : Type} [Mul K] (q : Nat) (z : Int) (hz : z = q) (f : K) (s : List K)
    (hq : q < s.length) :
    ∃ s', wr z (fun x => x * f) s = some s' ∧ s'.length = s.length ∧
      ∀ j, s'[j]? = if j = q then (s[j]?).map (fun x => x * f) else s[j]? := by
  subst hz
  obtain ⟨s', h1, h2, h3, h4⟩ := acts_upd (L := s.length) (fun x => x * f) (fun _ x => x * f) hq rfl
    s rfl
  refine ⟨s', by rw [wr_nat _ (by omega)]; exact h1, h2, ?_⟩
  intro j
  by_cases e : j = q
  · rw [if_pos e]; exact h3 j e
  · rw [if_neg e]; exact h4 j e

/-- The loop over the layer of one line. -/
theorem layer_line {K : Type} [CommMonoid K] (conj : K → K) (p : Pml K) (cj : Bool)
    (b n lo L : Nat) (hlo : 0 < lo) (hroom : ∀ x, x < n → b + x * lo < L) (f : Nat → K)
    (hf : ∀ i, i < p.thick → (p.f1[i]?).map (fun y => if cj then conj y else y) = some (f i))
    (hthick : p.thick ≤ n) (hside : p.side = 1 ∨ p.side = 2 ∨ p.side = 3) (s0 : List K)
    (hs0 : s0.length = L) :
    ∃ s, loop p.thick (layerStep conj p cj b n lo) s0 = some s ∧ s.length = L ∧
      (∀ x, x < n → s[b + x * lo]? = (s0[b + x * lo]?).map (fun v => v * layerFactor p.thick n f
        (decide (p.side = 1 ∨ p.side = 3)) (decide (p.side = 2 ∨ p.side = 3)) x)) ∧
      (∀ q, (∀ x, x < n → q ≠ b + x * lo) → s[q]? = s0[q]?) := by
  have hinj : ∀ x y, b + x * lo = b + y * lo → x = y := by
    intro x y e
    exact Nat.eq_of_mul_eq_mul_right hlo (by omega)
  let bb := decide (p.side = 1 ∨ p.side = 3)
  let ee := decide (p.side = 2 ∨ p.side = 3)
  have key := loop_inv p.thick (layerStep conj p cj b n lo)
    (fun k s => s.length = L ∧
      (∀ x, x < n → s[b + x * lo]? = (s0[b + x * lo]?).map (fun v => v * layerFactor k n f bb ee x)) ∧
      (∀ q, (∀ x, x < n → q ≠ b + x * lo) → s[q]? = s0[q]?)) s0
    ⟨hs0, by
      intro x hx
      simp only [layerFactor, Nat.not_lt_zero, and_false, if_false, mul_one]
      simp, fun q _ => rfl⟩ (by
    rintro k hk s ⟨h1, h2, h3⟩
    have hfk := hf k hk
    cases hv : p.f1[k]? with
    | none => rw [hv] at hfk; simp at hfk
    | some f0 =>
      rw [hv] at hfk
      simp only [Option.map_some, Option.some.injEq] at hfk
      have hA : ∀ t : List K, t.length = L → ∃ t', wr ((b : Int) + (k : Int) * lo) (fun x => x * f k) t
          = some t' ∧ t'.length = L ∧ ∀ j, t'[j]? = if j = b + k * lo then
            (t[j]?).map (fun x => x * f k) else t[j]? := by
        intro t ht
        obtain ⟨t', a1, a2, a3⟩ := wr_mul (b + k * lo) ((b : Int) + (k : Int) * lo) (by push_cast; rfl)
          (f k) t (by rw [ht]; exact hroom k (by omega))
        exact ⟨t', a1, by omega, a3⟩
      have hB : ∀ t : List K, t.length = L → ∃ t',
          wr ((b : Int) + ((n : Int) - 1) * lo - (k : Int) * lo) (fun x => x * f k) t
          = some t' ∧ t'.length = L ∧ ∀ j, t'[j]? = if j = b + (n - 1 - k) * lo then
            (t[j]?).map (fun x => x * f k) else t[j]? := by
        intro t ht
        obtain ⟨t', a1, a2, a3⟩ := wr_mul (b + (n - 1 - k) * lo)
          ((b : Int) + ((n : Int) - 1) * lo - (k : Int) * lo) (by
            have : ((n - 1 - k : Nat) : Int) = (n : Int) - 1 - k := by omega
            push_cast
            rw [this]; ring) (f k) t (by rw [ht]; exact hroom _ (by omega))
        exact ⟨t', a1, by omega, a3⟩
      have hstep : layerStep conj p cj b n lo k s =
          if p.side = 1 then wr ((b : Int) + (k : Int) * lo) (fun x => x * f k) s
          else if p.side = 2 then wr ((b : Int) + ((n : Int) - 1) * lo - (k : Int) * lo) (fun x => x * f k) s
          else (wr ((b : Int) + (k : Int) * lo) (fun x => x * f k) s).bind
            (wr ((b : Int) + ((n : Int) - 1) * lo - (k : Int) * lo) (fun x => x * f k)) := by
        unfold layerStep
        rw [hv]
        simp only [hfk]
      rw [hstep]
      have hend : ∀ x, x < n → (x = n - 1 - k ↔ n - 1 - x = k) := by
        intro x hx; omega
      rcases hside with hs | hs | hs
      · obtain ⟨t, a1, a2, a3⟩ := hA s h1
        refine ⟨t, by rw [if_pos hs]; exact a1, a2, ?_, ?_⟩
        · intro x hx
          rw [a3, h2 x hx]
          have eb : bb = true := by simp [bb, hs]
          have e2 : ee = false := by simp [ee, hs]
          by_cases e : x = k
          · subst e
            rw [if_pos rfl, Option.map_map]
            congr 1; funext v
            simp [layerFactor, eb, e2]
          · rw [if_neg (fun h => e (hinj _ _ h))]
            congr 1; funext v
            have : (x < k + 1) ↔ (x < k) := by omega
            simp [layerFactor, eb, e2, this]
        · intro q hq
          rw [a3, if_neg (hq k (by omega)), h3 q hq]
      · obtain ⟨t, a1, a2, a3⟩ := hB s h1
        refine ⟨t, by rw [if_neg (by omega), if_pos hs]; exact a1, a2, ?_, ?_⟩
        · intro x hx
          rw [a3, h2 x hx]
          have eb : bb = false := by simp [bb, hs]
          have e2 : ee = true := by simp [ee, hs]
          by_cases e : n - 1 - x = k
          · rw [if_pos (by rw [(hend x hx).2 e]), Option.map_map]
            congr 1; funext v
            simp [layerFactor, eb, e2, e]
          · rw [if_neg (fun h => e ((hend x hx).1 (hinj _ _ h)))]
            congr 1; funext v
            have : (n - 1 - x < k + 1) ↔ (n - 1 - x < k) := by omega
            simp [layerFactor, eb, e2, this]
        · intro q hq
          rw [a3, if_neg (hq _ (by omega)), h3 q hq]
      · obtain ⟨t, a1, a2, a3⟩ := hA s h1
        obtain ⟨u, c1, c2, c3⟩ := hB t a2
        refine ⟨u, by rw [if_neg (by omega), if_neg (by omega), a1]; exact c1, c2, ?_, ?_⟩
        · intro x hx
          rw [c3, a3, h2 x hx]
          have eb : bb = true := by simp [bb, hs]
          have e2 : ee = true := by simp [ee, hs]
          by_cases e : x = k
          · subst e
            rw [if_pos (rfl : b + x * lo = b + x * lo)]
            by_cases e' : n - 1 - x = x
            · rw [if_pos (by rw [e']), Option.map_map, Option.map_map]
              congr 1; funext v
              simp [layerFactor, eb, e2, e', mul_assoc]
            · rw [if_neg (fun h => e' (hinj _ _ h).symm), Option.map_map]
              congr 1; funext v
              have : (n - 1 - x < x + 1) ↔ (n - 1 - x < x) := by omega
              simp only [layerFactor, eb, e2, this, Function.comp, true_and]
              rw [if_neg (show ¬ x < x by omega), if_pos (show x < x + 1 by omega), one_mul, mul_assoc,
                mul_comm (f x)]
          · have t1 : (x < k + 1) ↔ (x < k) := by omega
            rw [if_neg (show ¬ b + x * lo = b + k * lo from fun h => e (hinj _ _ h))]
            by_cases e' : n - 1 - x = k
            · rw [if_pos (by rw [(hend x hx).2 e']), Option.map_map]
              congr 1; funext v
              simp [layerFactor, eb, e2, e', t1, mul_assoc]
            · rw [if_neg (fun h => e' ((hend x hx).1 (hinj _ _ h)))]
              congr 1; funext v
              have t2 : (n - 1 - x < k + 1) ↔ (n - 1 - x < k) := by omega
              simp [layerFactor, eb, e2, t1, t2]
        · intro q hq
          rw [c3, a3, if_neg (hq _ (by omega)), if_neg (hq k (by omega)), h3 q hq])
  exact key

/-- C58: for a thickness of at most the size of the grid and a side selection of 1 (begin),
2 (end) or 3 (both), each point is multiplied with the factor of its distance from the begin of the
line if it lies in the layer at the begin, and with the factor of its distance from the end if it
lies in the layer at the end (both, if the layers overlap); all lines are treated alike, points
outside of the layers are unchanged, and nothing outside of the array is touched. -/
theorem C58_transform {K : Type} [CommMonoid K] (conj : K → K) (p : Pml K) (sizes : List Nat)
    (psi : List K) (cj : Bool) (n : Nat) (hn : sizes[p.dim]? = some n) (hthick : p.thick ≤ n)
    (hf1 : p.thick ≤ p.f1.length) (hside : p.side = 1 ∨ p.side = 2 ∨ p.side = 3)
    (hpsi : psi.length = prodL sizes) :
    ∃ res, applyTransform conj p sizes psi cj = some res ∧ res.length = psi.length ∧
      ∀ cs x, Valid cs sizes → cs[p.dim]? = some x →
        res[place cs sizes]? = (psi[place cs sizes]?).map (fun v => v * layerFactor p.thick n
          (fun i => if cj then conj (p.f1.getD i 1) else p.f1.getD i 1)
          (decide (p.side = 1 ∨ p.side = 3)) (decide (p.side = 2 ∨ p.side = 3)) x) := by
  let lo := lowOthersOf sizes p.dim
  have hact : activeDim (assign { sizes := [] } { sizes := sizes }) p.dim =
      some { assign { sizes := [] } { sizes := sizes } with active := some (p.dim, n) } := by
    unfold activeDim
    show (match sizes[p.dim]? with | none => none | some n => some _) = _
    rw [hn]
  generalize hg : ({ assign { sizes := [] } { sizes := sizes } with active := some (p.dim, n) } :
    GridSys) = g at hact
  have hp : Prepared g sizes p.dim := ⟨{ sizes := [] }, { sizes := sizes }, rfl, hact⟩
  obtain ⟨n', hn', _, hac, hlo, hno⟩ := prepared_spec hp
  rw [hn] at hn'
  have hnn : n' = n := by simpa using hn'.symm
  subst hnn
  let F : Nat → K := layerFactor p.thick n'
    (fun i => if cj then conj (p.f1.getD i 1) else p.f1.getD i 1)
    (decide (p.side = 1 ∨ p.side = 3)) (decide (p.side = 2 ∨ p.side = 3))
  rcases Nat.eq_zero_or_pos n' with hn0 | hn0
  · -- no points at all
    have hz : prodL sizes = 0 := by
      obtain ⟨pre, post, e, _⟩ := split_at sizes p.dim n' hn
      rw [e, prodL_append, hn0]; simp [prodL]
    have ht : p.thick = 0 := by omega
    have hnil : psi = [] := List.eq_nil_of_length_eq_zero (by omega)
    have hloop : ∀ r s, pmlLine conj p cj g r s = some s ∨ pmlLine conj p cj g r s = none := by
      intro r s
      unfold pmlLine
      rw [hlo, hac]
      cases indexBase g r with
      | none => exact Or.inr rfl
      | some b => left; show loop p.thick _ s = some s; rw [ht]; rfl
    have hpos : numOthersOf sizes p.dim = 0 ∨ 0 < lo := by
      rcases Nat.eq_zero_or_pos lo with h | h
      · left
        have hd := getElem?_lt hn
        rw [numOthersOf_eq _ _ hd]
        have : lo = prodL (sizes.take p.dim) := lowOthersOf_eq sizes p.dim (by omega)
        rw [List.eraseIdx_eq_take_drop_succ, prodL_append, ← this, h, Nat.zero_mul]
      · exact Or.inr h
    have hall : ∀ m s, m ≤ numOthersOf sizes p.dim → loop m (pmlLine conj p cj g) s = some s := by
      intro m
      induction m with
      | zero => intro s _; rfl
      | succ m ih =>
        intro s hm
        simp only [loop]
        rw [ih s (by omega), Option.bind_some]
        have hlo0 : 0 < lo := by rcases hpos with h | h <;> omega
        have hib : indexBase g m = some (m / lo * n' * lo + m % lo) := by
          unfold indexBase
          simp only [hac, hlo]
          rw [if_neg (by show ¬ lo = 0; omega)]
        rcases hloop m s with h | h
        · exact h
        · unfold pmlLine at h
          rw [hib, hlo, hac] at h
          exfalso
          have h' : loop p.thick (layerStep conj p cj _ n' lo) s = none := h
          rw [ht] at h'
          simp [loop] at h'
    refine ⟨psi, ?_, rfl, ?_⟩
    · unfold applyTransform
      rw [hact]
      simp only [hno]
      exact hall _ _ (Nat.le_refl _)
    · intro cs x hcs _
      have := place_lt hcs
      omega
  · have hacts := lines_acts sizes p.dim n' hn (pmlLine conj p cj g)
      (fun q v => v * F (q / lo % n')) (by
        intro r hr s hs
        obtain ⟨_, _, _, _, _, hlo0⟩ := formula_coords sizes p.dim n' r 0 hn hr hn0
        have hib : indexBase g r = some (r / lo * n' * lo + r % lo) := by
          unfold indexBase
          simp only [hac, hlo]
          rw [if_neg (by show ¬ lo = 0; show ¬ lowOthersOf sizes p.dim = 0; omega)]
        obtain ⟨s', k1, k2, k3, k4⟩ := layer_line conj p cj (r / lo * n' * lo + r % lo) n' lo
          (prodL sizes) hlo0 (by
            intro x hx
            obtain ⟨cs, h1, _, _, h4, _⟩ := formula_coords sizes p.dim n' r x hn hr hx
            have : r / lo * n' * lo + r % lo + x * lo = place cs sizes := h4
            rw [this]; exact place_lt h1)
          (fun i => if cj then conj (p.f1.getD i 1) else p.f1.getD i 1) (by
            intro i hi
            rw [List.getElem?_eq_getElem (by omega)]
            simp [List.getElem?_eq_getElem (show i < p.f1.length by omega)]) hthick hside s hs
        refine ⟨s', ?_, k2, ?_, ?_⟩
        · unfold pmlLine
          rw [hib, hlo, hac]
          exact k1
        · rintro q ⟨x, hx, rfl⟩
          obtain ⟨cs, h1, h2, _, h4, _⟩ := formula_coords sizes p.dim n' r x hn hr hx
          have hc := coord_of_place sizes cs p.dim x n' h1 h2 hn
          rw [← h4] at hc
          have := k3 x hx
          show s'[formula lo n' x r]? = Option.map
            (fun v => v * F (formula (lowOthersOf sizes p.dim) n' x r / lo % n')) _
          rw [show formula (lowOthersOf sizes p.dim) n' x r / lo % n' = x from hc]
          exact this
        · intro q hq
          exact k4 q (fun x hx e => hq ⟨x, hx, e⟩))
    obtain ⟨res, h1, h2, h3, _⟩ := hacts psi hpsi
    refine ⟨res, ?_, by omega, ?_⟩
    · unfold applyTransform
      rw [hact]
      simp only [hno]
      exact h1
    · intro cs x hcs hx
      rw [h3 _ (place_lt hcs)]
      congr 1
      funext v
      show v * F (place cs sizes / lowOthersOf sizes p.dim % n') = _
      rw [coord_of_place sizes cs p.dim x n' hcs hx hn]

/-- C58: the points further from both ends than the thickness have the factor one. -/
theorem C58_interior {K : Type} [CommMonoid K] (thick n : Nat) (f : Nat → K) (b e : Bool) (x : Nat)
    (h1 : thick ≤ x) (h2 : x + thick < n) : layerFactor thick n f b e x = 1 := by
  unfold layerFactor
  rw [if_neg (by omega), if_neg (by omega), one_mul]

/-- C58: the two layers are mirror images. -/
theorem C58_symmetric {K : Type} [CommMonoid K] (thick n : Nat) (f : Nat → K) (b e : Bool) (x : Nat)
    (hx : x < n) : layerFactor thick n f b e (n - 1 - x) = layerFactor thick n f e b x := by
  unfold layerFactor
  rw [show n - 1 - (n - 1 - x) = x by omega, mul_comm]

/-- C58 is violated: the documented selection "0 = none" activates both layers. -/
theorem C58_violated_none :
    applyTransform (fun x : Int => x) ⟨0, 1, 0, [7]⟩ [3] [1, 1, 1] false = some [7, 1, 7] := by
  rfl

/-- C58 is violated: with the default thickness (no parameter given) the layer of 10 points is
accepted for a grid of 4 points, and the transform leaves the array. -/
theorem C58_violated_thickness (f : List Int) (hf : f.length = 10) :
    pmlInit none none 0 4 = .value (3, 10) ∧
    applyTransform (fun x : Int => x) ⟨0, 10, 3, f⟩ [4] [1, 1, 1, 1] false = none := by
  refine ⟨rfl, ?_⟩
  match f, hf with
  | [a, b, c, d, e, g, h, i, j, k], _ => rfl

/-- C58: a thickness that is given is accepted only if it does not exceed the grid. -/
theorem C58_thickness_checked (lmap : Option (List Int)) (t : List Int) (dim nx : Nat) (s w : Int)
    (h : pmlInit lmap (some t) dim nx = .value (s, w)) : w ≤ nx ∧ 0 ≤ s ∧ s ≤ 3 := by
  unfold pmlInit at h
  cases lmap with
  | none =>
    simp only at h
    cases hp : pick t dim with
    | value v =>
      rw [hp] at h
      simp only at h
      split at h
      · simp at h
      · simp only [Par.value.injEq, Prod.mk.injEq] at h
        omega
    | throws => rw [hp] at h; simp at h
    | ub => rw [hp] at h; simp at h
  | some l =>
    simp only at h
    cases hl : pick l dim with
    | throws => rw [hl] at h; simp at h
    | ub => rw [hl] at h; simp at h
    | value s' =>
      rw [hl] at h
      simp only at h
      by_cases hs : s' < 0 ∨ s' > 3
      · rw [if_pos hs] at h; simp at h
      · rw [if_neg hs] at h
        simp only at h
        cases hp : pick t dim with
        | value v =>
          rw [hp] at h
          simp only at h
          split at h
          · simp at h
          · simp only [Par.value.injEq, Prod.mk.injEq] at h
            omega
        | throws => rw [hp] at h; simp at h
        | ub => rw [hp] at h; simp at h

/-- C58: one value is used for every dimension, one value per dimension for that dimension. -/
theorem C58_parameters {A : Type} (val : List A) (dim : Nat) (x : A) :
    (val = [x] → pick val dim = .value x) ∧
    (val.length ≠ 1 → dim < val.length → val[dim]? = some x → pick val dim = .value x) ∧
    (val.length ≠ 1 → val.length < dim → pick val dim = .throws) := by
  refine ⟨?_, ?_, ?_⟩
  · rintro rfl; simp [pick]
  · intro h1 h2 h3
    unfold pick
    rw [if_neg (by omega), if_neg h1, h3]
  · intro h1 h2
    unfold pick
    rw [if_pos ⟨h1, h2⟩]

/-- C58 is violated: values for two dimensions are read out of bounds for the third dimension
instead of being rejected. -/
theorem C58_violated_parameters {A : Type} (x y : A) : pick [x, y] 2 = .ub := rfl

/-- A layer of two points at both ends of the first dimension of a grid of 3 times 2 points meets
the hypotheses of C58; the layers overlap in the middle. -/
example : ([3, 2] : List Nat)[0]? = some 3 ∧ 2 ≤ 3 ∧
    applyTransform (fun x : Int => x) ⟨0, 2, 3, [2, 3]⟩ [3, 2] [1, 1, 1, 1, 1, 1] false =
      some [2, 9, 2, 2, 9, 2] := ⟨rfl, by decide, rfl⟩

/-! ### C68 -/

theorem extend_periodic {K : Type} [Zero K] (n : Nat) (hn : 0 < n) (line : Nat → K) (x : Int) :
    extend true n line x = line (x % n).toNat := by
  unfold extend
  by_cases h : 0 ≤ x ∧ x < n
  · rw [if_pos h, Int.emod_eq_of_lt h.1 h.2]
  · rw [if_neg h, if_pos rfl]

theorem rd_mod {K : Type} [Zero K] (inp : List K) (n : Nat) (hn : 0 < n) (hin : inp.length = n)
    (x : Int) (hx : 0 ≤ x) : rd inp (x.tmod n) = some (inp.getD (x % n).toNat 0) := by
  rw [Int.tmod_eq_emod_of_nonneg hx]
  have h1 := Int.emod_nonneg x (b := (n : Int)) (by omega)
  have h2 := Int.emod_lt_of_pos x (b := (n : Int)) (by omega)
  obtain ⟨k, hk⟩ := Int.eq_ofNat_of_zero_le h1
  rw [hk]
  exact rd_lt inp k (by omega) 0

/-- C68, for one dimension with periodic boundaries: the derivative along all dimensions is the
stencil with wrapped neighbours.  Missing: open boundaries and more than one dimension, where the
code is wrong (`C68_violated_open`, `C68_violated_dims`). -/
theorem C68_periodic_partial {K : Type} [Field K] (o : Hofd K) (inp out : List K) (acc : Bool)
    (a : Axis K) (f : K) (cf : List K) (hs : checkSetup o.deriv o.order = true)
    (ha : o.axes = [a]) (hf : o.pfac[0]? = some f) (hpbc : o.pbc = true)
    (hrow : o.cfc[if o.deriv = 1 then o.order / 2 - 1 else 25 + (o.order / 2 - 1)]? = some cf)
    (hcf : o.order / 2 < cf.length) (hwide : o.order ≤ 2 * a.n)
    (hin : inp.length = a.n) (hout : out.length = a.n) :
    ∃ res, diffAll o inp out acc = some res ∧ res.length = a.n ∧
      ∀ i, i < a.n → res[i]? = some (
          (if acc then out.getD i 0 else 0) +
          o.pfac1 * f / ((a.xmax - a.xmin) / ((a.n : K) - 1)) ^ o.deriv *
            central (o.order / 2) (fun m => cf.getD (o.order / 2 - m) 0)
              (if o.deriv = 1 then -1 else 1)
              (extend true a.n (fun y => inp.getD y 0)) i) := by
  obtain ⟨hder, hord1, hord2, k, hk⟩ := (C35_setup o.deriv o.order).1 hs
  have hder' : o.deriv = 1 ∨ o.deriv = 2 := by omega
  have hrow' : o.row = some cf := by
    unfold Hofd.row
    rw [← hrow]
    congr 1
    rcases hder' with h | h <;> rw [h] <;> simp <;> omega
  have hdf : o.df = (if o.deriv = 1 then -1 else 1 : K) := by
    unfold Hofd.df
    rcases hder' with h | h <;> simp [h]
  have hn0 : 0 < a.n := by omega
  let h : K := 1 / a.dx ^ o.deriv * o.pfac1 * f
  have hdims : o.dims = [⟨1, a.n, h⟩] := by
    unfold Hofd.dims
    rw [ha]
    simp [lowOthersOf, Hofd.h, ha, hf, h]
  have hsize : size o.grid = a.n := by
    unfold Hofd.grid
    rw [ha]
    simp [size, assign, buildInfo]
  let D (i : Nat) : K := central (o.order / 2) (fun m => cf.getD (o.order / 2 - m) 0) o.df
    (extend true a.n (fun y => inp.getD y 0)) i
  let G : Nat → K → K := fun i old => (if acc then old else 0) + h * D i
  have hpoint : ∀ i, i < a.n → ∀ s : List K, s.length = a.n →
      allPoint cf (o.order / 2) o.df o.pbc acc inp o.dims i s = upd i (G i) s := by
    intro i hi s hs'
    have hin' : ∀ t : List K, allDim cf (o.order / 2) o.df o.pbc inp i ⟨1, a.n, h⟩ t =
        upd i (fun old => old + h * D i) t := by
      intro t
      unfold allDim
      rw [if_neg (show ¬ a.n = 0 by omega), rd_lt cf _ hcf 0, rd_lt inp i (by omega) 0]
      simp only [hpbc, if_true]
      rw [loop_sum1 (o.order / 2) _ (fun t => cf.getD (o.order / 2 - (t + 1)) 0 *
        (extend true a.n (fun y => inp.getD y 0) ((i : Int) - (t + 1)) +
         o.df * extend true a.n (fun y => inp.getD y 0) ((i : Int) + (t + 1)))), Option.bind_some]
      · congr 1
        funext old
        congr 2
        show _ = central _ _ _ _ _
        unfold central
        have e0 : extend true a.n (fun y => inp.getD y 0) (i : Int) = inp.getD i 0 := by
          unfold extend
          rw [if_pos (by omega)]; rfl
        rw [e0]
        rfl
      · intro t ht s
        unfold allPbc
        dsimp only
        have e1 : ((o.order / 2 : Nat) : Int) - 1 - t = ((o.order / 2 - (t + 1) : Nat) : Int) := by
          omega
        rw [e1, rd_lt cf _ (by omega) 0,
          rd_mod inp a.n hn0 hin ((i : Int) + ((t : Int) + 1) * ((1 : Nat) : Int)) (by omega),
          rd_mod inp a.n hn0 hin ((a.n : Int) + i - ((t : Int) + 1) * ((1 : Nat) : Int)) (by omega)]
        simp only [Option.some.injEq]
        rw [extend_periodic a.n hn0, extend_periodic a.n hn0]
        have e2 : ((a.n : Int) + i - ((t : Int) + 1) * ((1 : Nat) : Int)) % (a.n : Int) =
            ((i : Int) - (t + 1)) % (a.n : Int) := by
          have : (a.n : Int) + i - ((t : Int) + 1) * ((1 : Nat) : Int) =
            ((i : Int) - (t + 1)) + a.n := by push_cast; ring
          rw [this, Int.add_emod_right]
        have e3 : ((i : Int) + ((t : Int) + 1) * ((1 : Nat) : Int)) = (i : Int) + (t + 1) := by
          push_cast; ring
        rw [e2, e3]
        ring
    have hi' : i < s.length := by omega
    unfold allPoint
    rw [hdims]
    cases hacc : acc
    · simp only [Bool.false_eq_true, if_false]
      have hu : upd i (fun _ => (0 : K)) s = some (s.set i 0) := by
        simp [upd, List.getElem?_eq_getElem hi']
      rw [hu, Option.bind_some]
      show (some (s.set i 0)).bind (fun t => allDim cf (o.order / 2) o.df o.pbc inp i ⟨1, a.n, h⟩ t) = _
      rw [Option.bind_some, hin']
      simp [upd, hi', List.getElem?_eq_getElem hi', G, hacc]
    · simp only [if_true]
      show (some s).bind (fun t => allDim cf (o.order / 2) o.df o.pbc inp i ⟨1, a.n, h⟩ t) = _
      rw [Option.bind_some, hin']
      simp [upd, List.getElem?_eq_getElem hi', G, hacc]
  have hacts := acts_loop (L := a.n) a.n
    (allPoint cf (o.order / 2) o.df o.pbc acc inp o.dims) (fun i q => q = i) G (by
      intro i hi
      exact (acts_upd (G i) G hi rfl).mono (fun s hs => hpoint i hi s hs) (fun _ => Iff.rfl)
        (fun _ _ => rfl)) (by
      intro k k' _ _ q h1 h2
      omega)
  obtain ⟨res, h1, h2, h3, _⟩ := hacts out hout
  refine ⟨res, ?_, h2, ?_⟩
  · unfold diffAll
    rw [hrow', hsize]
    exact h1
  · intro i hi
    rw [h3 i ⟨i, hi, rfl⟩, List.getElem?_eq_getElem (by omega), Option.map_some]
    congr 1
    show (if acc then out[i] else 0) + h * D i = _
    have e1 : out.getD i 0 = out[i]'(by omega) := by
      simp [List.getElem?_eq_getElem (show i < out.length by omega)]
    have hfe : h = o.pfac1 * f / ((a.xmax - a.xmin) / ((a.n : K) - 1)) ^ o.deriv := by
      show 1 / a.dx ^ o.deriv * o.pfac1 * f = _
      unfold Axis.dx
      rw [div_eq_mul_inv, div_eq_mul_inv (o.pfac1 * f)]
      ring
    rw [e1, hfe, ← hdf]

/-- C68 is violated for open boundaries: the value at the right end of the line enters the
derivative at the left end. -/
theorem C68_violated_open :
    let o : Hofd ℚ := ⟨2, 2, false, List.replicate 25 [] ++ [[1, -2]], 1, [1], [⟨4, 0, 3⟩]⟩
    diffAll o [0, 0, 0, 1] [0, 0, 0, 0] false = some [1, 0, 1, -2] ∧
    diffDim o [0, 0, 0, 1] [0, 0, 0, 0] 0 false = some [0, 0, 1, -2] := by
  decide +kernel

/-- C68 is violated for two dimensions, also with periodic boundaries: on a grid of 3 times 3 points
the sum of the derivatives along the two dimensions differs from the derivative along all
dimensions. -/
theorem C68_violated_dims :
    let o : Hofd ℚ := ⟨2, 2, true, List.replicate 25 [] ++ [[1, -2]], 1, [1, 1],
      [⟨3, 0, 2⟩, ⟨3, 0, 2⟩]⟩
    let psi : List ℚ := [0, 0, 0, 0, 1, 0, 0, 0, 0]
    ((diffDim o psi (List.replicate 9 0) 0 false).bind (fun r => diffDim o psi r 1 true)) =
      some [0, 1, 0, 1, -4, 1, 0, 1, 0] ∧
    diffAll o psi (List.replicate 9 0) false = some [0, 0, 0, 0, -4, 0, 0, 0, 0] := by
  decide +kernel

/-- An operator that meets the hypotheses of `C68_periodic_partial`. -/
example : ∃ o : Hofd ℚ, checkSetup o.deriv o.order = true ∧ o.axes = [⟨4, 0, 3⟩] ∧
    o.pfac[0]? = some 1 ∧ o.pbc = true ∧
    o.cfc[if o.deriv = 1 then o.order / 2 - 1 else 25 + (o.order / 2 - 1)]? = some [1, -2] ∧
    o.order ≤ 2 * 4 ∧ diffAll o [0, 0, 0, 1] [0, 0, 0, 0] false = some [1, 0, 1, -2] := by
  refine ⟨⟨2, 2, true, List.replicate 25 [] ++ [[1, -2]], 1, [1], [⟨4, 0, 3⟩]⟩, by decide, rfl,
    rfl, rfl, rfl, by decide, ?_⟩
  decide +kernel

end QDng.Stencil
