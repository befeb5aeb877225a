import Verif.MixDiff.Stripe
import Verif.Stencil.Spec
import Mathlib.Tactic.NormNum

/- The property of the mixed derivative by finite differences. -/

namespace QDng.MixDiff

open QDng.Common QDng.Grid QDng.Stencil

theorem ring_central {K : Type} [CommRing K] (cf : List K) (w N lo : Nat) (f : Nat → K) (g : Int → K) (q : Nat) (i : Int)
    (h0 : f q = g i) (hr : ∀ t, t < w → f ((q + (t + 1) * lo) % N) = g (i + (t + 1)))
    (hl : ∀ t, t < w → f ((N + q - (t + 1) * lo) % N) = g (i - (t + 1))) :
    ring cf w N lo (-1) f q = central w (fun m => cf.getD (w - m) 0) (-1) g i := by
  unfold ring central
  rw [h0]
  congr 1
  refine sumTo_congr _ _ _ ?_
  intro t ht
  have e : w - 1 - t = w - (t + 1) := by omega
  simp only [hr t ht, hl t ht, e]
  ring

/-- The mixed stencil at the point `(x, y)` of a grid with `n1` points in the first dimension, without any factor. -/
def mixedStencil {K : Type} [CommRing K] (w : Nat) (c : Nat → K) (n1 : Nat) (inp : List K) (x y : Nat) : K :=
  central w c (-1) (fun y' => central w c (-1) (fun x' => inp.getD (y'.toNat * n1 + x'.toNat) 0) x) y

theorem target_eq {K : Type} [CommRing K] {p : Par K} {L : Nat} (f : Fits p L) (hdf : p.tab.df = -1) (inp : List K)
    (x y : Nat) (hx1 : p.tab.order2 ≤ x) (hx2 : x + p.tab.order2 < p.n1) (hy1 : p.tab.order2 ≤ y)
    (hy2 : y + p.tab.order2 < p.n2) :
    target p inp (y * p.n1 + x) =
      p.h2 * (p.h1 * mixedStencil p.tab.order2 (fun m => p.tab.cf.getD (p.tab.order2 - m) 0) p.n1 inp x y) := by
  have hx : x < p.n1 := by omega
  have hrow : ∀ y' : Nat, y' < p.n2 → first p inp (y' * p.n1 + x) =
      p.h1 * central p.tab.order2 (fun m => p.tab.cf.getD (p.tab.order2 - m) 0) (-1)
        (fun x' => inp.getD (y' * p.n1 + x'.toNat) 0) x := by
    intro y' hy'
    unfold first
    rw [hdf]
    congr 1
    refine ring_central _ _ _ _ _ _ _ _ ?_ ?_ ?_
    · simp
    · intro t ht
      have e : y' * p.n1 + x + (t + 1) * 1 = y' * p.n1 + (x + t + 1) := by omega
      have e2 : ((x : Int) + (t + 1)).toNat = x + t + 1 := by omega
      rw [e, f.size, Nat.mod_eq_of_lt (coord_lt (by omega) hy'), e2]
    · intro t ht
      have e : p.tab.N + (y' * p.n1 + x) - (t + 1) * 1 = p.tab.N + (y' * p.n1 + (x - (t + 1))) := by omega
      have e2 : ((x : Int) - (t + 1)).toNat = x - (t + 1) := by omega
      rw [e, Nat.add_mod_left, f.size, Nat.mod_eq_of_lt (coord_lt (by omega) hy'), e2]
  have hlin : ∀ g : Int → K, central p.tab.order2 (fun m => p.tab.cf.getD (p.tab.order2 - m) 0) (-1) (fun i => p.h1 * g i) y =
      p.h1 * central p.tab.order2 (fun m => p.tab.cf.getD (p.tab.order2 - m) 0) (-1) g y := by
    intro g
    unfold central
    generalize p.tab.order2 = w
    generalize (fun m => p.tab.cf.getD (w - m) 0) = c
    rw [mul_add]
    congr 1
    · ring
    · induction w with
      | zero => simp [sumTo]
      | succ n ih => simp only [sumTo]; rw [ih, mul_add]; ring
  unfold target mixedStencil
  rw [← hlin, hdf]
  congr 1
  refine ring_central _ _ _ _ _ _ _ _ ?_ ?_ ?_
  · rw [hrow y (by omega)]
    simp
  · intro t ht
    have e : y * p.n1 + x + (t + 1) * p.n1 = (y + t + 1) * p.n1 + x := by ring
    have e2 : ((y : Int) + (t + 1)).toNat = y + t + 1 := by omega
    rw [e, f.size, coord_mod hx, Nat.mod_eq_of_lt (by omega), hrow _ (by omega), e2]
  · intro t ht
    have e : p.tab.N + (y * p.n1 + x) - (t + 1) * p.n1 = p.tab.N + ((y - (t + 1)) * p.n1 + x) := by
      have h3 : (y - (t + 1)) * p.n1 = y * p.n1 - (t + 1) * p.n1 := Nat.sub_mul _ _ _
      have h4 : (t + 1) * p.n1 ≤ y * p.n1 := Nat.mul_le_mul_right _ (by omega)
      omega
    have e2 : ((y : Int) - (t + 1)).toNat = y - (t + 1) := by omega
    rw [e, Nat.add_mod_left, f.size, coord_mod hx, Nat.mod_eq_of_lt (by omega), hrow _ (by omega), e2]

/-- The loop over the stripes of a grid with two dimensions. -/
theorem mixed_two {K : Type} [Field K] (o : Hofd K) (a1 a2 : Axis K) (ha : o.axes = [a1, a2]) (inp : List K) (s : List K × List K)
    (p : Par K) (hp : params o 0 1 false = some p) :
    mixed o inp 0 1 false s = loop (p.n1 / p.bs1) (stripe p inp 0) s := by
  unfold mixed
  rw [hp, ha]
  have : numOthers2 { sizes := [a1, a2].map Axis.n } 0 1 = 1 := by
    simp [numOthers2, List.range_succ]
  simp only [Option.bind_some, this, loop]
  simp

/-- The arguments for a grid with two dimensions and the first derivative. -/
def par2 {K : Type} [Field K] (a1 a2 : Axis K) (order : Nat) (cf : List K) (d : K) : Par K :=
  { tab := ⟨cf, order / 2, a1.n * a2.n, -1, false⟩, n1 := a1.n, n2 := a2.n, lo1 := 1, lo2 := a1.n,
    bs1 := blockSize 16 a1.n, bs2 := blockSize (if order / 2 < 16 then 16 else order / 2) a2.n,
    h1 := 1 / a1.dx ^ 1 * d, h2 := 1 / a2.dx ^ 1 * d }

theorem params_two {K : Type} [Field K] (o : Hofd K) (a1 a2 : Axis K) (ha : o.axes = [a1, a2]) (cf : List K)
    (hcf : o.cfc[o.order / 2 - 1]? = some cf) (d : K) :
    params { o with pfac1 := d, deriv := 1 } 0 1 false = some (par2 a1 a2 o.order cf d) := by
  have hrow : Hofd.row { o with pfac1 := d, deriv := 1 } = some cf := by
    unfold Hofd.row
    simpa using hcf
  unfold params
  rw [hrow]
  simp only [ha]
  simp [par2, size, lowOthersOf, List.range_succ, Hofd.df]

/-- The stripes one after the other. -/
theorem stripes {K : Type} [CommRing K] {p : Par K} {L : Nat} (f : Fits p L) (inp : List K) (hi : inp.length = p.tab.N)
    (s : List K × List K) (h1 : s.1.length = p.tab.N) (h2 : s.2.length = p.tab.N) (m : Nat) (hm : m * p.bs1 ≤ p.n1) :
    ∃ s', loop m (stripe p inp 0) s = some s' ∧ s'.1.length = p.tab.N ∧ s'.2.length = p.tab.N ∧
      (∀ y x, y < p.n2 → x < m * p.bs1 → y + p.tab.order2 < (L + 1) * p.bs2 →
        s'.2.getD (y * p.n1 + x) 0 = target p inp (y * p.n1 + x)) ∧
      (∀ y x, y < p.n2 → x < p.n1 → (L + 1) * p.bs2 ≤ y → y < p.n2 - p.tab.order2 →
        s'.2.getD (y * p.n1 + x) 0 = s.2.getD (y * p.n1 + x) 0) := by
  refine loop_inv m (stripe p inp 0) (fun k s' => s'.1.length = p.tab.N ∧ s'.2.length = p.tab.N ∧
      (∀ y x, y < p.n2 → x < k * p.bs1 → y + p.tab.order2 < (L + 1) * p.bs2 →
        s'.2.getD (y * p.n1 + x) 0 = target p inp (y * p.n1 + x)) ∧
      (∀ y x, y < p.n2 → x < p.n1 → (L + 1) * p.bs2 ≤ y → y < p.n2 - p.tab.order2 →
        s'.2.getD (y * p.n1 + x) 0 = s.2.getD (y * p.n1 + x) 0)) s ⟨h1, h2, fun y x _ hx => by omega, fun y x _ _ _ _ => rfl⟩ ?_
  rintro k hk s1 ⟨k1, k2, k3, k4⟩
  have hle : (k + 1) * p.bs1 ≤ m * p.bs1 := Nat.mul_le_mul_right _ (by omega)
  have e : (k + 1) * p.bs1 = k * p.bs1 + p.bs1 := by ring
  obtain ⟨s', g1, g2, g3, g4, g5⟩ := stripe_spec f inp hi k (by omega) s1 k1 k2
  refine ⟨s', g1, g2, g3, ?_, ?_⟩
  · intro y x hy hx hyl
    by_cases hin : k * p.bs1 ≤ x
    · exact g4 y x hy hin (by omega) hyl
    · rw [g5 y x hy (by omega) (Or.inl (by omega))]
      exact k3 y x hy (by omega) hyl
  · intro y x hy hx ha hb
    rw [g5 y x hy hx (Or.inr ⟨ha, hb⟩)]
    exact k4 y x hy hx ha hb

theorem div_sub_one {n b w : Nat} (hb : b ∣ n) (hw : 0 < w) (hwb : w ≤ b) (hbn : b < n) :
    ∃ L : Nat, ((n : Int) - w).tdiv b - 1 = L ∧ (L + 1) * b + b = n := by
  obtain ⟨m, rfl⟩ := hb
  have hbpos : 0 < b := by omega
  have hm : 2 ≤ m := by
    by_contra hlt
    have : m = 0 ∨ m = 1 := by omega
    rcases this with rfl | rfl <;> simp at hbn
  refine ⟨m - 2, ?_, ?_⟩
  · have hle : w ≤ b * m := by omega
    have e : (((b * m : Nat) : Int) - w) = ((b * m - w : Nat) : Int) := by rw [Nat.cast_sub hle]
    rw [e]
    show (((b * m - w) / b : Nat) : Int) - 1 = _
    have hd : (b * m - w) / b = m - 1 := by
      have e3 : b * m = (m - 1) * b + b := by
        obtain ⟨k, rfl⟩ : ∃ k, m = k + 1 := ⟨m - 1, by omega⟩
        simp only [Nat.add_sub_cancel]
        ring
      have e2 : b * m - w = (m - 1) * b + (b - w) := by omega
      rw [e2, Nat.mul_comm, Nat.mul_add_div hbpos, Nat.div_eq_of_lt (by omega), Nat.add_zero]
    rw [hd]
    omega
  · obtain ⟨k, rfl⟩ : ∃ k, m = k + 2 := ⟨m - 2, by omega⟩
    simp only [Nat.add_sub_cancel]
    ring

theorem fits_two {K : Type} [Field K] (a1 a2 : Axis K) (order : Nat) (ho : 2 ≤ order) (cf : List K)
    (hcf : order / 2 < cf.length) (d : K) (h1 : 0 < a1.n)
    (hdv : blockSize (if order / 2 < 16 then 16 else order / 2) a2.n ∣ a2.n)
    (hlt : blockSize (if order / 2 < 16 then 16 else order / 2) a2.n < a2.n) :
    ∃ L, Fits (par2 a1 a2 order cf d) L ∧
      (L + 1) * blockSize (if order / 2 < 16 then 16 else order / 2) a2.n +
        blockSize (if order / 2 < 16 then 16 else order / 2) a2.n = a2.n := by
  have hge := blockSize_ge (if order / 2 < 16 then 16 else order / 2) a2.n
  have hw : order / 2 ≤ blockSize (if order / 2 < 16 then 16 else order / 2) a2.n := by
    refine le_trans ?_ hge
    split <;> omega
  obtain ⟨L, hL, hL2⟩ := div_sub_one hdv (by omega : 0 < order / 2) hw hlt
  refine ⟨L, ⟨rfl, rfl, rfl, rfl, hcf, h1, by show 0 < order / 2; omega, hw, hL, ?_⟩, hL2⟩
  show (L + 1) * blockSize _ a2.n + order / 2 ≤ a2.n
  omega

/-- `b` is the size of the blocks: the smallest number from `beg` on that divides `n`, if it is below `n`. -/
def SmallestDivisor (beg n b : Nat) : Prop := beg ≤ b ∧ b ∣ n ∧ b < n ∧ ∀ c, beg ≤ c → c < b → ¬ c ∣ n

theorem blockSize_eq {beg n b : Nat} (h : SmallestDivisor beg n b) : blockSize beg n = b := by
  obtain ⟨h1, h2, h3, h4⟩ := h
  rcases blockSize_cases beg n with ⟨g1, g2, g3⟩ | hmax
  · rcases Nat.lt_trichotomy (blockSize beg n) b with hlt | heq | hgt
    · exact absurd (Nat.dvd_of_mod_eq_zero g3) (h4 _ g1 hlt)
    · exact heq
    · exfalso
      unfold blockSize at hgt
      cases hf : (List.range' beg (n - beg)).find? fun b => n % b == 0 with
      | none =>
        have := List.find?_eq_none.1 hf b (by rw [List.mem_range'_1]; omega)
        exact this (by simp [Nat.mod_eq_zero_of_dvd h2])
      | some c =>
        rw [hf] at hgt
        simp only [Option.getD_some] at hgt
        rw [List.find?_eq_some_iff_getElem] at hf
        obtain ⟨_, i, hi, hci, hall⟩ := hf
        rw [List.length_range'] at hi
        rw [List.getElem_range'] at hci
        have hlt : b - beg < i := by omega
        have := hall (b - beg) hlt
        rw [List.getElem_range'] at this
        have e : beg + 1 * (b - beg) = b := by omega
        rw [e] at this
        simp [Nat.mod_eq_zero_of_dvd h2] at this
  · exfalso
    unfold blockSize at hmax
    cases hf : (List.range' beg (n - beg)).find? fun b => n % b == 0 with
    | none =>
      have := List.find?_eq_none.1 hf b (by rw [List.mem_range'_1]; omega)
      exact this (by simp [Nat.mod_eq_zero_of_dvd h2])
    | some c =>
      rw [hf] at hmax
      simp only [Option.getD_some] at hmax
      have := List.mem_of_find?_eq_some hf
      rw [List.mem_range'_1] at this
      have := le_max_right beg n
      omega

/-- **C300** (grids with two dimensions; inner points of all rows but those of the last block and of half a stencil before it;
prefactor one).  The mixed derivative by finite differences is at these points the central stencil along the second dimension of
the central stencil along the first one, divided by both spacings; in general with the square of the prefactor.  Nothing outside
of the arrays is read or written. -/
theorem C300_partial {K : Type} [Field K] (o : Hofd K) (a1 a2 : Axis K) (ha : o.axes = [a1, a2]) (cf : List K)
    (hs : checkSetup 1 o.order = true) (hrow : o.cfc[o.order / 2 - 1]? = some cf) (hcf : o.order / 2 < cf.length)
    (h1 : 16 ≤ a1.n) (b : Nat) (hb : SmallestDivisor (if o.order / 2 < 16 then 16 else o.order / 2) a2.n b)
    (inp buf out : List K) (hi : inp.length = a1.n * a2.n) (hbuf : buf.length = a1.n * a2.n)
    (hout : out.length = a1.n * a2.n) (d : K) :
    ∃ res, dxdy o inp buf out 0 1 d = some res ∧ res.length = a1.n * a2.n ∧
      ∀ x y, o.order / 2 ≤ x → x + o.order / 2 < a1.n → o.order / 2 ≤ y → y + o.order / 2 + b < a2.n →
        res[y * a1.n + x]? = some (d ^ 2 / (((a1.xmax - a1.xmin) / ((a1.n : K) - 1)) * ((a2.xmax - a2.xmin) / ((a2.n : K) - 1))) *
          mixedStencil (o.order / 2) (fun m => cf.getD (o.order / 2 - m) 0) a1.n inp x y) := by
  have ho : 2 ≤ o.order := by
    simp only [checkSetup, Bool.and_eq_true, Bool.not_eq_true', Bool.or_eq_false_iff, decide_eq_false_iff_not] at hs
    omega
  have hbs := blockSize_eq hb
  obtain ⟨L, f, hL⟩ := fits_two a1 a2 o.order ho cf hcf d (by omega) (hbs ▸ hb.2.1) (by rw [hbs]; exact hb.2.2.1)
  rw [hbs] at hL
  have hdv := blockSize_dvd 16 a1.n h1
  have hm : a1.n / blockSize 16 a1.n * blockSize 16 a1.n = a1.n := Nat.div_mul_cancel hdv
  obtain ⟨s', g1, g2, g3, g4, _⟩ := stripes f inp hi (buf, out) hbuf hout (a1.n / blockSize 16 a1.n) (le_of_eq hm)
  refine ⟨s'.2, ?_, g3, ?_⟩
  · unfold dxdy
    rw [mixed_two { o with pfac1 := d, deriv := 1 } a1 a2 ha inp (buf, out) _ (params_two o a1 a2 ha cf hrow d)]
    show (loop (a1.n / blockSize 16 a1.n) _ _).map _ = _
    rw [g1]
    rfl
  · intro x y hx1 hx2 hy1 hy2
    have hlt : y * a1.n + x < s'.2.length := by
      rw [g3]
      exact coord_lt (by omega) (by omega)
    have hv := g4 y x (by show y < a2.n; omega) (by show x < _ * blockSize 16 a1.n; rw [hm]; omega)
      (by show y + o.order / 2 < (L + 1) * blockSize _ a2.n; rw [hbs]; omega)
    rw [target_eq f rfl inp x y hx1 hx2 hy1 (by show y + o.order / 2 < a2.n; omega)] at hv
    have hg : s'.2[y * a1.n + x]? = some (s'.2.getD (y * a1.n + x) 0) := by
      rw [List.getD_eq_getElem _ _ hlt, List.getElem?_eq_getElem hlt]
    rw [hg]
    congr 1
    refine hv.trans ?_
    show 1 / a2.dx ^ 1 * d * (1 / a1.dx ^ 1 * d * _) = _
    unfold Axis.dx
    show _ * d * (_ * d * mixedStencil (o.order / 2) (fun m => cf.getD (o.order / 2 - m) 0) a1.n inp x y) = _
    generalize mixedStencil (o.order / 2) (fun m => cf.getD (o.order / 2 - m) 0) a1.n inp x y = q
    simp only [pow_one, one_div]
    rw [div_eq_mul_inv (d ^ 2), mul_inv]
    ring

/-- The grid of the example: 16 times 32 points with spacing one, order two. -/
def exHofd : Hofd ℚ := ⟨1, 2, false, [[-1/2, 0]], 1, [], [⟨16, 0, 15⟩, ⟨32, 0, 31⟩]⟩

example : ∃ res, dxdy exHofd (List.replicate 512 3) (List.replicate 512 0) (List.replicate 512 7) 0 1 1 = some res ∧
    res[5 * 16 + 4]? = some (1 ^ 2 / ((15 - 0) / ((16 : ℕ) - 1) * ((31 - 0) / ((32 : ℕ) - 1))) *
      mixedStencil 1 (fun m => [(-1/2 : ℚ), 0].getD (1 - m) 0) 16 (List.replicate 512 3) 4 5) := by
  obtain ⟨res, h1, _, h2⟩ := C300_partial exHofd ⟨16, 0, 15⟩ ⟨32, 0, 31⟩ rfl [-1/2, 0] (by decide) rfl (by decide) (by decide) 16
    ⟨by decide, by decide, by decide, fun c h1 h2 => by
      have : (16 : Nat) ≤ c := h1
      omega⟩
    (List.replicate 512 3) (List.replicate 512 0) (List.replicate 512 7) List.length_replicate List.length_replicate
    List.length_replicate 1
  exact ⟨res, h1, h2 4 5 (by decide) (by decide) (by decide) (by decide)⟩

/-- **C300 is violated**: the prefactor enters twice. -/
theorem C300_violated_factor {K : Type} [Field K] (o : Hofd K) (a1 a2 : Axis K) (ha : o.axes = [a1, a2]) (cf : List K)
    (hs : checkSetup 1 o.order = true) (hrow : o.cfc[o.order / 2 - 1]? = some cf) (hcf : o.order / 2 < cf.length)
    (h1 : 16 ≤ a1.n) (b : Nat) (hb : SmallestDivisor (if o.order / 2 < 16 then 16 else o.order / 2) a2.n b)
    (inp buf out : List K) (hi : inp.length = a1.n * a2.n) (hbuf : buf.length = a1.n * a2.n)
    (hout : out.length = a1.n * a2.n) (d : K) (x y : Nat) (hx1 : o.order / 2 ≤ x) (hx2 : x + o.order / 2 < a1.n)
    (hy1 : o.order / 2 ≤ y) (hy2 : y + o.order / 2 + b < a2.n) :
    ∃ res res1 v, dxdy o inp buf out 0 1 d = some res ∧ dxdy o inp buf out 0 1 1 = some res1 ∧
      res1[y * a1.n + x]? = some v ∧ res[y * a1.n + x]? = some (d * (d * v)) := by
  obtain ⟨res, k1, _, k2⟩ := C300_partial o a1 a2 ha cf hs hrow hcf h1 b hb inp buf out hi hbuf hout d
  obtain ⟨res1, m1, _, m2⟩ := C300_partial o a1 a2 ha cf hs hrow hcf h1 b hb inp buf out hi hbuf hout 1
  refine ⟨res, res1, _, k1, m1, m2 x y hx1 hx2 hy1 hy2, ?_⟩
  rw [k2 x y hx1 hx2 hy1 hy2]
  congr 1
  ring

theorem loop_none {S : Type} (n : Nat) (hn : 0 < n) (body : Nat → S → Option S) (s : S) (h : body 0 s = none) :
    loop n body s = none := by
  induction n with
  | zero => omega
  | succ n ih =>
    by_cases h0 : n = 0
    · subst h0
      simpa [loop] using h
    · simp only [loop]
      rw [ih (by omega)]
      rfl

theorem tdiv_le_zero {a b : Int} (ha : a ≤ 0) (hb : 0 ≤ b) : a.tdiv b ≤ 0 := by
  have h := Int.tdiv_nonneg (a := -a) (b := b) (by omega) hb
  rw [Int.neg_tdiv] at h
  omega

theorem block_negative {K : Type} [CommRing K] (p : Tab K) (point : Int) (hp : point < 0) (lo1 lo2 bs1 bs2 : Nat) (h1 : 0 < bs1)
    (h2 : 0 < bs2) (h : K) (inp out : List K) : diffBlock2D p point lo1 lo2 bs1 bs2 h inp out = none := by
  unfold diffBlock2D
  refine loop_none _ h2 _ _ ?_
  refine loop_none _ h1 _ _ ?_
  cases pointVal p.cf p.order2 p.N lo1 p.df inp (point + (0 : Nat) * lo2 + (0 : Nat) * lo1) with
  | none => rfl
  | some d =>
    simp only [Option.bind_some]
    unfold wr
    rw [if_pos (by simpa using hp)]

/-- **C300 is violated** on all grids with two dimensions for all orders up to 30 (the default is eight): there is a point that is
never set, unless the program writes outside of the arrays before.  The content of the result at this point is what was there
before. -/
theorem C300_violated {K : Type} [Field K] (o : Hofd K) (a1 a2 : Axis K) (ha : o.axes = [a1, a2]) (cf : List K)
    (hs : checkSetup 1 o.order = true) (h30 : o.order ≤ 30) (hrow : o.cfc[o.order / 2 - 1]? = some cf)
    (hcf : o.order / 2 < cf.length) (h1 : 0 < a1.n) (h2 : 0 < a2.n) (d : K) :
    ∃ q, q < a1.n * a2.n ∧ ∀ inp buf out res : List K, inp.length = a1.n * a2.n → buf.length = a1.n * a2.n →
      out.length = a1.n * a2.n → dxdy o inp buf out 0 1 d = some res → res[q]? = out[q]? := by
  have ho : 2 ≤ o.order := by
    simp only [checkSetup, Bool.and_eq_true, Bool.not_eq_true', Bool.or_eq_false_iff, decide_eq_false_iff_not] at hs
    omega
  have hrun : ∀ inp buf out : List K, dxdy o inp buf out 0 1 d =
      (loop (a1.n / blockSize 16 a1.n) (stripe (par2 a1 a2 o.order cf d) inp 0) (buf, out)).map Prod.snd := by
    intro inp buf out
    unfold dxdy
    rw [mixed_two { o with pfac1 := d, deriv := 1 } a1 a2 ha inp (buf, out) _ (params_two o a1 a2 ha cf hrow d)]
    rfl
  by_cases hsm : a1.n < 16
  · refine ⟨0, Nat.mul_pos h1 h2, ?_⟩
    intro inp buf out res _ _ _ hr
    have hz : a1.n / blockSize 16 a1.n = 0 := Nat.div_eq_of_lt (lt_of_lt_of_le hsm (blockSize_ge 16 a1.n))
    rw [hrun, hz] at hr
    simp only [loop, Option.map_some, Option.some.injEq] at hr
    rw [← hr]
  · have hbeg : (if o.order / 2 < 16 then 16 else o.order / 2) = 16 := if_pos (by omega)
    have hdv1 := blockSize_dvd 16 a1.n (by omega)
    have hge1 := blockSize_ge 16 a1.n
    have hge2 := blockSize_ge 16 a2.n
    have hm : a1.n / blockSize 16 a1.n * blockSize 16 a1.n = a1.n := Nat.div_mul_cancel hdv1
    have hmpos : 0 < a1.n / blockSize 16 a1.n := by
      rcases Nat.eq_zero_or_pos (a1.n / blockSize 16 a1.n) with h | h
      · rw [h] at hm; omega
      · exact h
    rcases blockSize_cases 16 a2.n with ⟨g1, g2, g3⟩ | hmax
    · obtain ⟨L, f, hL⟩ := fits_two a1 a2 o.order ho cf hcf d (by omega) (by rw [hbeg]; exact Nat.dvd_of_mod_eq_zero g3)
        (by rw [hbeg]; exact g2)
      rw [hbeg] at hL
      refine ⟨(a2.n - o.order / 2 - 1) * a1.n + 0, coord_lt h1 (by omega), ?_⟩
      intro inp buf out res hi hbuf hout hr
      obtain ⟨s', k1, k2, k3, _, k5⟩ := stripes f inp hi (buf, out) hbuf hout (a1.n / blockSize 16 a1.n) (le_of_eq hm)
      rw [hrun, k1] at hr
      simp only [Option.map_some, Option.some.injEq] at hr
      subst hr
      have hv := k5 (a2.n - o.order / 2 - 1) 0 (by show _ < a2.n; omega) h1
        (by show (L + 1) * blockSize (if o.order / 2 < 16 then 16 else o.order / 2) a2.n ≤ _; rw [hbeg]; omega)
        (by show _ < a2.n - o.order / 2; omega)
      have hlt : (a2.n - o.order / 2 - 1) * a1.n + 0 < a1.n * a2.n := coord_lt h1 (by omega)
      have hl1 : (a2.n - o.order / 2 - 1) * a1.n + 0 < s'.2.length := by rw [k3]; exact hlt
      have hl2 : (a2.n - o.order / 2 - 1) * a1.n + 0 < out.length := by rw [hout]; exact hlt
      have hv' : s'.2.getD ((a2.n - o.order / 2 - 1) * a1.n + 0) 0 = out.getD ((a2.n - o.order / 2 - 1) * a1.n + 0) 0 := hv
      rw [List.getD_eq_getElem _ _ hl1, List.getD_eq_getElem _ _ hl2] at hv'
      rw [List.getElem?_eq_getElem hl1, List.getElem?_eq_getElem hl2, hv']
    · refine ⟨0, Nat.mul_pos h1 h2, ?_⟩
      intro inp buf out res _ _ _ hr
      exfalso
      have hlast : (par2 a1 a2 o.order cf d).last ≤ -1 := by
        show ((a2.n : Int) - ((o.order / 2 : Nat) : Int)).tdiv
          ((blockSize (if o.order / 2 < 16 then 16 else o.order / 2) a2.n : Nat) : Int) - 1 ≤ -1
        rw [hbeg, hmax]
        have hle : ((a2.n : Int) - ((o.order / 2 : Nat) : Int)) < ((max 16 a2.n : Nat) : Int) := by
          have := le_max_right 16 a2.n
          omega
        by_cases hneg : (a2.n : Int) - ((o.order / 2 : Nat) : Int) < 0
        · have : ((a2.n : Int) - ((o.order / 2 : Nat) : Int)).tdiv ((max 16 a2.n : Nat) : Int) ≤ 0 :=
            tdiv_le_zero (by omega) (by omega)
          omega
        · rw [Int.tdiv_eq_zero_of_lt (by omega) hle]
          omega
      have hst : stripe (par2 a1 a2 o.order cf d) inp 0 0 (buf, out) = none := by
        have hneg : ∀ (s : List K × List K), diffBlock2D (par2 a1 a2 o.order cf d).tab
            ((0 : Int) + (0 : Nat) * (par2 a1 a2 o.order cf d).bs1 * (par2 a1 a2 o.order cf d).lo1 +
              (par2 a1 a2 o.order cf d).last * (par2 a1 a2 o.order cf d).bs2 * (par2 a1 a2 o.order cf d).lo2)
            (par2 a1 a2 o.order cf d).lo2 (par2 a1 a2 o.order cf d).lo1 (par2 a1 a2 o.order cf d).bs2
            (par2 a1 a2 o.order cf d).bs1 (par2 a1 a2 o.order cf d).h2 s.1 s.2 = none := by
          intro s
          have hb2 : 16 ≤ (par2 a1 a2 o.order cf d).bs2 := by
            show 16 ≤ blockSize (if o.order / 2 < 16 then 16 else o.order / 2) a2.n
            rw [hbeg]; exact hge2
          have hb1 : 16 ≤ (par2 a1 a2 o.order cf d).bs1 := hge1
          refine block_negative _ _ ?_ _ _ _ _ (by omega) (by omega) _ _ _
          have hlo : 0 < (par2 a1 a2 o.order cf d).lo2 := h1
          have hprod : (0 : Int) < ((par2 a1 a2 o.order cf d).bs2 : Int) * ((par2 a1 a2 o.order cf d).lo2 : Int) :=
            mul_pos (by omega) (by omega)
          have e : (0 : Int) + ((0 : Nat) : Int) * (par2 a1 a2 o.order cf d).bs1 * (par2 a1 a2 o.order cf d).lo1 +
              (par2 a1 a2 o.order cf d).last * (par2 a1 a2 o.order cf d).bs2 * (par2 a1 a2 o.order cf d).lo2 =
              (par2 a1 a2 o.order cf d).last * (((par2 a1 a2 o.order cf d).bs2 : Int) * (par2 a1 a2 o.order cf d).lo2) := by
            push_cast
            ring
          rw [e]
          exact mul_neg_of_neg_of_pos (by omega) hprod
        unfold stripe
        simp only [hneg, Option.bind_none, Option.bind_fun_none]
      rw [hrun, loop_none _ hmpos _ _ hst] at hr
      cases hr

example : ∃ q, q < 16 * 32 ∧ ∀ inp buf out res : List ℚ, inp.length = 16 * 32 → buf.length = 16 * 32 →
    out.length = 16 * 32 → dxdy exHofd inp buf out 0 1 1 = some res → res[q]? = out[q]? :=
  C300_violated exHofd ⟨16, 0, 15⟩ ⟨32, 0, 31⟩ rfl [-1/2, 0] (by decide) (by decide) rfl (by decide) (by decide) (by decide) 1

end QDng.MixDiff
