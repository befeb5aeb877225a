import Verif.GridPm.Lemmas
import Mathlib.Data.Rat.Encodable
import Mathlib.Logic.Equiv.List
import Mathlib.Logic.Encodable.Basic
import Mathlib.Logic.Denumerable

/-
C101: grid wave functions from parameters; C102: grid parameters written as text and read back;
C103: comparison of grids and initialisation from arrays.
-/

namespace QDng.GridPm

open QDng QDng.Params QDng.GridPm.Spec

/-- A library that meets the assumptions (unary texts). -/
def exLib : Lib where
  scanInt t := if t.all (· = '1') then (Encodable.decode t.length : Option Int) else none
  scanDbl t := if t.all (· = '1') then (Encodable.decode t.length : Option ℚ) else none
  showInt n := List.replicate (Encodable.encode n) '1'
  showDbl x := List.replicate (Encodable.encode (six x)) '1'
  scanInt_show n := by
    rw [if_pos (by simp), List.length_replicate]
    exact Encodable.encodek n
  scanDbl_show x := by simp

/-- Text that is no number. -/
theorem exLib_bad : exLib.scanInt ['a'] = none ∧ exLib.scanDbl ['a'] = none := by
  simp [exLib]

/-- A grid with two dimensions. -/
def exDims : List Dim := [{ size := 8, xmin := -1, xmax := 1 }, { size := 16, xmin := 1 / 2, xmax := 5 / 2 }]

theorem exDims_usable : Usable exDims := by
  refine ⟨by simp [exDims], by simp [exDims], ?_⟩
  intro d hd
  simp only [exDims, List.mem_cons, List.not_mem_nil, or_false] at hd
  rcases hd with rfl | rfl <;> norm_num

theorem six_of {x : ℚ} (m k : Int) (h : |m| < 10 ^ 6) (e : x = m * (10 : ℚ) ^ k) : SixDigits x :=
  ⟨m, k, h, e⟩

theorem exDims_six : ∀ d ∈ exDims, SixDigits d.xmin ∧ SixDigits d.xmax := by
  intro d hd
  simp only [exDims, List.mem_cons, List.not_mem_nil, or_false] at hd
  rcases hd with rfl | rfl
  · exact ⟨six_of (-1) 0 (by norm_num) (by norm_num), six_of 1 0 (by norm_num) (by norm_num)⟩
  · exact ⟨six_of 5 (-1) (by norm_num) (by norm_num), six_of 25 (-1) (by norm_num) (by norm_num)⟩

theorem rounded_eq {ds : List Dim} (h : ∀ d ∈ ds, SixDigits d.xmin ∧ SixDigits d.xmax) :
    ds.map rounded = ds := by
  conv_rhs => rw [← List.map_id ds]
  apply List.map_congr_left
  intro d hd
  simp [rounded, six_exact (h d hd).1, six_exact (h d hd).2]

/-! ### C101 -/

/-- **C101** (partial: the values that are present are readable, and `N0` is present).  Initialising
a grid wave function from parameters that describe some dimensions gives exactly that grid if it has
one to four dimensions, each with points and of positive length; otherwise it is rejected with an
error.  An absent value counts as zero. -/
theorem C101_init_partial (lib : Lib) (c : Container) (ds : List Dim) (h : Describes lib c ds)
    (h0 : (OMap.find ("N".toList ++ lib.showInt 0) c.params).isSome = true ∨ ds = []) :
    (Usable ds → wfInit lib c = .ok { dims := ds.length, dim := ds }) ∧
      (¬ Usable ds → wfInit lib c = .err) :=
  wfInit_describes h h0

/-- The parameters of the example grid. -/
theorem exDims_described : ∃ c, Describes exLib c exDims ∧
    (OMap.find ("N".toList ++ exLib.showInt 0) c.params).isSome = true := by
  obtain ⟨c, _, h, h0, _⟩ := dump_spec (lib := exLib) exDims Container.empty
  rw [rounded_eq exDims_six] at h
  exact ⟨c, h, h0 (by simp [exDims])⟩

example : ∃ c, wfInit exLib c = .ok { dims := 2, dim := exDims } := by
  obtain ⟨c, h, h0⟩ := exDims_described
  exact ⟨c, (C101_init_partial exLib c exDims h (Or.inl h0)).1 exDims_usable⟩

/-- A grid of negative length, and one with five dimensions, are not usable. -/
example : ¬ Usable [{ size := 8, xmin := 1, xmax := -1 }] ∧
    ¬ Usable (List.replicate 5 { size := 8, xmin := 0, xmax := 1 }) := by
  constructor
  · intro h; have := (h.2.2 _ (List.mem_singleton.2 rfl)).2; norm_num at this
  · intro h; have := h.2.1; simp at this

/-- **C101** (partial: readable values): a number of dimensions that is absent, zero or negative is
rejected, whatever else is given. -/
theorem C101_no_dims_partial (lib : Lib) (c : Container) (n : Int)
    (h : IntAt lib c "dims".toList n) (hn : n ≤ 0) : wfInit lib c = .err := by
  have hd : getInt lib c keyDims none = some n := getInt_of h _
  simp [wfInit, initHeader, hd, hn]

example : IntAt exLib Container.empty "dims".toList 0 := Or.inr ⟨rfl, rfl⟩

/-- **C101** (partial: readable values, `N0` present): a grid that is accepted is the one the
parameters describe. -/
theorem C101_accepted_partial (lib : Lib) (c : Container) (h : Header)
    (hdims : ∃ n, IntAt lib c "dims".toList n)
    (hN : ∀ i : Nat, ∃ n, IntAt lib c ("N".toList ++ lib.showInt i) n)
    (hlo : ∀ i : Nat, ∃ x, DblAt lib c ("xmin".toList ++ lib.showInt i) x)
    (hhi : ∀ i : Nat, ∃ x, DblAt lib c ("xmax".toList ++ lib.showInt i) x)
    (h0 : (OMap.find ("N".toList ++ lib.showInt 0) c.params).isSome = true)
    (he : wfInit lib c = .ok h) :
    Describes lib c h.dim ∧ Usable h.dim ∧ h.dims = h.dim.length := by
  obtain ⟨n, hn⟩ := hdims
  by_cases hpos : n ≤ 0
  · rw [C101_no_dims_partial lib c n hn hpos] at he
    cases he
  · choose fN hfN using hN
    choose fl hfl using hlo
    choose fh hfh using hhi
    let ds : List Dim := (List.range n.toNat).map
      (fun i => { size := fN i, xmin := fl i, xmax := fh i })
    have hlen : ds.length = n.toNat := by simp [ds]
    have hD : Describes lib c ds := by
      constructor
      · rw [hlen, Int.toNat_of_nonneg (by omega)]; exact hn
      · intro i d hd
        have hi : i < n.toNat := by
          have := (List.getElem?_eq_some_iff.1 hd).1
          omega
        have : d = { size := fN i, xmin := fl i, xmax := fh i } := by
          have := hd
          simp [ds, List.getElem?_range hi] at this
          exact this.symm
        subst this
        exact ⟨hfN i, hfl i, hfh i⟩
    have hr := C101_init_partial lib c ds hD (Or.inl h0)
    by_cases hu : Usable ds
    · rw [hr.1 hu] at he
      have he' := Res.ok.inj he
      subst he'
      exact ⟨hD, hu, rfl⟩
    · rw [hr.2 hu] at he
      cases he

/-- **C101 violated**: without `N0` the initialisation is not rejected; with any positive number of
dimensions, the description of a dimension that does not exist is read (undefined behaviour). -/
theorem C101_violated_missing_size (lib : Lib) (c : Container) (n : Int)
    (h : IntAt lib c "dims".toList n) (hn : 0 < n)
    (h0 : OMap.find ("N".toList ++ lib.showInt 0) c.params = none) : wfInit lib c = .ub := by
  have hd : getInt lib c keyDims none = some n := getInt_of h _
  have hp : c.isPresent (keyN lib 0) = false := by
    simp only [Container.isPresent, keyN]
    rw [show OMap.find ('N' :: lib.showInt ((0 : Nat) : Int)) c.params = none from h0]
    rfl
  obtain ⟨k, hk⟩ : ∃ k, n.toNat = k + 1 := ⟨n.toNat - 1, by omega⟩
  have hi : initHeader lib c = .ok { dims := n, dim := [] } := by
    simp [initHeader, hd, hk, initLoop, hp, not_le.2 hn]
  have hs : sizeDefined { dims := n, dim := [] } = false := by
    simp only [sizeDefined, hk, List.all_eq_false]
    exact ⟨0, by simp, by simp⟩
  simp [wfInit, hi, hs]

example : ∃ c : Container, IntAt exLib c "dims".toList 2 ∧
    OMap.find ("N".toList ++ exLib.showInt 0) c.params = none := by
  refine ⟨setInt exLib Container.empty keyDims 2, Or.inl ⟨exLib.showInt 2, ?_, exLib.scanInt_show 2⟩, ?_⟩
  · rw [setInt, find_set]; simp [keyDims]
  · rw [setInt, find_set]; simp [keyDims, Container.empty, OMap.find]

/-- **C101 violated**: if `dims` is not a number, an uninitialised variable is used. -/
theorem C101_violated_dims (lib : Lib) (c : Container) (t : Str)
    (h : OMap.find "dims".toList c.params = some t) (ht : lib.scanInt t = none) :
    wfInit lib c = .ub := by
  have hd : getInt lib c keyDims none = none := by
    simp only [getInt]
    rw [show OMap.find keyDims c.params = some t from h]
    simp [ht]
  simp [wfInit, initHeader, hd]

/-- **C101 violated**: a number of points that is not a number is not rejected; the second dimension
silently gets the number of points of the first one. -/
theorem C101_violated_unreadable (lib : Lib) (bad : Str) (hbad : lib.scanInt bad = none) :
    ∃ c : Container, OMap.find ("N".toList ++ lib.showInt 1) c.params = some bad ∧
      wfInit lib c = .ok { dims := 2, dim := [{ size := 8, xmin := -1, xmax := 1 },
        { size := 8, xmin := 2, xmax := 3 }] } := by
  obtain ⟨c, _, hD, hp, _⟩ := dump_spec (lib := lib) [{ size := 8, xmin := -1, xmax := 1 },
    { size := 16, xmin := 2, xmax := 3 }] Container.empty
  have hp := hp (by simp)
  rw [rounded_eq (by
    intro d hd
    simp only [List.mem_cons, List.not_mem_nil, or_false] at hd
    rcases hd with rfl | rfl
    · exact ⟨six_of (-1) 0 (by norm_num) (by norm_num), six_of 1 0 (by norm_num) (by norm_num)⟩
    · exact ⟨six_of 2 0 (by norm_num) (by norm_num), six_of 3 0 (by norm_num) (by norm_num)⟩)] at hD
  have hne : ∀ key, key ≠ keyN lib 1 →
      OMap.find key (c.setValue (keyN lib 1) bad .int).params = OMap.find key c.params := by
    intro key hk
    rw [find_set, if_neg hk]
  have h01 : keyN lib 0 ≠ keyN lib 1 := fun h => by have := keyN_inj h; omega
  refine ⟨c.setValue (keyN lib 1) bad .int, ?_, ?_⟩
  · rw [find_set]; exact if_pos rfl
  · have hI : ∀ key v, key ≠ keyN lib 1 → IntAt lib c key v →
        ∀ cur, getInt lib (c.setValue (keyN lib 1) bad .int) key cur = some v := by
      intro key v hk hv cur
      have := getInt_of hv cur
      simpa only [getInt, hne key hk] using this
    have hF : ∀ key v, key ≠ keyN lib 1 → DblAt lib c key v →
        ∀ cur, getDbl lib (c.setValue (keyN lib 1) bad .int) key cur = v := by
      intro key v hk hv cur
      have := getDbl_of hv cur
      simpa only [getDbl, hne key hk] using this
    obtain ⟨a1, a2, a3⟩ := hD.entry 0 _ rfl
    obtain ⟨_, b2, b3⟩ := hD.entry 1 _ rfl
    have e0 := hI keyDims 2 (by simp [keyDims, keyN]) hD.dims none
    have e1 := hI (keyN lib 0) 8 h01 a1 (some 0)
    have e2 := hF (keyMin lib 0) (-1) (by simp [keyN, keyMin]) a2 0
    have e3 := hF (keyMax lib 0) 1 (by simp [keyN, keyMax]) a3 (-1)
    have e4 := hF (keyMin lib 1) 2 (by simp [keyN, keyMin]) b2 1
    have e5 := hF (keyMax lib 1) 3 (by simp [keyN, keyMax]) b3 2
    have e6 : getInt lib (c.setValue (keyN lib 1) bad .int) (keyN lib 1) (some 8) = some 8 := by
      simp [getInt, find_set, hbad]
    have hp' : (c.setValue (keyN lib 1) bad .int).isPresent (keyN lib 0) = true := by
      simp only [Container.isPresent, hne _ h01]
      exact hp
    have hl : initLoop lib (c.setValue (keyN lib 1) bad .int) 2 0 0 0 [] =
        .ok [{ size := 8, xmin := -1, xmax := 1 }, { size := 8, xmin := 2, xmax := 3 }] := by
      rw [initLoop, if_pos hp', e1]
      simp only [e2, e3]
      rw [if_neg (by norm_num), if_neg (by norm_num), initLoop, if_pos hp', e6]
      simp only [e4, e5]
      rw [if_neg (by norm_num), if_neg (by norm_num), initLoop]
      rfl
    have hi : initHeader lib (c.setValue (keyN lib 1) bad .int) =
        .ok { dims := 2, dim := [{ size := 8, xmin := -1, xmax := 1 },
          { size := 8, xmin := 2, xmax := 3 }] } := by
      simp only [initHeader, e0]
      rw [if_neg (by norm_num), show (2 : Int).toNat = 2 from rfl, hl]
    have hs : sizeDefined { dims := 2, dim := [{ size := 8, xmin := -1, xmax := 1 },
          { size := 8, xmin := 2, xmax := 3 }] } = true := by decide +kernel
    simp only [wfInit, hi, hs, if_true]
    rw [if_neg (by simp [maxDims])]

example : ∃ bad, exLib.scanInt bad = none := ⟨_, exLib_bad.1⟩

/-! ### C102 -/

/-- **C102** (partial: the ends of the grid have at most six significant digits).  A grid that is
written to parameters and read back by a new wave function is the same grid; parameters of other
names are untouched. -/
theorem C102_round_trip_partial (lib : Lib) (ds : List Dim) (hu : Usable ds)
    (h6 : ∀ d ∈ ds, SixDigits d.xmin ∧ SixDigits d.xmax) (c : Container) :
    ∃ c', dump lib { dims := ds.length, dim := ds } c = some c' ∧
      wfInit lib c' = .ok { dims := ds.length, dim := ds } ∧
      ∀ key, key ≠ "dims".toList →
        (∀ j < ds.length, key ≠ "N".toList ++ lib.showInt j ∧ key ≠ "xmin".toList ++ lib.showInt j ∧
          key ≠ "xmax".toList ++ lib.showInt j) →
        OMap.find key c'.params = OMap.find key c.params := by
  obtain ⟨c', e, hD, hp, hk⟩ := dump_spec (lib := lib) ds c
  rw [rounded_eq h6] at hD
  have hne : ds ≠ [] := by rintro rfl; exact absurd hu.1 (by simp)
  exact ⟨c', e, (wfInit_describes hD (Or.inl (hp hne))).1 hu, hk⟩

example : Usable exDims ∧ ∀ d ∈ exDims, SixDigits d.xmin ∧ SixDigits d.xmax :=
  ⟨exDims_usable, exDims_six⟩

/-- **C102** (partial: the grid that is read is only close to the one that was written).  Every
usable grid comes back with the same numbers of points and with ends that differ by at most five
millionth of their size, as long as no dimension has collapsed. -/
theorem C102_close_partial (lib : Lib) (ds : List Dim) (hu : Usable ds)
    (hr : ∀ d ∈ ds, six d.xmin < six d.xmax) (c : Container) :
    ∃ c' h, dump lib { dims := ds.length, dim := ds } c = some c' ∧ wfInit lib c' = .ok h ∧
      h.dims = ds.length ∧ h.dim.length = ds.length ∧
      ∀ (i : Nat) (x y : Dim), ds[i]? = some x → h.dim[i]? = some y →
        y.size = x.size ∧ |y.xmin - x.xmin| ≤ 5 / 10 ^ 6 * |x.xmin| ∧
          |y.xmax - x.xmax| ≤ 5 / 10 ^ 6 * |x.xmax| := by
  obtain ⟨c', e, hD, hp, hk⟩ := dump_spec (lib := lib) ds c
  have hne : ds ≠ [] := by rintro rfl; exact absurd hu.1 (by simp)
  have hu' : Usable (ds.map rounded) := by
    refine ⟨by simpa using hu.1, by simpa using hu.2.1, ?_⟩
    intro d hd
    obtain ⟨x, hx, rfl⟩ := List.mem_map.1 hd
    exact ⟨(hu.2.2 x hx).1, hr x hx⟩
  refine ⟨c', _, e, (wfInit_describes hD (Or.inl (hp hne))).1 hu', by simp, by simp, ?_⟩
  intro i x y hx hy
  simp only [List.getElem?_map, hx, Option.map_some, Option.some.injEq] at hy
  subst hy
  exact ⟨rfl, six_error _, six_error _⟩

theorem six_value {x : ℚ} (L : Int) (r : Int) (h0 : x ≠ 0) (h1 : (10 : ℚ) ^ L ≤ |x|)
    (h2 : |x| < (10 : ℚ) ^ (L + 1)) (h3 : round (x * 10 ^ (5 - L)) = r) :
    six x = r / 10 ^ (5 - L) := by
  have hL : Int.log 10 |x| = L := by
    have hp : 0 < |x| := abs_pos.2 h0
    have a1 := Int.zpow_log_le_self (R := ℚ) (b := 10) (by norm_num) hp
    have a2 := Int.lt_zpow_succ_log_self (R := ℚ) (b := 10) (by norm_num) |x|
    have b1 : Int.log 10 |x| < L + 1 := by
      have := lt_of_le_of_lt a1 h2
      exact (zpow_lt_zpow_iff_right₀ (by norm_num : (1 : ℚ) < 10)).1 (by exact_mod_cast this)
    have b2 : L < Int.log 10 |x| + 1 := by
      have := lt_of_le_of_lt h1 a2
      exact (zpow_lt_zpow_iff_right₀ (by norm_num : (1 : ℚ) < 10)).1 (by exact_mod_cast this)
    omega
  unfold six
  rw [if_neg h0, hL, h3]

theorem six_ex1 : six (12345678 / 10000000) = 123457 / 100000 := by
  rw [six_value 0 123457 (by norm_num) (by norm_num [abs_of_pos]) (by norm_num [abs_of_pos])
    (by rw [round_eq, Int.floor_eq_iff]; norm_num)]
  norm_num

theorem six_ex2 : six (10000001 / 10000000) = 1 ∧ six (10000002 / 10000000) = 1 := by
  constructor
  · rw [six_value 0 100000 (by norm_num) (by norm_num [abs_of_pos]) (by norm_num [abs_of_pos])
      (by rw [round_eq, Int.floor_eq_iff]; norm_num)]
    norm_num
  · rw [six_value 0 100000 (by norm_num) (by norm_num [abs_of_pos]) (by norm_num [abs_of_pos])
      (by rw [round_eq, Int.floor_eq_iff]; norm_num)]
    norm_num

theorem six_zero : six 0 = 0 := by simp [six]

/-- The premises of `C102_close_partial` hold for a grid with more digits. -/
example : Usable [{ size := 8, xmin := 0, xmax := 12345678 / 10000000 }] ∧
    ∀ d ∈ [({ size := 8, xmin := 0, xmax := 12345678 / 10000000 } : Dim)], six d.xmin < six d.xmax := by
  refine ⟨⟨by simp, by simp, ?_⟩, ?_⟩
  · intro d hd
    obtain rfl := List.mem_singleton.1 hd
    norm_num
  · intro d hd
    obtain rfl := List.mem_singleton.1 hd
    simp only [six_ex1, six_zero]
    norm_num

/-- **C102 violated**: the grid from 0 to 1.2345678 is read back as a grid that the comparison of
grids tells apart from the one that was written. -/
theorem C102_violated_digits (lib : Lib) (c : Container) :
    ∃ c' h, dump lib { dims := 1, dim := [{ size := 8, xmin := 0, xmax := 12345678 / 10000000 }] } c
        = some c' ∧ wfInit lib c' = .ok h ∧
      gridEq { dims := 1, dim := [{ size := 8, xmin := 0, xmax := 12345678 / 10000000 }] } h
        = some false := by
  obtain ⟨c', e, hD, hp, hk⟩ :=
    dump_spec (lib := lib) [{ size := 8, xmin := 0, xmax := 12345678 / 10000000 }] c
  simp only [List.map_cons, List.map_nil, rounded, six_ex1, six_zero] at hD
  have hu : Usable [{ size := 8, xmin := 0, xmax := 123457 / 100000 }] := by
    refine ⟨by simp, by simp, ?_⟩
    intro d hd
    obtain rfl := List.mem_singleton.1 hd
    norm_num
  refine ⟨c', _, e, (wfInit_describes hD (Or.inl (hp (by simp)))).1 hu, ?_⟩
  decide +kernel

/-- **C102 violated**: a usable grid can be written but not read back: both ends are printed as 1,
and the wave function is rejected. -/
theorem C102_violated_collapse (lib : Lib) (c : Container) :
    Usable [{ size := 8, xmin := 10000001 / 10000000, xmax := 10000002 / 10000000 }] ∧
    ∃ c', dump lib { dims := 1, dim := [{ size := 8, xmin := 10000001 / 10000000, xmax := 10000002 / 10000000 }] } c = some c' ∧ wfInit lib c' = .err := by
  constructor
  · refine ⟨by simp, by simp, ?_⟩
    intro d hd
    obtain rfl := List.mem_singleton.1 hd
    norm_num
  · obtain ⟨c', e, hD, hp, hk⟩ := dump_spec (lib := lib)
      [{ size := 8, xmin := 10000001 / 10000000, xmax := 10000002 / 10000000 }] c
    simp only [List.map_cons, List.map_nil, rounded, six_ex2.1, six_ex2.2] at hD
    refine ⟨c', e, (wfInit_describes hD (Or.inl (hp (by simp)))).2 ?_⟩
    intro h
    have := (h.2.2 _ (List.mem_singleton.2 rfl)).2
    norm_num at this

/-! ### C103 -/

/-- **C103**: two grids compare equal exactly if they have the same number of dimensions and each
dimension has the same number of points and ends that agree up to `1e-10`; `!=` is the opposite. -/
theorem C103_equal (a b : Header) (ha : WellFormed a) (hb : WellFormed b) :
    ∃ r, gridEq a b = some r ∧ gridNe a b = some (!r) ∧
      (r = true ↔ a.dim.length = b.dim.length ∧
        ∀ (i : Nat) (x y : Dim), a.dim[i]? = some x → b.dim[i]? = some y → Close x y) := by
  unfold WellFormed at ha hb
  by_cases hd : a.dims = b.dims
  · have hlen : a.dim.length = b.dim.length := by omega
    obtain ⟨r, hr, hs⟩ := eqLoop_spec a b a.dims.toNat 0 true (by omega) (by omega)
    have he : gridEq a b = some r := by simpa [gridEq, hd] using hr
    refine ⟨r, he, ?_, hs.trans ⟨fun h => ⟨hlen, fun i x y hx hy => ?_⟩,
      fun h => ⟨rfl, fun j x y _ _ hx hy => h.2 j x y hx hy⟩⟩⟩
    · simp only [gridNe, he]
      cases r <;> rfl
    · have := (List.getElem?_eq_some_iff.1 hx).1
      exact h.2 i x y (by omega) (by omega) hx hy
  · refine ⟨false, by simp [gridEq, hd], by simp [gridNe, gridEq, hd], ?_⟩
    simp only [Bool.false_eq_true, false_iff]
    rintro ⟨h, _⟩
    omega

/-- **C103**: a grid is equal to itself, and the comparison does not depend on the order. -/
theorem C103_refl_symm (a b : Header) (ha : WellFormed a) (hb : WellFormed b) :
    gridEq a a = some true ∧ gridEq a b = gridEq b a := by
  obtain ⟨r, h1, _, h2⟩ := C103_equal a a ha ha
  obtain ⟨r1, g1, _, g2⟩ := C103_equal a b ha hb
  obtain ⟨r2, k1, _, k2⟩ := C103_equal b a hb ha
  constructor
  · rw [h1, h2.2 ⟨rfl, fun i x y hx hy => ?_⟩]
    rw [hx] at hy
    obtain rfl := Option.some.inj hy
    simp [Close]
  · rw [g1, k1]
    congr 1
    rw [Bool.eq_iff_iff, g2, k2]
    have close_symm : ∀ x y, Close x y → Close y x := by
      rintro x y ⟨c1, c2, c3⟩
      exact ⟨c1.symm, by rwa [abs_sub_comm], by rwa [abs_sub_comm]⟩
    exact ⟨fun h => ⟨h.1.symm, fun i x y hx hy => close_symm _ _ (h.2 i y x hy hx)⟩,
      fun h => ⟨h.1.symm, fun i x y hx hy => close_symm _ _ (h.2 i y x hy hx)⟩⟩

example : WellFormed { dims := 2, dim := exDims } := by simp [WellFormed, exDims]

/-- **C103**: because of the tolerance, equality of grids is not transitive. -/
theorem C103_not_transitive : ∃ a b c : Header, WellFormed a ∧ WellFormed b ∧ WellFormed c ∧
    gridEq a b = some true ∧ gridEq b c = some true ∧ gridEq a c = some false :=
  ⟨{ dims := 1, dim := [{ size := 8, xmin := 0, xmax := 1 }] },
   { dims := 1, dim := [{ size := 8, xmin := 1 / 10 ^ 10, xmax := 1 }] },
   { dims := 1, dim := [{ size := 8, xmin := 2 / 10 ^ 10, xmax := 1 }] },
   rfl, rfl, rfl, by decide +kernel, by decide +kernel, by decide +kernel⟩

/-- **C103**: initialising from arrays gives exactly the described dimensions if the arrays have the
same length of at most four, and is rejected otherwise. -/
theorem C103_arrays (N : List Int) (lo hi : List ℚ) :
    ((N.length = lo.length ∧ lo.length = hi.length ∧ N.length ≤ 4) →
      ∃ h, setFromArrays N lo hi = .ok h ∧ WellFormed h ∧ h.dim.length = N.length ∧
        h.dim.map Dim.size = N ∧ h.dim.map Dim.xmin = lo ∧ h.dim.map Dim.xmax = hi) ∧
    (¬ (N.length = lo.length ∧ lo.length = hi.length ∧ N.length ≤ 4) →
      setFromArrays N lo hi = .err) := by
  constructor
  · rintro ⟨h1, h2, h4⟩
    obtain ⟨ds, e, hl, hs⟩ := setLoop_spec N lo hi N.length 0
      (List.replicate N.length { size := 0, xmin := 0, xmax := 0 }) (by simp) (by simp) (by omega)
      (by omega)
    rw [List.length_replicate] at hl
    refine ⟨{ dims := N.length, dim := ds }, ?_, ?_, hl, ?_, ?_, ?_⟩
    · simp only [setFromArrays, setDims, maxDims]
      rw [if_neg (by omega)]
      have q1 : ¬ ((N.length : Int) > 4) := by omega
      have q2 : ¬ ((N.length : Int) < 0) := by omega
      simp only [if_neg q1, if_neg q2, Int.toNat_natCast, e]
    · simp [WellFormed, hl]
    all_goals
      apply List.ext_getElem (by simp; omega)
      intro i q1 q2
      have hi' : i < ds.length := by simpa using q1
      have hq := hs i
      rw [if_pos (by omega), List.getElem?_eq_getElem (show i < N.length by omega),
        List.getElem?_eq_getElem (show i < lo.length by omega),
        List.getElem?_eq_getElem (show i < hi.length by omega),
        List.getElem?_eq_getElem hi'] at hq
      simp only [Option.some.injEq] at hq
      simp [hq]
  · intro h
    simp only [setFromArrays]
    by_cases h1 : N.length ≠ lo.length ∨ lo.length ≠ hi.length
    · rw [if_pos h1]
    · rw [if_neg h1]
      have : (N.length : Int) > maxDims := by simp only [maxDims]; omega
      simp only [setDims, if_pos this]

example : ∃ h, setFromArrays [8, 16] [-1, 0] [1, 2] = .ok h ∧ h.dims = 2 :=
  ⟨_, rfl, rfl⟩

/-- **C103**: the grid points of a dimension with at least two points run from one end to the other:
the last point is `xmax`. -/
theorem C103_dx (d : Dim) (h : 2 ≤ d.size) :
    d.xmin + (d.size - 1) * dx d = d.xmax ∧ (d.xmin < d.xmax ↔ 0 < dx d) := by
  have hp : (0 : ℚ) < d.size - 1 := by
    have : (2 : ℚ) ≤ d.size := by exact_mod_cast h
    linarith
  constructor
  · unfold dx; field_simp; ring
  · unfold dx
    rw [div_pos_iff_of_pos_right hp]
    constructor <;> intro h <;> linarith

example : dx { size := 5, xmin := 0, xmax := 2 } = 1 / 2 := by norm_num [dx]

end QDng.GridPm
