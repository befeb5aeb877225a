import Verif.PotIn.Spec
import Verif.GridPm.Props

/-!
# Properties of the input of a potential
-/

namespace QDng.PotIn

open QDng QDng.Common QDng.Params QDng.GridPm QDng.GridPm.Spec

variable {lib : Lib} {c : Container}

theorem getDblO_of {name : Str} {v : ℚ} (h : DblAt lib c name v) (cur : Option ℚ) : getDblO lib c name cur = some v := by
  rcases h with ⟨t, h1, h2⟩ | ⟨h1, h2⟩
  · simp [getDblO, h1, h2]
  · simp [getDblO, h1, h2]

theorem gridLoop_spec (h0 : c.isPresent (keyN lib 0) = true) (suf : List Dim) :
    ∀ (pre rest : List Dim) (n : Int) (d : Option ℚ), rest.length = suf.length →
      (∀ (j : Nat) (x : Dim), suf[j]? = some x →
        IntAt lib c (keyN lib (pre.length + j)) x.size ∧ DblAt lib c (keyMin lib (pre.length + j)) x.xmin ∧
          DblAt lib c (keyMax lib (pre.length + j)) x.xmax) →
      ((∀ x ∈ suf, 0 < x.size ∧ x.xmin < x.xmax) →
        gridLoop lib c suf.length pre.length n d (pre ++ rest) = .ok (pre ++ suf)) ∧
      ((¬ ∀ x ∈ suf, 0 < x.size ∧ x.xmin < x.xmax) →
        ∃ ds, gridLoop lib c suf.length pre.length n d (pre ++ rest) = .threw ds) := by
  induction suf with
  | nil =>
    intro pre rest n d hr _
    have : rest = [] := List.length_eq_zero_iff.1 hr
    subst this
    simp [gridLoop]
  | cons x xs ih =>
    intro pre rest n d hr h
    cases rest with
    | nil => cases hr
    | cons r rest =>
      have hr' : rest.length = xs.length := by simpa using hr
      obtain ⟨a1, a2, a3⟩ := h 0 x rfl
      rw [Nat.add_zero] at a1 a2 a3
      have ih' := ih (pre ++ [x]) rest x.size (some x.xmax) hr' (by
        intro j y hy
        have := h (j + 1) y (by simpa using hy)
        rwa [show pre.length + (j + 1) = (pre ++ [x]).length + j by simp; omega] at this)
      have hset : (pre ++ r :: rest).set pre.length x = (pre ++ [x]) ++ rest := by
        rw [List.set_append_right _ _ (le_refl _), Nat.sub_self, List.set_cons_zero]
        simp
      have e : gridLoop lib c (x :: xs).length pre.length n d (pre ++ r :: rest) =
          if x.size < 1 then .threw (pre ++ r :: rest) else if x.xmax - x.xmin ≤ 0 then .threw ((pre ++ [x]) ++ rest)
          else gridLoop lib c xs.length (pre ++ [x]).length x.size (some x.xmax) ((pre ++ [x]) ++ rest) := by
        rw [List.length_cons, gridLoop, if_pos h0, getInt_of a1]
        simp only [getDblO_of a2, getDblO_of a3]
        rw [show ({ size := x.size, xmin := x.xmin, xmax := x.xmax } : Dim) = x from rfl, hset]
        simp
      rw [e]
      constructor
      · intro hv
        have hx := hv x (by simp)
        rw [if_neg (by omega), if_neg (by linarith [hx.2]), ih'.1 (fun y hy => hv y (List.mem_cons_of_mem _ hy))]
        simp
      · intro hv
        by_cases h1 : x.size < 1
        · rw [if_pos h1]; exact ⟨_, rfl⟩
        · rw [if_neg h1]
          by_cases h2 : x.xmax - x.xmin ≤ 0
          · rw [if_pos h2]; exact ⟨_, rfl⟩
          · rw [if_neg h2]
            apply ih'.2
            intro h3
            apply hv
            intro y hy
            rcases List.mem_cons.1 hy with rfl | hy
            · exact ⟨by omega, by linarith⟩
            · exact h3 y hy

theorem foldl_count (ds : List Dim) : ∀ a : Int, (ds.map (fun d => d.size)).foldl (fun a b => a * b) a = a * count ds := by
  induction ds with
  | nil => intro a; simp [count]
  | cons d l ih => intro a; simp only [List.map_cons, List.foldl_cons, count, ih]; ring

theorem points_count (ds : List Dim) (h : ds ≠ []) : points { dims := ds.length, dim := ds } = count ds := by
  unfold points
  rw [if_neg (by simpa using h), foldl_count, one_mul]

theorem count_pos (ds : List Dim) (h : ∀ d ∈ ds, 0 < d.size ∧ d.xmin < d.xmax) : 0 < count ds := by
  induction ds with
  | nil => simp [count]
  | cons d l ih =>
    exact mul_pos (h d List.mem_cons_self).1 (ih (fun d hd => h d (List.mem_cons_of_mem _ hd)))

theorem resize_length (l : List (Option ℚ)) (n : Nat) : (resize l n).length = n := by
  unfold resize
  by_cases h : l.length = n
  · rw [if_pos h, h]
  · rw [if_neg h, List.length_replicate]

theorem gridInit_spec (p : Pot) (ds : List Dim) (hd : Describes lib c ds) (hf : FirstGiven lib c) (hne : ds ≠ []) :
    (Usable ds → gridInit lib p c ds.length =
      .ok { p with grid := { dims := ds.length, dim := ds }, vals := resize p.vals (count ds).toNat }) ∧
    (¬ Usable ds → ∃ p', gridInit lib p c ds.length = .threw p' ∧ p'.vals = p.vals ∧ p'.busy = p.busy) := by
  have h0 : c.isPresent (keyN lib 0) = true := hf
  have hl := gridLoop_spec (lib := lib) (c := c) h0 ds [] (List.replicate ds.length { size := 0, xmin := 0, xmax := 0 })
    (ds.length : Int) none (by simp) (by
      intro j x hx
      simpa [keyN, keyMin, keyMax] using hd.entry j x hx)
  simp only [List.length_nil, List.nil_append] at hl
  have hpos : 1 ≤ ds.length := by
    cases ds with
    | nil => exact absurd rfl hne
    | cons _ _ => simp
  have hs : ds.length ≤ 4 → setDims (ds.length : Int) =
      .ok { dims := ds.length, dim := List.replicate ds.length { size := 0, xmin := 0, xmax := 0 } } := by
    intro h4
    unfold setDims maxDims
    rw [if_neg (by omega), if_neg (by omega), Int.toNat_natCast]
  constructor
  · intro hu
    simp only [gridInit, hs hu.2.1, Int.toNat_natCast, hl.1 hu.2.2]
    rw [points_count ds hne]
  · intro hu
    by_cases h4 : ds.length ≤ 4
    · have hn : ¬ ∀ x ∈ ds, 0 < x.size ∧ x.xmin < x.xmax := fun h => hu ⟨hpos, h4, h⟩
      obtain ⟨ds', hds⟩ := hl.2 hn
      refine ⟨{ p with grid := { dims := ds.length, dim := ds' } }, ?_, rfl, rfl⟩
      simp only [gridInit, hs h4, Int.toNat_natCast, hds]
    · refine ⟨p, ?_, rfl, rfl⟩
      have : setDims (ds.length : Int) = .err := by
        unfold setDims maxDims
        rw [if_pos (by omega)]
      simp only [gridInit, this]

/-! ### C310 -/

/-- A potential set up with parameters that describe at least one dimension (readable values, `N0` present) has exactly this
grid and as many values as the grid has points, if the grid can be used; otherwise this is reported and the values stay. -/
theorem C310_partial (lib : Lib) (disk : Disk) (p : Pot) (c : Container) (ds : List Dim) (hd : Describes lib c ds)
    (hf : FirstGiven lib c) (hne : ds ≠ []) :
    (Usable ds → ∃ p', init lib disk p c = .ok p' ∧ OnGrid p' ds ∧ (p'.vals.length : Int) = count ds) ∧
    (¬ Usable ds → ∃ p', init lib disk p c = .threw p' ∧ p'.vals = p.vals) := by
  have hg := gridInit_spec (lib := lib) (c := c) p ds hd hf hne
  have hn : getInt lib c keyDims none = some (ds.length : Int) := getInt_of hd.dims _
  have hpos : 0 < ds.length := List.length_pos_iff.2 hne
  have e : init lib disk p c = gridInit lib p c ds.length := by
    simp only [init, hn]
    rw [if_neg (fun h => by have := h.1; omega)]
  rw [e]
  constructor
  · intro hu
    refine ⟨_, hg.1 hu, rfl, ?_⟩
    show ((resize p.vals (count ds).toNat).length : Int) = count ds
    rw [resize_length, Int.toNat_of_nonneg (count_pos ds hu.2.2).le]
  · intro hu
    obtain ⟨p', h1, h2, _⟩ := hg.2 hu
    exact ⟨p', h1, h2⟩

/-- A negative number of dimensions without a file is reported. -/
theorem C310_negative_partial (lib : Lib) (disk : Disk) (p : Pot) (c : Container) (n : Int)
    (h : IntAt lib c "dims".toList n) (hn : n < 0) (hf : NoFile c) : init lib disk p c = .threw p := by
  have hd : getInt lib c keyDims none = some n := getInt_of h _
  have ht : getText c ['f', 'i', 'l', 'e'] = [] := by
    unfold getText
    rw [show OMap.find ['f', 'i', 'l', 'e'] c.params = none from hf]
    rfl
  simp only [init, hd, ht]
  rw [if_neg (fun h => h.2.1 rfl)]
  have hs : setDims n = .err := by
    unfold setDims maxDims
    rw [if_neg (by omega), if_pos hn]
  simp only [gridInit, hs]

/-- A grid of two dimensions meets the hypotheses. -/
example : ∃ c, Describes exLib c exDims ∧ FirstGiven exLib c ∧ exDims ≠ [] ∧ Usable exDims ∧ count exDims = 128 := by
  obtain ⟨c, h1, h2⟩ := exDims_described
  exact ⟨c, h1, h2, by simp [exDims], exDims_usable, by simp [exDims, count]⟩

/-- Without a file and without a number of dimensions a potential without grid and without values is accepted. -/
theorem C310_violated_none (lib : Lib) (disk : Disk) (c : Container) (h : OMap.find "dims".toList c.params = none)
    (hf : NoFile c) : init lib disk Pot.new c = .ok Pot.new := by
  have hd : getInt lib c keyDims none = some 0 := getInt_of (v := 0) (Or.inr ⟨h, rfl⟩) _
  have ht : getText c ['f', 'i', 'l', 'e'] = [] := by
    unfold getText
    rw [show OMap.find ['f', 'i', 'l', 'e'] c.params = none from hf]
    rfl
  simp only [init, hd, ht]
  rw [if_neg (fun h => h.2.1 rfl)]
  rfl

/-- If the number of points of the first dimension is missing, nothing is reported: the potential has no values. -/
theorem C310_violated_missing (lib : Lib) (disk : Disk) (p : Pot) (c : Container) (n : Nat) (hn : 1 ≤ n) (h4 : n ≤ 4)
    (h : IntAt lib c "dims".toList n) (h0 : ¬ FirstGiven lib c) :
    ∃ p', init lib disk p c = .ok p' ∧ p'.grid.dims = n ∧ p'.vals = [] := by
  have hd : getInt lib c keyDims none = some (n : Int) := getInt_of h _
  have hp : c.isPresent (keyN lib 0) = false := by
    have : ¬ c.isPresent (keyN lib 0) = true := h0
    simpa using this
  obtain ⟨k, rfl⟩ : ∃ k, n = k + 1 := ⟨n - 1, by omega⟩
  have e : init lib disk p c = gridInit lib p c ((k + 1 : Nat) : Int) := by
    simp only [init, hd]
    rw [if_neg (fun h => by have := h.1; omega)]
  have hs : setDims ((k + 1 : Nat) : Int) =
      .ok { dims := (k + 1 : Nat), dim := List.replicate (k + 1) { size := 0, xmin := 0, xmax := 0 } } := by
    unfold setDims maxDims
    rw [if_neg (by omega), if_neg (by omega), Int.toNat_natCast]
  have hl : gridLoop lib c (k + 1) 0 ((k + 1 : Nat) : Int) none (List.replicate (k + 1) { size := 0, xmin := 0, xmax := 0 }) =
      .ok (List.replicate (k + 1) { size := 0, xmin := 0, xmax := 0 }) := by
    rw [gridLoop, hp]
    rfl
  have hz : points { dims := ((k + 1 : Nat) : Int), dim := List.replicate (k + 1) { size := 0, xmin := 0, xmax := 0 } } = 0 := by
    have := points_count (List.replicate (k + 1) { size := 0, xmin := 0, xmax := 0 }) (by simp)
    rw [List.length_replicate] at this
    rw [this, List.replicate_succ, count]
    simp
  rw [e]
  simp only [gridInit, hs, Int.toNat_natCast, hl, hz]
  refine ⟨_, rfl, rfl, ?_⟩
  exact List.length_eq_zero_iff.1 (resize_length _ _)

/-- A number of dimensions that is no number is not reported: the behaviour is undefined. -/
theorem C310_violated_dims (lib : Lib) (disk : Disk) (p : Pot) (c : Container) (t : Str)
    (h : OMap.find "dims".toList c.params = some t) (ht : lib.scanInt t = none) : init lib disk p c = .ub := by
  have hd : getInt lib c keyDims none = none := by
    simp only [getInt]
    rw [show OMap.find keyDims c.params = some t from h]
    simp [ht]
  simp only [init, hd]

/-- The hypotheses of the violations are met: no parameters; only `dims=2`; `dims=a`. -/
example : (OMap.find "dims".toList Container.empty.params = none ∧ NoFile Container.empty) ∧
    (IntAt exLib (setInt exLib Container.empty "dims".toList 2) "dims".toList (2 : Nat) ∧
      ¬ FirstGiven exLib (setInt exLib Container.empty "dims".toList 2)) ∧
    (OMap.find "dims".toList (Container.empty.setValue "dims".toList ['a'] .undef).params = some ['a'] ∧
      exLib.scanInt ['a'] = none) := by
  refine ⟨⟨rfl, rfl⟩, ⟨Or.inl ⟨exLib.showInt 2, ?_, exLib.scanInt_show 2⟩, ?_⟩, rfl, exLib_bad.1⟩
  · rw [setInt, find_set, if_pos rfl]
  · unfold FirstGiven setInt
    rw [find_set, if_neg]
    · simp [Container.empty, OMap.find]
    · intro h
      injection h with h _
      revert h
      decide

/-! ### C311 -/

/-- A potential set up with a file (no dimensions given, no reading failed before) has the grid and the values of the file.
If the files cannot be read, describe a grid that cannot be used or hold too few values, this is reported. -/
theorem C311_partial (lib : Lib) (disk : Disk) (p : Pot) (c : Container) (name : Str) (n : Int) (hb : p.busy = false)
    (hf : FileIs c name) (hd : IntAt lib c "dims".toList n) (hn : n ≤ 0) :
    (∀ ds values, Holds lib disk name ds values →
      ∃ p', init lib disk p c = .ok p' ∧ OnGrid p' ds ∧ p'.vals = values.map some ∧ p'.busy = false) ∧
    (disk name = none → ∃ p', init lib disk p c = .threw p') ∧
    (∀ m data ds, disk name = some (m, data) → Describes lib m ds → FirstGiven lib m → ds ≠ [] →
      (¬ Usable ds ∨ data = none ∨ ∃ l, data = some l ∧ (l.length : Int) < count ds) →
      ∃ p', init lib disk p c = .threw p') := by
  have hdims : getInt lib c keyDims none = some n := getInt_of hd _
  have ht : getText c ['f', 'i', 'l', 'e'] = name := by
    unfold getText
    rw [show OMap.find ['f', 'i', 'l', 'e'] c.params = some name from hf.1]
    rfl
  have e : init lib disk p c = (match readFile lib disk { p with busy := true } name with
      | .ok p' => .ok { p' with busy := false }
      | .threw p' => .threw p'
      | .ub => .ub) := by
    simp only [init, hdims, ht]
    rw [if_pos ⟨hn, by simpa using hf.2, hb⟩]
    all_goals (cases readFile lib disk { p with busy := true } name <;> rfl)
  rw [e]
  have hmeta : ∀ m ds, Describes lib m ds →
      initMeta lib { p with busy := true } m = gridInit lib { p with busy := true } m ds.length := by
    intro m ds hD
    have : getInt lib m keyDims none = some (ds.length : Int) := getInt_of hD.dims _
    simp only [initMeta, this]
  refine ⟨?_, ?_, ?_⟩
  · rintro ds values ⟨m, h1, h2, h3, h4, h5⟩
    have hne : ds ≠ [] := by
      intro h
      have := h4.1
      rw [h] at this
      simp at this
    have hg := (gridInit_spec (lib := lib) (c := m) { p with busy := true } ds h2 h3 hne).1 h4
    have hlen : (count ds).toNat = values.length := by rw [← h5, Int.toNat_natCast]
    have hcp := count_pos ds h4.2.2
    have hr : readFile lib disk { p with busy := true } name =
        .ok { busy := true, grid := { dims := ds.length, dim := ds }, vals := values.map some } := by
      simp only [readFile, h1, hmeta m ds h2, hg]
      rw [resize_length, if_neg (by omega), if_neg (by omega), hlen, List.take_length]
    rw [hr]
    exact ⟨_, rfl, rfl, rfl, rfl⟩
  · intro h
    simp only [readFile, h]
    exact ⟨_, rfl⟩
  · intro m data ds h1 h2 h3 hne h
    have hg := gridInit_spec (lib := lib) (c := m) { p with busy := true } ds h2 h3 hne
    by_cases hu : Usable ds
    · rcases h with h | h | ⟨l, h, hl⟩
      · exact absurd hu h
      · simp only [readFile, h1, hmeta m ds h2, hg.1 hu, h]
        by_cases hz : (resize p.vals (count ds).toNat).length = 0
        · rw [if_pos hz]; exact ⟨_, rfl⟩
        · rw [if_neg hz]; exact ⟨_, rfl⟩
      · simp only [readFile, h1, hmeta m ds h2, hg.1 hu, h]
        by_cases hz : (resize p.vals (count ds).toNat).length = 0
        · rw [if_pos hz]; exact ⟨_, rfl⟩
        · rw [if_neg hz, if_pos (by rw [resize_length]; omega)]; exact ⟨_, rfl⟩
    · obtain ⟨p', h', _, _⟩ := hg.2 hu
      simp only [readFile, h1, hmeta m ds h2, h']
      exact ⟨_, rfl⟩

/-- A file with 128 values on the example grid meets the hypotheses. -/
example : ∃ (disk : Disk) (c : Container), FileIs c ['V'] ∧ IntAt exLib c "dims".toList 0 ∧
    Holds exLib disk ['V'] exDims (List.replicate 128 (1 / 2)) := by
  obtain ⟨m, h1, h2⟩ := exDims_described
  refine ⟨fun _ => some (m, some (List.replicate 128 (1 / 2))), Container.empty.setValue "file".toList ['V'] .undef,
    ⟨rfl, by simp⟩, Or.inr ⟨rfl, rfl⟩, m, rfl, h1, h2, exDims_usable, ?_⟩
  rw [List.length_replicate]
  simp [exDims, count]

/-- If a grid is given as well, the file is not read at all, whatever is on the disk, and the values of a new potential are
never set. -/
theorem C311_violated_ignored (lib : Lib) (disk : Disk) (c : Container) (name : Str) (ds : List Dim) (_hf : FileIs c name)
    (hd : Describes lib c ds) (h0 : FirstGiven lib c) (hu : Usable ds) :
    ∃ p', (∀ disk', init lib disk' Pot.new c = .ok p') ∧ init lib disk Pot.new c = .ok p' ∧ OnGrid p' ds ∧
      0 < p'.vals.length ∧ ∀ v ∈ p'.vals, v = none := by
  have hne : ds ≠ [] := by
    intro h
    have := hu.1
    rw [h] at this
    simp at this
  have hg := (gridInit_spec (lib := lib) (c := c) Pot.new ds hd h0 hne).1 hu
  have hn : getInt lib c keyDims none = some (ds.length : Int) := getInt_of hd.dims _
  have hpos : 0 < ds.length := List.length_pos_iff.2 hne
  have e : ∀ disk', init lib disk' Pot.new c = gridInit lib Pot.new c ds.length := by
    intro disk'
    simp only [init, hn]
    rw [if_neg (fun h => by have := h.1; omega)]
  have hc := count_pos ds hu.2.2
  refine ⟨_, fun disk' => (e disk').trans hg, (e disk).trans hg, rfl, ?_, ?_⟩
  · show 0 < (resize [] (count ds).toNat).length
    rw [resize_length]
    omega
  · intro v hv
    change v ∈ resize [] (count ds).toNat at hv
    unfold resize at hv
    rw [if_neg (by simp; omega)] at hv
    exact (List.mem_replicate.1 hv).2

/-- After a file could not be read, the potential never reads a file again: a second set-up with a good file is accepted
and leaves the potential without values. -/
theorem C311_violated_retry (lib : Lib) (disk disk' : Disk) (c c' : Container) (name name' : Str)
    (hf : FileIs c name) (hd : IntAt lib c "dims".toList 0) (hbad : disk name = none)
    (_hf' : FileIs c' name') (hd' : IntAt lib c' "dims".toList 0) (ds : List Dim) (values : List ℚ)
    (_hgood : Holds lib disk' name' ds values) :
    ∃ p p', init lib disk Pot.new c = .threw p ∧ init lib disk' p c' = .ok p' ∧ p'.vals = [] := by
  have hdims : getInt lib c keyDims none = some 0 := getInt_of hd _
  have hdims' : getInt lib c' keyDims none = some 0 := getInt_of hd' _
  have ht : getText c ['f', 'i', 'l', 'e'] = name := by
    unfold getText
    rw [show OMap.find ['f', 'i', 'l', 'e'] c.params = some name from hf.1]
    rfl
  refine ⟨{ Pot.new with busy := true }, { Pot.new with busy := true }, ?_, ?_, rfl⟩
  · simp only [init, hdims, ht]
    rw [if_pos ⟨le_refl _, by simpa using hf.2, rfl⟩]
    simp only [readFile, hbad]
  · simp only [init, hdims']
    rw [if_neg (fun h => by have := h.2.2; cases this)]
    rfl

/-- The hypotheses are met by a missing file `W` and the file `V` of the example above. -/
example : ∃ (disk : Disk) (c c' : Container), FileIs c ['W'] ∧ IntAt exLib c "dims".toList 0 ∧ disk ['W'] = none ∧
    FileIs c' ['V'] ∧ IntAt exLib c' "dims".toList 0 ∧ Holds exLib disk ['V'] exDims (List.replicate 128 (1 / 2)) := by
  obtain ⟨m, h1, h2⟩ := exDims_described
  refine ⟨fun s => if s = ['V'] then some (m, some (List.replicate 128 (1 / 2))) else none,
    Container.empty.setValue "file".toList ['W'] .undef, Container.empty.setValue "file".toList ['V'] .undef,
    ⟨rfl, by simp⟩, Or.inr ⟨rfl, rfl⟩, rfl, ⟨rfl, by simp⟩, Or.inr ⟨rfl, rfl⟩, m, rfl, h1, h2, exDims_usable, ?_⟩
  rw [List.length_replicate]
  simp [exDims, count]

end QDng.PotIn
