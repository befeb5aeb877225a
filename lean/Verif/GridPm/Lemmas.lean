import Verif.GridPm.Spec
import Mathlib.Tactic.Linarith
import Mathlib.Tactic.NormNum
import Mathlib.Tactic.Positivity
import Mathlib.Tactic.FieldSimp
import Mathlib.Tactic.Ring

namespace QDng.GridPm

open QDng QDng.Params QDng.GridPm.Spec

variable {lib : Lib} {c : Container}

theorem showInt_inj {a b : Int} (h : lib.showInt a = lib.showInt b) : a = b := by
  have h1 := lib.scanInt_show a
  rw [h, lib.scanInt_show b] at h1
  exact (Option.some.inj h1).symm

theorem getInt_of {name : Str} {v : Int} (h : IntAt lib c name v) (cur : Option Int) :
    getInt lib c name cur = some v := by
  rcases h with ⟨t, h1, h2⟩ | ⟨h1, h2⟩
  · simp [getInt, h1, h2]
  · simp [getInt, h1, h2]

theorem getDbl_of {name : Str} {v : ℚ} (h : DblAt lib c name v) (cur : ℚ) :
    getDbl lib c name cur = v := by
  rcases h with ⟨t, h1, h2⟩ | ⟨h1, h2⟩
  · simp [getDbl, h1, h2]
  · simp [getDbl, h1, h2]

theorem initLoop_spec (h0 : c.isPresent (keyN lib 0) = true) (suf : List Dim) :
    ∀ (i : Nat) (n : Int) (d : ℚ) (acc : List Dim),
      (∀ (j : Nat) (x : Dim), suf[j]? = some x →
        IntAt lib c (keyN lib (i + j)) x.size ∧ DblAt lib c (keyMin lib (i + j)) x.xmin ∧
          DblAt lib c (keyMax lib (i + j)) x.xmax) →
      ((∀ x ∈ suf, 0 < x.size ∧ x.xmin < x.xmax) →
        initLoop lib c suf.length i n d acc = .ok (acc ++ suf)) ∧
      ((¬ ∀ x ∈ suf, 0 < x.size ∧ x.xmin < x.xmax) →
        initLoop lib c suf.length i n d acc = .err) := by
  induction suf with
  | nil => intro i n d acc _; simp [initLoop]
  | cons x xs ih =>
    intro i n d acc h
    obtain ⟨a1, a2, a3⟩ := h 0 x rfl
    have ih' := ih (i + 1) x.size x.xmax (acc ++ [x]) (by
      intro j y hy
      have := h (j + 1) y (by simpa using hy)
      rwa [show i + (j + 1) = i + 1 + j by omega] at this)
    have e : initLoop lib c (x :: xs).length i n d acc =
        if x.size ≤ 0 then .err else if x.xmax - x.xmin ≤ 0 then .err
        else initLoop lib c xs.length (i + 1) x.size x.xmax (acc ++ [x]) := by
      rw [List.length_cons, initLoop, if_pos h0]
      rw [getInt_of (name := keyN lib i) a1]
      simp only [getDbl_of (name := keyMin lib i) a2, getDbl_of (name := keyMax lib i) a3]
    rw [e]
    constructor
    · intro hv
      have hx := hv x (by simp)
      rw [if_neg (by omega), if_neg (by linarith [hx.2]),
        ih'.1 (fun y hy => hv y (List.mem_cons_of_mem _ hy))]
      simp
    · intro hv
      by_cases h1 : x.size ≤ 0
      · rw [if_pos h1]
      · rw [if_neg h1]
        by_cases h2 : x.xmax - x.xmin ≤ 0
        · rw [if_pos h2]
        · rw [if_neg h2]
          apply ih'.2
          intro h3
          apply hv
          intro y hy
          rcases List.mem_cons.1 hy with rfl | hy
          · exact ⟨by omega, by linarith⟩
          · exact h3 y hy

theorem sizeDefined_of {ds : List Dim} : sizeDefined { dims := ds.length, dim := ds } = true := by
  simp [sizeDefined]

theorem wfInit_describes {ds : List Dim} (h : Describes lib c ds)
    (h0 : c.isPresent (keyN lib 0) = true ∨ ds = []) :
    (Usable ds → wfInit lib c = .ok { dims := ds.length, dim := ds }) ∧
      (¬ Usable ds → wfInit lib c = .err) := by
  have hd : getInt lib c keyDims none = some (ds.length : Int) := getInt_of h.dims _
  rcases List.eq_nil_or_concat ds with rfl | hne
  · refine ⟨fun hu => absurd hu.1 (by simp), fun _ => ?_⟩
    simp [wfInit, initHeader, hd]
  · have hpos : 0 < ds.length := by
      obtain ⟨a, b, rfl⟩ := hne; simp
    have h0' : c.isPresent (keyN lib 0) = true := by
      rcases h0 with h0 | h0
      · exact h0
      · simp [h0] at hpos
    have hl := initLoop_spec h0' ds 0 0 0 [] (by
      intro j x hx
      rw [Nat.zero_add]
      exact h.entry j x hx)
    have hi : initHeader lib c =
        match initLoop lib c ds.length 0 0 0 [] with
        | .ok l => .ok { dims := ds.length, dim := l }
        | .err => .err
        | .ub => .ub := by
      simp only [initHeader, hd]
      rw [if_neg (by omega), Int.toNat_natCast] <;>
        cases initLoop lib c ds.length 0 0 0 [] <;> rfl
    constructor
    · intro hu
      simp only [wfInit, hi, hl.1 hu.2.2, List.nil_append, sizeDefined_of, if_true]
      rw [if_neg]
      have := hu.2.1
      simp only [maxDims]
      omega
    · intro hu
      by_cases hv : ∀ x ∈ ds, 0 < x.size ∧ x.xmin < x.xmax
      · simp only [wfInit, hi, hl.1 hv, List.nil_append, sizeDefined_of, if_true]
        rw [if_pos]
        simp only [maxDims]
        have : ¬ ds.length ≤ 4 := fun h4 => hu ⟨hpos, h4, hv⟩
        omega
      · simp only [wfInit, hi, hl.2 hv]

/-! ### Writing -/

theorem keyN_inj {i j : Nat} (h : keyN lib i = keyN lib j) : i = j := by
  have := showInt_inj (List.cons.inj h).2
  exact_mod_cast this

theorem keyMin_inj {i j : Nat} (h : keyMin lib i = keyMin lib j) : i = j := by
  simp only [keyMin, List.cons.injEq, true_and] at h
  exact_mod_cast showInt_inj h

theorem keyMax_inj {i j : Nat} (h : keyMax lib i = keyMax lib j) : i = j := by
  simp only [keyMax, List.cons.injEq, true_and] at h
  exact_mod_cast showInt_inj h

theorem find_set (c : Container) (k v k' : Str) (t : Datatype) :
    OMap.find k' (c.setValue k v t).params = if k' = k then some v else OMap.find k' c.params := by
  simp only [Container.setValue]
  rw [OMap.find_insert]
  by_cases h : k' = k <;> simp [h]

/-- What the loop writes: the three entries of each dimension, and nothing else. -/
theorem dumpLoop_spec (h : Header) : ∀ (k i : Nat) (c : Container), i + k ≤ h.dim.length →
    ∃ c', dumpLoop lib h k i c = some c' ∧
      (∀ j d, i ≤ j → j < i + k → h.dim[j]? = some d →
        OMap.find (keyN lib j) c'.params = some (lib.showInt d.size) ∧
        OMap.find (keyMin lib j) c'.params = some (lib.showDbl d.xmin) ∧
        OMap.find (keyMax lib j) c'.params = some (lib.showDbl d.xmax)) ∧
      (∀ key, (∀ j, i ≤ j → j < i + k → key ≠ keyN lib j ∧ key ≠ keyMin lib j ∧ key ≠ keyMax lib j) →
        OMap.find key c'.params = OMap.find key c.params) := by
  intro k
  induction k with
  | zero =>
    intro i c _
    exact ⟨c, rfl, fun j d h1 h2 => by omega, fun _ _ => rfl⟩
  | succ k ih =>
    intro i c hi
    have hlt : i < h.dim.length := by omega
    obtain ⟨c', e, hw, hk⟩ := ih (i + 1)
      (setInt lib (setDbl lib (setDbl lib c (keyMin lib i) h.dim[i].xmin) (keyMax lib i) h.dim[i].xmax)
        (keyN lib i) h.dim[i].size) (by omega)
    refine ⟨c', ?_, ?_, ?_⟩
    · rw [dumpLoop, List.getElem?_eq_getElem hlt]
      exact e
    · intro j d h1 h2 hd
      by_cases hj : j = i
      · subst hj
        rw [List.getElem?_eq_getElem hlt] at hd
        obtain rfl := Option.some.inj hd
        refine ⟨?_, ?_, ?_⟩
        · rw [hk]
          · simp [setInt, find_set]
          · intro l hl1 _
            refine ⟨fun he => ?_, by simp [keyN, keyMin], by simp [keyN, keyMax]⟩
            have := keyN_inj he; omega
        · rw [hk]
          · simp [setInt, setDbl, find_set, keyN, keyMin, keyMax]
          · intro l hl1 _
            refine ⟨by simp [keyN, keyMin], fun he => ?_, by simp [keyMin, keyMax]⟩
            have := keyMin_inj he; omega
        · rw [hk]
          · simp [setInt, setDbl, find_set, keyN, keyMin, keyMax]
          · intro l hl1 _
            refine ⟨by simp [keyN, keyMax], by simp [keyMin, keyMax], fun he => ?_⟩
            have := keyMax_inj he; omega
      · exact hw j d (by omega) (by omega) hd
    · intro key hkey
      rw [hk key (fun j h1 h2 => hkey j (by omega) (by omega))]
      obtain ⟨a1, a2, a3⟩ := hkey i (by omega) (by omega)
      simp [setInt, setDbl, find_set, a1, a2, a3]

theorem dump_spec (ds : List Dim) (c : Container) :
    ∃ c', dump lib { dims := ds.length, dim := ds } c = some c' ∧
      Describes lib c' (ds.map rounded) ∧
      (ds ≠ [] → c'.isPresent (keyN lib 0) = true) ∧
      (∀ key, key ≠ "dims".toList →
        (∀ j < ds.length, key ≠ "N".toList ++ lib.showInt j ∧ key ≠ "xmin".toList ++ lib.showInt j ∧
          key ≠ "xmax".toList ++ lib.showInt j) →
        OMap.find key c'.params = OMap.find key c.params) := by
  obtain ⟨c', e, hw, hk⟩ := dumpLoop_spec (lib := lib) { dims := ds.length, dim := ds } ds.length 0
    (setInt lib c keyDims ds.length) (by simp)
  refine ⟨c', by simpa [dump] using e, ⟨?_, ?_⟩, ?_, ?_⟩
  · left
    refine ⟨lib.showInt ds.length, ?_, by simp [lib.scanInt_show]⟩
    have := hk keyDims (by intro j _ _; simp [keyDims, keyN, keyMin, keyMax])
    rw [show "dims".toList = keyDims from rfl, this]
    simp [setInt, find_set]
  · intro i d hd
    rw [List.getElem?_map] at hd
    obtain ⟨x, hx, rfl⟩ := Option.map_eq_some_iff.1 hd
    have hi : i < ds.length := (List.getElem?_eq_some_iff.1 hx).1
    obtain ⟨a1, a2, a3⟩ := hw i x (by omega) (by omega) hx
    exact ⟨Or.inl ⟨_, a1, lib.scanInt_show _⟩, Or.inl ⟨_, a2, lib.scanDbl_show _⟩,
      Or.inl ⟨_, a3, lib.scanDbl_show _⟩⟩
  · intro hne
    have hpos : 0 < ds.length := List.length_pos_iff.2 hne
    obtain ⟨a1, _, _⟩ := hw 0 ds[0] (by omega) (by omega) (List.getElem?_eq_getElem hpos)
    simp [Container.isPresent, a1]
  · intro key hd hkey
    rw [hk key (fun j _ h2 => hkey j (by omega))]
    simp only [setInt, find_set]
    rw [if_neg (show key ≠ keyDims from hd)]

/-! ### Six digits -/

theorem zpow_p (e : Int) : (0 : ℚ) < 10 ^ e := zpow_pos (by norm_num) e

theorem six_exact {x : ℚ} (h : SixDigits x) : six x = x := by
  obtain ⟨m, k, hm, rfl⟩ := h
  unfold six
  by_cases h0 : (m : ℚ) * 10 ^ k = 0
  · rw [if_pos h0, h0]
  · rw [if_neg h0]
    set L := Int.log 10 |(m : ℚ) * 10 ^ k| with hL
    have hpos : 0 < |(m : ℚ) * 10 ^ k| := abs_pos.2 h0
    have hle : (10 : ℚ) ^ L ≤ |(m : ℚ) * 10 ^ k| := by
      have := Int.zpow_log_le_self (R := ℚ) (b := 10) (by norm_num) hpos
      exact_mod_cast this
    have hlt : |(m : ℚ) * 10 ^ k| < (10 : ℚ) ^ (k + 6) := by
      rw [abs_mul, abs_of_pos (zpow_p k),
        zpow_add₀ (by norm_num : (10 : ℚ) ≠ 0), mul_comm]
      apply mul_lt_mul_of_pos_left _ (zpow_p k)
      have : ((|m| : Int) : ℚ) < ((10 ^ 6 : Int) : ℚ) := by exact_mod_cast hm
      rw [Int.cast_abs] at this
      refine this.trans_le (le_of_eq ?_)
      norm_cast
    have hLk : L < k + 6 := by
      have := lt_of_le_of_lt hle hlt
      exact (zpow_lt_zpow_iff_right₀ (by norm_num : (1 : ℚ) < 10)).1 this
    obtain ⟨j, hj⟩ : ∃ j : Nat, (5 - L) + k = j := ⟨((5 - L) + k).toNat, by omega⟩
    have hint : (m : ℚ) * 10 ^ k * 10 ^ (5 - L) = ((m * 10 ^ j : Int) : ℚ) := by
      rw [mul_assoc, ← zpow_add₀ (by norm_num : (10 : ℚ) ≠ 0), add_comm k, hj]
      push_cast
      rw [zpow_natCast]
    rw [hint, round_intCast, ← hint]
    field_simp

theorem six_error (x : ℚ) : |six x - x| ≤ 5 / 10 ^ 6 * |x| := by
  unfold six
  by_cases h0 : x = 0
  · simp [h0]
  · rw [if_neg h0]
    set L := Int.log 10 |x| with hL
    have hpos : 0 < |x| := abs_pos.2 h0
    have hle : (10 : ℚ) ^ L ≤ |x| := by
      have := Int.zpow_log_le_self (R := ℚ) (b := 10) (by norm_num) hpos
      exact_mod_cast this
    have hp : (0 : ℚ) < 10 ^ (5 - L) := zpow_p _
    have h1 := abs_sub_round (x * 10 ^ (5 - L))
    have h2 : (round (x * 10 ^ (5 - L)) : ℚ) / 10 ^ (5 - L) - x =
        -((x * 10 ^ (5 - L) - round (x * 10 ^ (5 - L))) / 10 ^ (5 - L)) := by
      field_simp; ring
    rw [h2, abs_neg, abs_div, abs_of_pos hp, div_le_iff₀ hp]
    refine h1.trans ?_
    have h3 : (10 : ℚ) ^ (5 - L) = 10 ^ (5 : Nat) * (10 ^ L)⁻¹ := by
      rw [sub_eq_add_neg, zpow_add₀ (by norm_num : (10 : ℚ) ≠ 0), zpow_neg]
      norm_cast
    have h4 : (0 : ℚ) < 10 ^ L := zpow_p _
    rw [h3]
    have h5 : 1 ≤ |x| * (10 ^ L)⁻¹ := by
      rw [← div_eq_mul_inv, le_div_iff₀ h4]; linarith
    nlinarith

/-! ### Comparison -/

theorem eqLoop_false (a b : Header) : ∀ k i r, eqLoop a b k i false = some r → r = false := by
  intro k
  induction k with
  | zero => intro i r h; simpa [eqLoop] using h.symm
  | succ k ih =>
    intro i r h
    rw [eqLoop] at h
    split at h
    · apply ih (i + 1) r
      simpa using h
    · simp at h

theorem eqLoop_spec (a b : Header) : ∀ k i e, i + k ≤ a.dim.length → i + k ≤ b.dim.length →
    ∃ r, eqLoop a b k i e = some r ∧
      (r = true ↔ e = true ∧ ∀ j x y, i ≤ j → j < i + k → a.dim[j]? = some x → b.dim[j]? = some y →
        Close x y) := by
  intro k
  induction k with
  | zero =>
    intro i e _ _
    exact ⟨e, rfl, ⟨fun h => ⟨h, fun j x y h1 h2 => by omega⟩, fun h => h.1⟩⟩
  | succ k ih =>
    intro i e h1 h2
    have l1 : i < a.dim.length := by omega
    have l2 : i < b.dim.length := by omega
    rw [eqLoop, List.getElem?_eq_getElem l1, List.getElem?_eq_getElem l2]
    simp only
    obtain ⟨r, hr, hs⟩ := ih (i + 1)
      (if |a.dim[i].xmax - b.dim[i].xmax| > gridEps then false
       else if |a.dim[i].xmin - b.dim[i].xmin| > gridEps then false
       else if a.dim[i].size ≠ b.dim[i].size then false else e) (by omega) (by omega)
    refine ⟨r, hr, hs.trans ?_⟩
    have hc : (if |a.dim[i].xmax - b.dim[i].xmax| > gridEps then false
       else if |a.dim[i].xmin - b.dim[i].xmin| > gridEps then false
       else if a.dim[i].size ≠ b.dim[i].size then false else e) = true ↔
        e = true ∧ Close a.dim[i] b.dim[i] := by
      unfold Close
      rw [show (1 / 10 ^ 10 : ℚ) = gridEps from rfl]
      by_cases q1 : |a.dim[i].xmax - b.dim[i].xmax| > gridEps
      · simp only [if_pos q1]
        simp only [Bool.false_eq_true, false_iff]
        rintro ⟨_, _, _, h⟩; exact absurd h (not_le.2 q1)
      · rw [if_neg q1]
        by_cases q2 : |a.dim[i].xmin - b.dim[i].xmin| > gridEps
        · simp only [if_pos q2]
          simp only [Bool.false_eq_true, false_iff]
          rintro ⟨_, _, h, _⟩; exact absurd h (not_le.2 q2)
        · rw [if_neg q2]
          by_cases q3 : a.dim[i].size = b.dim[i].size
          · simp [q3, not_lt.1 q1, not_lt.1 q2]
          · simp [q3]
    rw [hc]
    constructor
    · rintro ⟨⟨he, hcl⟩, hall⟩
      refine ⟨he, fun j x y g1 g2 g3 g4 => ?_⟩
      by_cases hj : j = i
      · subst hj
        rw [List.getElem?_eq_getElem l1] at g3
        rw [List.getElem?_eq_getElem l2] at g4
        obtain rfl := Option.some.inj g3
        obtain rfl := Option.some.inj g4
        exact hcl
      · exact hall j x y (by omega) (by omega) g3 g4
    · rintro ⟨he, hall⟩
      exact ⟨⟨he, hall i _ _ (by omega) (by omega) (List.getElem?_eq_getElem l1)
        (List.getElem?_eq_getElem l2)⟩, fun j x y g1 g2 => hall j x y (by omega) (by omega)⟩

/-! ### Initialisation from arrays -/

theorem setLoop_spec (N : List Int) (lo hi : List ℚ) : ∀ (k i : Nat) (ds : List Dim),
    i + k = ds.length → i + k = N.length → i + k = lo.length → i + k = hi.length →
    ∃ ds', setLoop N lo hi k i ds = some ds' ∧ ds'.length = ds.length ∧
      ∀ j, ds'[j]? = if i ≤ j ∧ j < i + k then
          (match N[j]?, lo[j]?, hi[j]? with
           | some n, some l, some u => some { size := n, xmin := l, xmax := u }
           | _, _, _ => none)
        else ds[j]? := by
  intro k
  induction k with
  | zero =>
    intro i ds _ _ _ _
    refine ⟨ds, rfl, rfl, fun j => ?_⟩
    rw [if_neg (by omega)]
  | succ k ih =>
    intro i ds h1 h2 h3 h4
    have l1 : i < ds.length := by omega
    have l2 : i < N.length := by omega
    have l3 : i < lo.length := by omega
    have l4 : i < hi.length := by omega
    obtain ⟨ds', e, hl, hs⟩ := ih (i + 1)
      (ds.set i { size := N[i], xmin := lo[i], xmax := hi[i] }) (by simp; omega) (by omega) (by omega)
      (by omega)
    refine ⟨ds', ?_, by simpa using hl, fun j => ?_⟩
    · rw [setLoop, List.getElem?_eq_getElem l1, List.getElem?_eq_getElem l2,
        List.getElem?_eq_getElem l3, List.getElem?_eq_getElem l4]
      exact e
    · rw [hs j]
      by_cases hj : j = i
      · subst hj
        rw [if_neg (by omega), if_pos (by omega), List.getElem?_set_self l1,
          List.getElem?_eq_getElem l2, List.getElem?_eq_getElem l3, List.getElem?_eq_getElem l4]
      · rw [List.getElem?_set_ne (by omega)]
        by_cases hr : i ≤ j ∧ j < i + (k + 1)
        · rw [if_pos hr, if_pos (by omega)]
        · rw [if_neg hr, if_neg (by omega)]

end QDng.GridPm
