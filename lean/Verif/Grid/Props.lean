import Verif.Grid.Lemmas
import Mathlib.Data.Rat.Defs
import Mathlib.Algebra.Field.Rat
import Mathlib.Algebra.Order.Ring.Unbundled.Rat
import Mathlib.Data.Rat.Cast.CharZero
import Mathlib.Tactic.NormNum

/-
Properties of grid addressing (C19), of one dimensional operations on a grid (C20), of momentum
grids (C22) and of the momentum grids of the difference operator (C64).
-/

namespace QDng.Grid

open QDng.Common

/-! ### C19 -/

/-- A grid as it is used: the parameters were assigned from `h`, then dimension `d` was
activated. -/
def Prepared (g : GridSys) (sizes : List Nat) (d : Nat) : Prop :=
  ∃ g0 h : GridSys, h.sizes = sizes ∧ activeDim (assign g0 h) d = some g

theorem prepared_spec {g : GridSys} {sizes : List Nat} {d : Nat} (h : Prepared g sizes d) :
    ∃ n, sizes[d]? = some n ∧ g.sizes = sizes ∧ g.active = some (d, n) ∧
      lowOthers g = some (lowOthersOf sizes d) ∧ numOthers g = some (numOthersOf sizes d) := by
  obtain ⟨g0, h0, rfl, hg⟩ := h
  unfold activeDim at hg
  have e : (assign g0 h0).sizes = h0.sizes := rfl
  rw [e] at hg
  cases hn : h0.sizes[d]? with
  | none => rw [hn] at hg; simp at hg
  | some n =>
    rw [hn] at hg
    simp only [Option.some.injEq] at hg
    subst hg
    have hd := getElem?_lt hn
    refine ⟨n, rfl, rfl, rfl, ?_, ?_⟩
    · simp [lowOthers, assign, buildInfo, List.getElem?_range hd]
    · simp [numOthers, assign, buildInfo, List.getElem?_range hd]

/-- C19: the linear index computed from the coordinate in the active dimension and the number of the
line is the place of the grid point, and the number of the line is the place of the other
coordinates in the grid without the active dimension. -/
theorem C19_address (g : GridSys) (sizes cs : List Nat) (d c : Nat) (hp : Prepared g sizes d)
    (hv : Valid cs sizes) (hc : cs[d]? = some c) :
    index g c (place (cs.eraseIdx d) (sizes.eraseIdx d)) = some (place cs sizes) := by
  obtain ⟨n, hn, _, ha, hl, _⟩ := prepared_spec hp
  have h := formula_place sizes cs d c n hv hc hn
  simp only [index, ha, hl]
  rw [if_neg (by have := h.1; omega), h.2.2]

/-- C19: the number of lines is the product of the sizes of the other dimensions and the total size
is the product of all sizes. -/
theorem C19_counts (g : GridSys) (sizes : List Nat) (d : Nat) (hp : Prepared g sizes d) :
    numOthers g = some (prodL (sizes.eraseIdx d)) ∧ size g = prodL sizes := by
  obtain ⟨n, hn, hs, _, _, ho⟩ := prepared_spec hp
  have hd := getElem?_lt hn
  refine ⟨by rw [ho, numOthersOf_eq _ _ hd], ?_⟩
  rw [size_eq g (by rw [hs]; intro h; simp [h] at hd), hs]

/-- C19: every pair (position on the line, line number) is mapped to a grid point with that
coordinate, and every grid point is reached by exactly one pair. -/
theorem C19_bijection (g : GridSys) (sizes : List Nat) (d n : Nat) (hp : Prepared g sizes d)
    (hn : sizes[d]? = some n) :
    (∀ i r, i < n → r < prodL (sizes.eraseIdx d) → ∃ cs, Valid cs sizes ∧ cs[d]? = some i ∧
      index g i r = some (place cs sizes) ∧ place cs sizes < size g) ∧
    (∀ p, p < size g → ∃ i r, i < n ∧ r < prodL (sizes.eraseIdx d) ∧ index g i r = some p ∧
      ∀ i' r', i' < n → r' < prodL (sizes.eraseIdx d) → index g i' r' = some p →
        i' = i ∧ r' = r) := by
  have hcnt := C19_counts g sizes d hp
  have hd := getElem?_lt hn
  have hidx : ∀ i r cs, Valid cs sizes → cs[d]? = some i →
      place (cs.eraseIdx d) (sizes.eraseIdx d) = r → index g i r = some (place cs sizes) := by
    intro i r cs h1 h2 h3
    rw [← h3]; exact C19_address g sizes cs d i hp h1 h2
  have first : ∀ i r, i < n → r < prodL (sizes.eraseIdx d) → ∃ cs, Valid cs sizes ∧
      cs[d]? = some i ∧ place (cs.eraseIdx d) (sizes.eraseIdx d) = r := by
    intro i r hi hr
    exact replica_coords sizes d n r i hn (by rw [numOthersOf_eq _ _ hd]; exact hr) hi
  constructor
  · intro i r hi hr
    obtain ⟨cs, h1, h2, h3⟩ := first i r hi hr
    exact ⟨cs, h1, h2, hidx i r cs h1 h2 h3, by rw [hcnt.2]; exact place_lt h1⟩
  · intro p hpz
    rw [hcnt.2] at hpz
    obtain ⟨cs, h1, h2⟩ := place_surj sizes p hpz
    have hcl : d < cs.length := by rw [valid_length h1]; exact hd
    have hc : cs[d]? = some cs[d] := List.getElem?_eq_getElem hcl
    have hf := formula_place sizes cs d cs[d] n h1 hc hn
    refine ⟨cs[d], place (cs.eraseIdx d) (sizes.eraseIdx d), valid_lt h1 hc hn, ?_, ?_, ?_⟩
    · rw [← numOthersOf_eq _ _ hd]; exact hf.2.1
    · rw [← h2]; exact hidx _ _ cs h1 hc rfl
    · intro i' r' hi' hr' he
      obtain ⟨cs', k1, k2, k3⟩ := first i' r' hi' hr'
      rw [hidx i' r' cs' k1 k2 k3] at he
      have e : place cs' sizes = place cs sizes := by
        rw [h2]; simpa using he
      have := place_inj k1 h1 e
      subst this
      rw [hc] at k2
      exact ⟨by simpa using k2.symm, k3.symm⟩

/-- C19: walking along the active dimension from the base of a line in steps of the stripe size
changes the coordinate of that dimension only. -/
theorem C19_walk (g : GridSys) (sizes cs : List Nat) (d c n i : Nat) (hp : Prepared g sizes d)
    (hv : Valid cs sizes) (hc : cs[d]? = some c) (hn : sizes[d]? = some n) (hi : i < n) :
    ∃ b lo, indexBase g (place (cs.eraseIdx d) (sizes.eraseIdx d)) = some b ∧
      lowOthers g = some lo ∧ b + i * lo = place (cs.set d i) sizes ∧
      Valid (cs.set d i) sizes := by
  obtain ⟨n', hn', _, ha, hl, _⟩ := prepared_spec hp
  rw [hn] at hn'
  have : n = n' := by simpa using hn'
  subst this
  have hf := formula_place sizes cs d c n hv hc hn
  have hcl := getElem?_lt hc
  have hv' : Valid (cs.set d i) sizes := by
    obtain ⟨pre, post, hs, hd⟩ := split_at sizes d n hn
    obtain ⟨a, b, ha, hd'⟩ := split_at cs d c hc
    subst hs ha
    have hl : a.length = pre.length := by omega
    have hva := (valid_append hl).1 hv
    have e : (a ++ c :: b).set d i = a ++ i :: b := by
      rw [List.set_append_right _ _ (by omega), hd', Nat.sub_self]; rfl
    rw [e, valid_append hl]
    exact ⟨hva.1, hi, hva.2.2⟩
  have hc' : (cs.set d i)[d]? = some i := by rw [List.getElem?_set_self hcl]
  have hf' := formula_place sizes (cs.set d i) d i n hv' hc' hn
  have he : (cs.set d i).eraseIdx d = cs.eraseIdx d := by
    obtain ⟨a, b, ha, hd'⟩ := split_at cs d c hc
    subst ha
    have e : (a ++ c :: b).set d i = a ++ i :: b := by
      rw [List.set_append_right _ _ (by omega), hd', Nat.sub_self]; rfl
    rw [e, ← hd', eraseIdx_mid, eraseIdx_mid]
  refine ⟨place (cs.eraseIdx d) (sizes.eraseIdx d) / lowOthersOf sizes d * n * lowOthersOf sizes d +
      place (cs.eraseIdx d) (sizes.eraseIdx d) % lowOthersOf sizes d,
    lowOthersOf sizes d, ?_, hl, ?_, hv'⟩
  · simp only [indexBase, ha, hl]
    rw [if_neg (by have := hf.1; omega)]
  · have := hf'.2.2
    rw [he] at this
    exact this

/-- C19 is about grids that exist: a grid of 3 times 4 times 5 points with the middle dimension
active; the point (2,3,1) lies on line 5 and has the linear index 23. -/
example : Prepared { sizes := [3, 4, 5], lothers := some [1, 3, 12], nothers := some [20, 15, 12]
                     active := some (1, 4) } [3, 4, 5] 1 ∧
    Valid [2, 3, 1] [3, 4, 5] ∧ place [2, 3, 1] [3, 4, 5] = 23 ∧
    place ([2, 3, 1].eraseIdx 1) ([3, 4, 5].eraseIdx 1) = 5 ∧
    index { sizes := [3, 4, 5], lothers := some [1, 3, 12], nothers := some [20, 15, 12]
            active := some (1, 4) } 3 5 = some 23 := by
  refine ⟨⟨{ sizes := [] }, { sizes := [3, 4, 5] }, rfl, by rfl⟩, ?_, by decide, by decide, by rfl⟩
  simp [Valid]

/-! ### C20 -/

/-- What a sequence of statements does to the value at one grid point. -/
def pointSpec {A B : Type} (steps : List (Step A B)) (cs : List Nat) (x : A) : A :=
  steps.foldl (fun old s =>
    match (cs[s.dim]?).bind (fun c => s.vec[c]?) with
    | some y => s.op old y
    | none => old) x

theorem run_spec {A B : Type} (dims : List Nat) (steps : List (Step A B)) (v : View A)
    (seen : List Nat) (prev : Option Nat) (hr : Ready v seen prev) (hdims : v.dims = dims)
    (hs : ∀ s ∈ steps, ∃ n, dims[s.dim]? = some n ∧ n ≤ s.vec.length)
    (ho : Once seen prev (steps.map Step.dim)) :
    ∃ w, v.run steps = some w ∧ w.data.length = v.data.length ∧
      ∀ cs, Valid cs dims →
        w.data[place cs dims]? = (v.data[place cs dims]?).map (pointSpec steps cs) := by
  induction steps generalizing v seen prev with
  | nil =>
    refine ⟨v, rfl, rfl, fun cs _ => ?_⟩
    cases v.data[place cs dims]? <;> rfl
  | cons s steps ih =>
    obtain ⟨n, hn, hvec⟩ := hs s List.mem_cons_self
    obtain ⟨w, h1, h2, h3, h4⟩ := ready_step v seen prev hr s.dim n s.op s.vec
      (by rw [hdims]; exact hn) hvec ho.1
    obtain ⟨u, k1, k2, k3⟩ := ih w (s.dim :: seen) (some s.dim) h2 (by rw [h3, hdims])
      (fun t ht => hs t (List.mem_cons_of_mem _ ht)) ho.2
    refine ⟨u, by simp [View.run, h1, k1], ?_, ?_⟩
    · rw [k2, h2.len, hr.len, h3]
    · intro cs hcs
      have hcl : s.dim < cs.length := by
        rw [valid_length hcs]; exact getElem?_lt hn
      have hc : cs[s.dim]? = some cs[s.dim] := List.getElem?_eq_getElem hcl
      have hlt := valid_lt hcs hc hn
      have hx : s.vec[cs[s.dim]]? = some (s.vec[cs[s.dim]]'(by omega)) :=
        List.getElem?_eq_getElem (by omega)
      have := h4 cs (by rw [hdims]; exact hcs) _ _ hc hx
      rw [hdims] at this
      rw [k3 cs hcs, this, Option.map_map]
      congr 1
      funext y
      simp [pointSpec, hcl, hx]

/-- C20, for statement sequences that activate each dimension once (or keep the active one): each
statement combines element `j` of its vector with exactly the grid points whose coordinate in the
dimension of the statement is `j`, each exactly once; nothing outside the data is touched.
Missing: returning to a dimension that was active before (see `C20_violated_returns`). -/
theorem C20_partial {A B : Type} (data : List A) (dims : List Nat) (steps : List (Step A B))
    (hdata : data.length = prodL dims)
    (hs : ∀ s ∈ steps, ∃ n, dims[s.dim]? = some n ∧ n ≤ s.vec.length)
    (ho : Once [] none (steps.map Step.dim)) :
    ∃ w, (View.new data dims).run steps = some w ∧ w.data.length = data.length ∧
      ∀ cs, Valid cs dims →
        w.data[place cs dims]? = (data[place cs dims]?).map (pointSpec steps cs) :=
  run_spec dims steps (View.new data dims) [] none (ready_new data dims hdata) rfl hs ho

/-- The hypotheses of `C20_partial` are met by multiplying a vector to the second and adding one to
the first dimension of a grid of 2 times 3 points. -/
example : ∃ (data : List Nat) (steps : List (Step Nat Nat)),
    data.length = prodL [2, 3] ∧
    (∀ s ∈ steps, ∃ n, [2, 3][s.dim]? = some n ∧ n ≤ s.vec.length) ∧
    Once [] none (steps.map Step.dim) ∧
    ((View.new data [2, 3]).run steps).map View.data = some [11, 22, 15, 27, 19, 32] := by
  refine ⟨[1, 2, 1, 2, 1, 2],
    [⟨1, (· * ·), [1, 2, 3]⟩, ⟨1, (· + ·), [0, 3, 6]⟩, ⟨0, (· + ·), [10, 20]⟩], rfl, ?_, ?_, rfl⟩
  · intro s hs
    simp at hs
    rcases hs with rfl | rfl | rfl
    · exact ⟨3, rfl, by simp⟩
    · exact ⟨3, rfl, by simp⟩
    · exact ⟨2, rfl, by simp⟩
  · simp [Once]

/-- C20 in general is violated: on a grid of 2 times 3 points, adding along the first, the second
and again the first dimension leaves out the points of the last line in the third statement. -/
theorem C20_violated_returns :
    let steps : List (Step Nat Nat) :=
      [⟨0, (· + ·), [1, 1]⟩, ⟨1, (· + ·), [1, 1, 1]⟩, ⟨0, (· + ·), [1, 1]⟩]
    ∃ w, (View.new [0, 0, 0, 0, 0, 0] [2, 3]).run steps = some w ∧
      w.data[place [0, 2] [2, 3]]? = some 2 ∧ pointSpec steps [0, 2] 0 = 3 :=
  ⟨_, rfl, rfl, rfl⟩

/-- C20 in general is violated: on a grid of 3 times 2 points the same statements read beyond the
end of the table of addresses. -/
theorem C20_violated_bounds :
    (View.new [0, 0, 0, 0, 0, 0] [3, 2]).run
      ([⟨0, (· + ·), [1, 1, 1]⟩, ⟨1, (· + ·), [1, 1]⟩, ⟨0, (· + ·), [1, 1, 1]⟩] :
        List (Step Nat Nat)) = none := rfl

/-! ### C22 -/

/-- C22: index `j` of the first derivative momentum grid holds the wave number of the Fourier
frequency `j`, times the prefactor; every element is set. -/
theorem C22_first {K : Type} [Field K] [CharZero K] (pi : K) (a : Axis K) (f : K) (h : 2 ≤ a.n) :
    ∃ k, init1Dddx pi a f = some k ∧ k.length = a.n ∧
      ∀ j, j < a.n → k[j]? = some (some (waveNumber pi a.n a.xmin a.xmax j * f)) := by
  refine ⟨_, init1Dddx_eq pi a f, by simp, ?_⟩
  intro j hj
  rw [List.getElem?_map, List.getElem?_range hj]
  simp only [Option.map_some, waveNumber, dk, length_eq a h, mul_assoc]

/-- C22: index `j` of the second derivative momentum grid holds minus the square of the wave number,
times the prefactor; every element is set. -/
theorem C22_second {K : Type} [Field K] [CharZero K] (pi : K) (a : Axis K) (f : K) (h : 2 ≤ a.n) :
    ∃ k, init1Dd2dx2 pi a f = some k ∧ k.length = a.n ∧
      ∀ j, j < a.n → k[j]? = some (some (-(waveNumber pi a.n a.xmin a.xmax j) ^ 2 * f)) := by
  refine ⟨_, init1Dd2dx2_eq pi a f, by simp, ?_⟩
  intro j hj
  rw [List.getElem?_map, List.getElem?_range hj]
  simp only [Option.map_some, waveNumber, dk, length_eq a h]

/-- C22: with a mass the grid holds the kinetic energy of the wave number. -/
theorem C22_kinetic {K : Type} [Field K] [CharZero K] (pi mass : K) (a : Axis K) (h : 2 ≤ a.n) :
    ∃ k, init1Dkin pi mass a = some k ∧ k.length = a.n ∧
      ∀ j, j < a.n →
        k[j]? = some (some ((waveNumber pi a.n a.xmin a.xmax j) ^ 2 / (2 * mass))) := by
  obtain ⟨k, h1, h2, h3⟩ := C22_second pi a (-1 / (2 * mass)) h
  refine ⟨k, h1, h2, ?_⟩
  intro j hj
  rw [h3 j hj]
  congr 2
  ring

/-- C22: indices `j` and `N - j` carry opposite frequencies, except for the Nyquist frequency. -/
theorem C22_opposite (n j : Nat) (hj : j < n) (hn : 2 * j ≠ n) :
    freq n (n - j) = - freq n j := by
  unfold freq
  by_cases h : 2 * j < n
  · rw [if_pos h, if_neg (by omega)]; omega
  · rw [if_neg h, if_pos (by omega)]; omega

/-- A momentum grid of four points with spacing 1: frequencies 0, 1, -2, -1. -/
example : (2 ≤ (Axis.mk 4 (0 : ℚ) 3).n) ∧
    init1Dddx (1 : ℚ) ⟨4, 0, 3⟩ 2 = some [some 0, some 1, some (-2), some (-1)] := by
  refine ⟨by decide, ?_⟩
  rw [init1Dddx_eq]
  simp [freq, dk, Axis.dx, List.range_succ]
  norm_num

/-! ### C64 -/

/-- The hypotheses of the properties of the difference operator: each dimension has at least two
points and a prefactor. -/
def DiffPar.Ok {K : Type} (p : DiffPar K) : Prop :=
  (∀ a ∈ p.axes, 2 ≤ a.n) ∧ p.axes.length ≤ p.pfac.length ∧ p.axes ≠ []

theorem diff_size {K : Type} (p : DiffPar K) (h : p.axes ≠ []) :
    size { sizes := p.sizes } = prodL p.sizes := by
  apply size_eq
  simpa [DiffPar.sizes] using h

/-- C64: the momentum grid for the derivative along one dimension holds at each grid point the wave
number of the coordinate in that dimension (for the second derivative minus its square) times the
prefactor of the dimension. -/
theorem C64_single {K : Type} [Field K] [CharZero K] (pi : K) (p : DiffPar K) (hp : p.Ok)
    (i : Nat) (a : Axis K) (f : K) (ha : p.axes[i]? = some a) (hf : p.pfac[i]? = some f) :
    ∃ k, diffSingle pi p i = some k ∧ k.length = prodL p.sizes ∧
      ∀ cs c, Valid cs p.sizes → cs[i]? = some c →
        k[place cs p.sizes]? = some (some (
          if p.deriv = 1 then waveNumber pi a.n a.xmin a.xmax c * f
          else -(waveNumber pi a.n a.xmin a.xmax c) ^ 2 * f)) := by
  have hn : p.sizes[i]? = some a.n := by simp [DiffPar.sizes, ha]
  have h2 : 2 ≤ a.n := hp.1 a (List.mem_of_getElem? ha)
  have hk : ∃ k1, kspace1For pi p i = some k1 ∧ k1.length = a.n ∧
      ∀ j, j < a.n → k1[j]? = some (some (
          if p.deriv = 1 then waveNumber pi a.n a.xmin a.xmax j * f
          else -(waveNumber pi a.n a.xmin a.xmax j) ^ 2 * f)) := by
    simp only [kspace1For, ha, hf]
    by_cases hd : p.deriv = 1
    · simp only [if_pos hd]; exact C22_first pi a f h2
    · simp only [if_neg hd]; exact C22_second pi a f h2
  obtain ⟨k1, e1, e2, e3⟩ := hk
  have hlen : (List.replicate (size { sizes := p.sizes }) (some (1 : K))).length =
      prodL p.sizes := by
    rw [List.length_replicate, diff_size p hp.2.2]
  obtain ⟨w, h3, h4, h5, h6⟩ := ready_step _ [] none (ready_new _ p.sizes hlen) i a.n setOp k1 hn
    (by omega) (Or.inl (by simp))
  refine ⟨w.data, ?_, ?_, ?_⟩
  · simp only [diffSingle, e1, Option.bind_some]
    rw [h3]; rfl
  · rw [h4.len, h5]; rfl
  · intro cs c hcs hc
    have hlt := valid_lt hcs hc hn
    have hpl := place_lt hcs
    have := h6 cs hcs c _ hc (e3 c hlt)
    have h7 : (View.new (List.replicate (size { sizes := p.sizes }) (some (1 : K)))
        p.sizes).data[place cs p.sizes]? = some (some 1) := by
      show (List.replicate (size { sizes := p.sizes }) (some (1 : K)))[place cs p.sizes]? = _
      rw [diff_size p hp.2.2]
      simp [hpl]
    exact this.trans (by rw [show ((View.new (List.replicate (size { sizes := p.sizes })
      (some (1 : K))) p.sizes).data[place cs (View.new (List.replicate (size { sizes := p.sizes })
      (some (1 : K))) p.sizes).dims]?) = some (some 1) from h7]; rfl)

/-- The contribution of dimension `d` to the sum of second derivatives at the point `cs`. -/
def collTerm {K : Type} [Field K] (pi : K) (p : DiffPar K) (cs : List Nat) (d : Nat) : K :=
  match p.axes[d]?, p.pfac[d]?, cs[d]? with
  | some a, some f, some c => -(waveNumber pi a.n a.xmin a.xmax c) ^ 2 * f
  | _, _, _ => 0

/-- C64: the momentum grid for the sum of all second derivatives holds at each grid point the sum
over the dimensions of minus the squared wave number times the prefactor. -/
theorem C64_collective {K : Type} [Field K] [CharZero K] (pi : K) (p : DiffPar K) (hp : p.Ok) :
    ∃ k, diffColl pi p = some k ∧ k.length = prodL p.sizes ∧
      ∀ cs, Valid cs p.sizes →
        k[place cs p.sizes]? = some (some (sumTo (collTerm pi p cs) p.axes.length)) := by
  have hlen : (List.replicate (size { sizes := p.sizes }) (some (0 : K))).length =
      prodL p.sizes := by
    rw [List.length_replicate, diff_size p hp.2.2]
  have key := loop_inv p.axes.length (fun i (v : View (Option K)) =>
    match p.axes[i]?, p.pfac[i]? with
    | some a, some f =>
      (init1Dd2dx2 pi a f).bind (fun k => (v.activeDim i).bind (fun v => v.zip addOp k))
    | _, _ => none)
    (fun m v => v.dims = p.sizes ∧ (∃ prev, Ready v (List.range m).reverse prev) ∧
      ∀ cs, Valid cs p.sizes →
        v.data[place cs p.sizes]? = some (some (sumTo (collTerm pi p cs) m)))
    (View.new (List.replicate (size { sizes := p.sizes }) (some (0 : K))) p.sizes)
    ⟨rfl, ⟨none, ready_new _ p.sizes hlen⟩, by
      intro cs hcs
      have hpl := place_lt hcs
      show (List.replicate (size { sizes := p.sizes }) (some (0 : K)))[place cs p.sizes]? = _
      rw [diff_size p hp.2.2]
      simp [hpl, sumTo]⟩ (by
    intro m hm v ⟨hv1, ⟨prev, hv2⟩, hv3⟩
    have ha : p.axes[m]? = some p.axes[m] := List.getElem?_eq_getElem hm
    have hf : p.pfac[m]? = some (p.pfac[m]'(by have := hp.2.1; omega)) :=
      List.getElem?_eq_getElem (by have := hp.2.1; omega)
    have hn : p.sizes[m]? = some p.axes[m].n := by simp [DiffPar.sizes, ha]
    have h2 : 2 ≤ p.axes[m].n := hp.1 _ (List.getElem_mem hm)
    obtain ⟨k1, e1, e2, e3⟩ := C22_second pi p.axes[m] (p.pfac[m]'(by have := hp.2.1; omega)) h2
    obtain ⟨w, h3, h4, h5, h6⟩ := ready_step v _ prev hv2 m p.axes[m].n addOp k1
      (by rw [hv1]; exact hn) (by omega) (Or.inl (by simp))
    refine ⟨w, ?_, by rw [h5, hv1], ⟨some m, ?_⟩, ?_⟩
    · simp only [ha, hf, e1, Option.bind_some]
      exact h3
    · rw [List.range_succ, List.reverse_append]
      exact h4
    · intro cs hcs
      have hcl : m < cs.length := by rw [valid_length hcs]; simpa [DiffPar.sizes] using hm
      have hc : cs[m]? = some cs[m] := List.getElem?_eq_getElem hcl
      have hlt := valid_lt hcs hc hn
      have := h6 cs (by rw [hv1]; exact hcs) _ _ hc (e3 _ hlt)
      rw [hv1, hv3 cs hcs] at this
      rw [this]
      simp only [Option.map_some, addOp, sumTo, collTerm, ha, hf, hc])
  obtain ⟨w, h1, h2, ⟨prev, h3⟩, h4⟩ := key
  refine ⟨w.data, ?_, by rw [h3.len, h2], h4⟩
  exact congrArg (Option.map View.data) h1

/-- C64, mixed derivative: what the momentum grid for the derivative along the dimensions `i` and
`j` holds.  It is the wave number of dimension `j` alone, with the prefactor of dimension `i`. -/
theorem C64_mixed_value {K : Type} [Field K] [CharZero K] (pi : K) (p : DiffPar K) (hp : p.Ok)
    (i j : Nat) (ai aj : Axis K) (f : K) (hi : p.axes[i]? = some ai) (hj : p.axes[j]? = some aj)
    (hf : p.pfac[i]? = some f) :
    ∃ k, diffMixed pi p i j = some k ∧ k.length = prodL p.sizes ∧
      ∀ cs c, Valid cs p.sizes → cs[j]? = some c →
        k[place cs p.sizes]? = some (some (waveNumber pi aj.n aj.xmin aj.xmax c * f)) := by
  have hni : p.sizes[i]? = some ai.n := by simp [DiffPar.sizes, hi]
  have hnj : p.sizes[j]? = some aj.n := by simp [DiffPar.sizes, hj]
  obtain ⟨k1, e1, e2, e3⟩ := C22_first pi ai f (hp.1 ai (List.mem_of_getElem? hi))
  obtain ⟨k2, f1, f2, f3⟩ := C22_first pi aj f (hp.1 aj (List.mem_of_getElem? hj))
  have hlen : (List.replicate (size { sizes := p.sizes }) (none : Option K)).length =
      prodL p.sizes := by
    rw [List.length_replicate, diff_size p hp.2.2]
  obtain ⟨w, h3, h4, h5, h6⟩ := ready_step _ [] none (ready_new _ p.sizes hlen) i ai.n setOp k1 hni
    (by omega) (Or.inl (by simp))
  have h5' : w.dims = p.sizes := h5
  obtain ⟨u, g3, g4, g5, g6⟩ := ready_step w _ _ h4 j aj.n setOp k2
    (by rw [h5']; exact hnj) (by omega) (by
      by_cases e : j = i
      · right; rw [e]
      · left; simpa using e)
  refine ⟨u.data, ?_, by rw [g4.len, g5, h5'], ?_⟩
  · simp only [diffMixed, hi, hj, hf, e1, Option.bind_some]
    rw [h3]
    simp only [Option.bind_some, f1]
    rw [g3]; rfl
  · intro cs c hcs hc
    have hlt := valid_lt hcs hc hnj
    have hpl := place_lt hcs
    have := g6 cs (by rw [h5']; exact hcs) c _ hc (f3 c hlt)
    rw [h5'] at this
    have hwl : place cs p.sizes < w.data.length := by rw [h4.len, h5']; exact hpl
    rw [List.getElem?_eq_getElem hwl] at this
    exact this

/-- C64 is violated for mixed derivatives: at a point with wave number zero in dimension 1 the
product of the two wave numbers is zero, but the momentum grid for the dimensions 1 and 0 holds the
wave number of dimension 0. -/
theorem C64_violated_mixed (pi : ℚ) (hpi : pi ≠ 0) :
    let p : DiffPar ℚ := ⟨[⟨4, 0, 3⟩, ⟨4, 0, 3⟩], 1, [1, 1]⟩
    p.Ok ∧ waveNumber pi 4 0 3 1 * waveNumber pi 4 0 3 0 = 0 ∧
    ∃ k x, diffMixed pi p 1 0 = some k ∧ k[place [1, 0] p.sizes]? = some (some x) ∧ x ≠ 0 := by
  intro p
  have hp : p.Ok := by
    refine ⟨?_, by simp [p], by simp [p]⟩
    intro a ha
    simp [p] at ha
    subst ha
    decide
  refine ⟨hp, ?_, ?_⟩
  · simp [waveNumber, freq]
  · obtain ⟨k, h1, _, h3⟩ := C64_mixed_value pi p hp 1 0 ⟨4, 0, 3⟩ ⟨4, 0, 3⟩ 1 rfl rfl rfl
    refine ⟨k, _, h1, h3 [1, 0] 1 (by simp [Valid, p, DiffPar.sizes]) rfl, ?_⟩
    simp only [waveNumber, freq]
    norm_num
    exact hpi

/-- The hypotheses of C64 are met by a grid of 4 times 6 points. -/
example : DiffPar.Ok (⟨[⟨4, 0, 3⟩, ⟨6, 0, 5⟩], 2, [1, 1]⟩ : DiffPar ℚ) := by
  refine ⟨?_, by simp, by simp⟩
  intro a ha
  simp at ha
  rcases ha with rfl | rfl <;> decide

end QDng.Grid
