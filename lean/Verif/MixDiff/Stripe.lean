import Verif.MixDiff.Lemmas

/- Auxiliary statements: one stripe of the mixed derivative on a grid with two dimensions. -/

namespace QDng.MixDiff

open QDng.Common QDng.Grid QDng.Stencil

theorem coord_inj {n1 x x' y y' : Nat} (hx : x < n1) (hx' : x' < n1) (h : y * n1 + x = y' * n1 + x') : y = y' ∧ x = x' := by
  have hpos : 0 < n1 := by omega
  have h1 : (y * n1 + x) / n1 = y := by
    rw [Nat.mul_comm, Nat.mul_add_div hpos, Nat.div_eq_of_lt hx, Nat.add_zero]
  have h2 : (y' * n1 + x') / n1 = y' := by
    rw [Nat.mul_comm, Nat.mul_add_div hpos, Nat.div_eq_of_lt hx', Nat.add_zero]
  have hy : y = y' := by rw [← h1, h, h2]
  subst hy
  exact ⟨rfl, by omega⟩

theorem coord_lt {n1 n2 x y : Nat} (hx : x < n1) (hy : y < n2) : y * n1 + x < n1 * n2 := by
  have : (y + 1) * n1 ≤ n2 * n1 := Nat.mul_le_mul_right _ (by omega)
  rw [Nat.mul_comm n1 n2]
  rw [Nat.add_mul] at this
  omega

theorem coord_mod {n1 n2 x a : Nat} (hx : x < n1) : (a * n1 + x) % (n1 * n2) = a % n2 * n1 + x := by
  have hpos : 0 < n1 := by omega
  have h1 : (a * n1 + x) / n1 = a := by
    rw [Nat.mul_comm, Nat.mul_add_div hpos, Nat.div_eq_of_lt hx, Nat.add_zero]
  have h2 : (a * n1 + x) % n1 = x := by
    rw [Nat.mul_comm, Nat.mul_add_mod, Nat.mod_eq_of_lt hx]
  rw [Nat.mod_mul, h1, h2, Nat.mul_comm]
  omega

theorem inBlock_rows {n1 r b1 bs1 k x y : Nat} (hb : b1 + bs1 ≤ n1) (hx : x < n1) :
    InBlock (r * n1 + b1) 1 n1 bs1 k (y * n1 + x) ↔ r ≤ y ∧ y < r + k ∧ b1 ≤ x ∧ x < b1 + bs1 := by
  constructor
  · rintro ⟨x1, x2, h1, h2, h3⟩
    have h3' : y * n1 + x = (r + x2) * n1 + (b1 + x1) := by rw [h3, Nat.add_mul]; omega
    obtain ⟨ha, hb'⟩ := coord_inj hx (by omega) h3'
    omega
  · rintro ⟨h1, h2, h3, h4⟩
    refine ⟨x - b1, y - r, by omega, by omega, ?_⟩
    have : y * n1 = r * n1 + (y - r) * n1 := by rw [← Nat.add_mul]; congr 1; omega
    omega

theorem inBlock_cols {n1 r b1 bs1 k x y : Nat} (hb : b1 + bs1 ≤ n1) (hx : x < n1) :
    InBlock (r * n1 + b1) n1 1 k bs1 (y * n1 + x) ↔ r ≤ y ∧ y < r + k ∧ b1 ≤ x ∧ x < b1 + bs1 := by
  rw [← inBlock_rows hb hx]
  constructor
  · rintro ⟨x1, x2, h1, h2, h3⟩
    exact ⟨x2, x1, h2, h1, by omega⟩
  · rintro ⟨x1, x2, h1, h2, h3⟩
    exact ⟨x2, x1, h2, h1, by omega⟩

theorem inBlock_lt {n1 n2 r b1 bs1 k q : Nat} (hb : b1 + bs1 ≤ n1) (hr : r + k ≤ n2) :
    (InBlock (r * n1 + b1) 1 n1 bs1 k q → q < n1 * n2) ∧ (InBlock (r * n1 + b1) n1 1 k bs1 q → q < n1 * n2) := by
  constructor
  · rintro ⟨x1, x2, h1, h2, h3⟩
    have h3' : q = (r + x2) * n1 + (b1 + x1) := by rw [h3, Nat.add_mul]; omega
    rw [h3']
    exact coord_lt (by omega) (by omega)
  · rintro ⟨x1, x2, h1, h2, h3⟩
    have h3' : q = (r + x1) * n1 + (b1 + x2) := by rw [h3, Nat.add_mul]; omega
    rw [h3']
    exact coord_lt (by omega) (by omega)

section
variable {K : Type} [CommRing K]

open Classical in
/-- A block along the first dimension in coordinates. -/
theorem block_rows (p : Tab K) (hacc : p.acc = false) {n1 n2 : Nat} (hN : p.N = n1 * n2) (r b1 bs1 k : Nat) (z : Int)
    (hz : z = ((r * n1 + b1 : Nat) : Int)) (h : K) (inp s : List K) (hc : p.order2 < p.cf.length) (hi : inp.length = p.N)
    (hs : s.length = p.N) (hb : b1 + bs1 ≤ n1) (hr : r + k ≤ n2) (hlo : p.order2 * 1 ≤ p.N) :
    ∃ s', diffBlock2D p z 1 n1 bs1 k h inp s = some s' ∧ s'.length = p.N ∧ ∀ y x, y < n2 → x < n1 →
      s'.getD (y * n1 + x) 0 = if r ≤ y ∧ y < r + k ∧ b1 ≤ x ∧ x < b1 + bs1 then
        h * ring p.cf p.order2 p.N 1 p.df (fun i => inp.getD i 0) (y * n1 + x) else s.getD (y * n1 + x) 0 := by
  subst hz
  obtain ⟨s', h1, h2, h3, h4⟩ := diffBlock2D_spec p hacc (r * n1 + b1) 1 n1 bs1 k h inp s hc hi hs
    (fun q hq => hN ▸ (inBlock_lt hb hr).1 hq) hlo
  refine ⟨s', h1, h2, ?_⟩
  intro y x hy hx
  by_cases hin : r ≤ y ∧ y < r + k ∧ b1 ≤ x ∧ x < b1 + bs1
  · rw [if_pos hin, List.getD_eq_getElem?_getD, h3 _ ((inBlock_rows hb hx).2 hin), Option.getD_some]
  · rw [if_neg hin, List.getD_eq_getElem?_getD, List.getD_eq_getElem?_getD,
      h4 _ (fun hq => hin ((inBlock_rows hb hx).1 hq))]

open Classical in
/-- A block along the second dimension in coordinates. -/
theorem block_cols (p : Tab K) (hacc : p.acc = false) {n1 n2 : Nat} (hN : p.N = n1 * n2) (r b1 bs1 k : Nat) (z : Int)
    (hz : z = ((r * n1 + b1 : Nat) : Int)) (h : K) (inp s : List K) (hc : p.order2 < p.cf.length) (hi : inp.length = p.N)
    (hs : s.length = p.N) (hb : b1 + bs1 ≤ n1) (hr : r + k ≤ n2) (hlo : p.order2 * n1 ≤ p.N) :
    ∃ s', diffBlock2D p z n1 1 k bs1 h inp s = some s' ∧ s'.length = p.N ∧ ∀ y x, y < n2 → x < n1 →
      s'.getD (y * n1 + x) 0 = if r ≤ y ∧ y < r + k ∧ b1 ≤ x ∧ x < b1 + bs1 then
        h * ring p.cf p.order2 p.N n1 p.df (fun i => inp.getD i 0) (y * n1 + x) else s.getD (y * n1 + x) 0 := by
  subst hz
  obtain ⟨s', h1, h2, h3, h4⟩ := diffBlock2D_spec p hacc (r * n1 + b1) n1 1 k bs1 h inp s hc hi hs
    (fun q hq => hN ▸ (inBlock_lt hb hr).2 hq) hlo
  refine ⟨s', h1, h2, ?_⟩
  intro y x hy hx
  by_cases hin : r ≤ y ∧ y < r + k ∧ b1 ≤ x ∧ x < b1 + bs1
  · rw [if_pos hin, List.getD_eq_getElem?_getD, h3 _ ((inBlock_cols hb hx).2 hin), Option.getD_some]
  · rw [if_neg hin, List.getD_eq_getElem?_getD, List.getD_eq_getElem?_getD,
      h4 _ (fun hq => hin ((inBlock_cols hb hx).1 hq))]

/-- The derivative along the first dimension at each point. -/
def first (p : Par K) (inp : List K) (q : Nat) : K :=
  p.h1 * ring p.tab.cf p.tab.order2 p.tab.N 1 p.tab.df (fun i => inp.getD i 0) q

/-- The mixed derivative at each point. -/
def target (p : Par K) (inp : List K) (q : Nat) : K :=
  p.h2 * ring p.tab.cf p.tab.order2 p.tab.N p.n1 p.tab.df (first p inp) q

/-- The state of a grid with two dimensions in which the block sizes fit. -/
structure Fits (p : Par K) (L : Nat) : Prop where
  acc : p.tab.acc = false
  size : p.tab.N = p.n1 * p.n2
  lo1 : p.lo1 = 1
  lo2 : p.lo2 = p.n1
  row : p.tab.order2 < p.tab.cf.length
  pos1 : 0 < p.n1
  pos2 : 0 < p.tab.order2
  half : p.tab.order2 ≤ p.bs2
  last : p.last = L
  room : (L + 1) * p.bs2 + p.tab.order2 ≤ p.n2

theorem Fits.lo {p : Par K} {L : Nat} (f : Fits p L) : p.tab.order2 * p.n1 ≤ p.tab.N := by
  rw [f.size, Nat.mul_comm p.n1]
  exact Nat.mul_le_mul_right _ (by have := f.room; omega)

theorem Fits.loOne {p : Par K} {L : Nat} (f : Fits p L) : p.tab.order2 * 1 ≤ p.tab.N := by
  have h1 := f.lo
  have h2 : p.tab.order2 * 1 ≤ p.tab.order2 * p.n1 := Nat.mul_le_mul_left _ f.pos1
  omega

/-- The buffer holds the first derivative in the columns `b1` to `b1 + bs1` of the first `R` rows and of the last ones. -/
def BufGood (p : Par K) (inp : List K) (b1 R : Nat) (buf : List K) : Prop :=
  ∀ y x, y < p.n2 → b1 ≤ x → x < b1 + p.bs1 → (y < R ∨ p.n2 - p.tab.order2 ≤ y) →
    buf.getD (y * p.n1 + x) 0 = first p inp (y * p.n1 + x)

theorem ring_buf {p : Par K} {L : Nat} (f : Fits p L) (inp buf : List K) (b1 R : Nat) (hb : b1 + p.bs1 ≤ p.n1)
    (hg : BufGood p inp b1 R buf) (y x : Nat) (hx1 : b1 ≤ x) (hx2 : x < b1 + p.bs1) (hy : y + p.tab.order2 < R)
    (hR : R ≤ p.n2) :
    p.h2 * ring p.tab.cf p.tab.order2 p.tab.N p.n1 p.tab.df (fun i => buf.getD i 0) (y * p.n1 + x) =
      target p inp (y * p.n1 + x) := by
  unfold target
  congr 1
  have hx : x < p.n1 := by omega
  refine ring_congr _ _ _ _ _ _ _ _ ?_ ?_ ?_
  · exact hg y x (by omega) hx1 hx2 (Or.inl (by omega))
  · intro t ht
    have e : (y * p.n1 + x + (t + 1) * p.n1) = (y + t + 1) * p.n1 + x := by ring
    rw [e, f.size, coord_mod hx, Nat.mod_eq_of_lt (by omega)]
    exact hg _ x (by omega) hx1 hx2 (Or.inl (by omega))
  · intro t ht
    have e : (p.tab.N + (y * p.n1 + x) - (t + 1) * p.n1) = (p.n2 + y - (t + 1)) * p.n1 + x := by
      rw [f.size, Nat.mul_comm p.n1 p.n2]
      have hle : (t + 1) * p.n1 ≤ p.n2 * p.n1 := Nat.mul_le_mul_right _ (by omega)
      have h3 : (p.n2 + y - (t + 1)) * p.n1 = p.n2 * p.n1 + y * p.n1 - (t + 1) * p.n1 := by
        rw [Nat.sub_mul, Nat.add_mul]
      omega
    rw [e, f.size, coord_mod hx]
    by_cases hty : t + 1 ≤ y
    · have e2 : p.n2 + y - (t + 1) = p.n2 + (y - (t + 1)) := by omega
      rw [e2, Nat.add_mod_left, Nat.mod_eq_of_lt (by omega)]
      exact hg _ x (by omega) hx1 hx2 (Or.inl (by omega))
    · rw [Nat.mod_eq_of_lt (by omega)]
      exact hg _ x (by omega) hx1 hx2 (Or.inr (by omega))

/-- The state while the loop over the second dimension runs. -/
def Inv (p : Par K) (inp out0 : List K) (b1 j : Nat) (s : List K × List K) : Prop :=
  s.1.length = p.tab.N ∧ s.2.length = p.tab.N ∧ BufGood p inp b1 ((j + 1) * p.bs2) s.1 ∧
  (∀ y x, y < p.n2 → b1 ≤ x → x < b1 + p.bs1 → y < j * p.bs2 → s.2.getD (y * p.n1 + x) 0 = target p inp (y * p.n1 + x)) ∧
  (∀ y x, y < p.n2 → x < p.n1 → (¬ (b1 ≤ x ∧ x < b1 + p.bs1) ∨ j * p.bs2 ≤ y) →
    s.2.getD (y * p.n1 + x) 0 = out0.getD (y * p.n1 + x) 0)

theorem blockStep_inv {p : Par K} {L : Nat} (f : Fits p L) (inp out0 : List K) (hi : inp.length = p.tab.N) (b1 : Nat)
    (hb : b1 + p.bs1 ≤ p.n1) (j : Nat) (hj : j < L) (s : List K × List K) (hs : Inv p inp out0 b1 j s) :
    ∃ s', blockStep p inp (b1 : Int) j s = some s' ∧ Inv p inp out0 b1 (j + 1) s' := by
  obtain ⟨h1, h2, h3, h4, h5⟩ := hs
  have hroom := f.room
  have hmul : (j + 2) * p.bs2 ≤ (L + 1) * p.bs2 := Nat.mul_le_mul_right _ (by omega)
  have e1 : (j + 1) * p.bs2 = j * p.bs2 + p.bs2 := by rw [Nat.add_mul]; omega
  have e2 : (j + 2) * p.bs2 = j * p.bs2 + p.bs2 + p.bs2 := by rw [Nat.add_mul]; omega
  have hhalf := f.half
  unfold blockStep
  rw [f.lo1, f.lo2]
  obtain ⟨buf, k1, k2, k3⟩ := block_rows p.tab f.acc f.size ((j + 1) * p.bs2) b1 p.bs1 p.bs2
    ((b1 : Int) + j * p.bs2 * p.n1 + p.bs2 * p.n1) (by push_cast; ring_nf) p.h1 inp s.1 f.row hi h1 hb (by omega) f.loOne
  have hbg : BufGood p inp b1 ((j + 2) * p.bs2) buf := by
    intro y x hy hx1 hx2 hr
    rw [k3 y x hy (by omega)]
    by_cases hin : (j + 1) * p.bs2 ≤ y ∧ y < (j + 1) * p.bs2 + p.bs2 ∧ b1 ≤ x ∧ x < b1 + p.bs1
    · rw [if_pos hin]; rfl
    · rw [if_neg hin]
      refine h3 y x hy hx1 hx2 ?_
      rcases hr with hr | hr
      · left; omega
      · right; exact hr
  obtain ⟨out, m1, m2, m3⟩ := block_cols p.tab f.acc f.size (j * p.bs2) b1 p.bs1 p.bs2
    ((b1 : Int) + j * p.bs2 * p.n1) (by push_cast; ring_nf) p.h2 buf s.2 f.row k2 h2 hb (by omega) f.lo
  refine ⟨(buf, out), ?_, k2, m2, hbg, ?_, ?_⟩
  · simp only [k1, m1, Option.bind_some]
  · intro y x hy hx1 hx2 hyj
    show out.getD _ 0 = _
    rw [m3 y x hy (by omega)]
    by_cases hin : j * p.bs2 ≤ y ∧ y < j * p.bs2 + p.bs2 ∧ b1 ≤ x ∧ x < b1 + p.bs1
    · rw [if_pos hin]
      exact ring_buf f inp buf b1 _ hb hbg y x hx1 hx2 (by omega) (by omega)
    · rw [if_neg hin]
      exact h4 y x hy hx1 hx2 (by omega)
  · intro y x hy hx hr
    show out.getD _ 0 = _
    rw [m3 y x hy hx, if_neg (by omega)]
    exact h5 y x hy hx (by omega)

/-- What one stripe does: in its columns the rows that are far enough from the end of the blocks hold the mixed derivative, the
rows between the blocks and the last ones are kept, so are the other columns. -/
theorem stripe_spec {p : Par K} {L : Nat} (f : Fits p L) (inp : List K) (hi : inp.length = p.tab.N) (blk1 : Nat)
    (hb : blk1 * p.bs1 + p.bs1 ≤ p.n1) (s : List K × List K) (h1 : s.1.length = p.tab.N) (h2 : s.2.length = p.tab.N) :
    ∃ s', stripe p inp 0 blk1 s = some s' ∧ s'.1.length = p.tab.N ∧ s'.2.length = p.tab.N ∧
      (∀ y x, y < p.n2 → blk1 * p.bs1 ≤ x → x < blk1 * p.bs1 + p.bs1 → y + p.tab.order2 < (L + 1) * p.bs2 →
        s'.2.getD (y * p.n1 + x) 0 = target p inp (y * p.n1 + x)) ∧
      (∀ y x, y < p.n2 → x < p.n1 → (¬ (blk1 * p.bs1 ≤ x ∧ x < blk1 * p.bs1 + p.bs1) ∨
        ((L + 1) * p.bs2 ≤ y ∧ y < p.n2 - p.tab.order2)) → s'.2.getD (y * p.n1 + x) 0 = s.2.getD (y * p.n1 + x) 0) := by
  have hroom := f.room
  have e1 : (L + 1) * p.bs2 = L * p.bs2 + p.bs2 := by rw [Nat.add_mul]; omega
  have hhalf := f.half
  unfold stripe
  rw [f.lo1, f.lo2, f.last]
  generalize hb1 : blk1 * p.bs1 = b1 at *
  have hbase : ((0 : Int) + blk1 * p.bs1 * (1 : Nat)) = (b1 : Int) := by
    rw [← hb1]; push_cast; ring_nf
  rw [hbase]
  have hedge : ((p.tab.N : Int) + b1 - p.tab.order2 * p.n1).tmod p.tab.N =
      (((p.n2 - p.tab.order2) * p.n1 + b1 : Nat) : Int) := by
    have hlt : b1 < p.n1 := by
      by_cases hbz : p.bs1 = 0
      · rw [hbz, Nat.mul_zero] at hb1
        have := f.pos1
        omega
      · omega
    have hpos2 := f.pos2
    have hle : p.tab.order2 * p.n1 ≤ p.n2 * p.n1 := Nat.mul_le_mul_right _ (by omega)
    have e : ((p.tab.N : Int) + b1 - p.tab.order2 * p.n1) = (((p.n2 - p.tab.order2) * p.n1 + b1 : Nat) : Int) := by
      rw [f.size, Nat.sub_mul]
      rw [Nat.cast_add, Nat.cast_sub hle]
      push_cast
      ring_nf
    rw [e]
    show (((((p.n2 - p.tab.order2) * p.n1 + b1) % p.tab.N : Nat)) : Int) = _
    rw [f.size, coord_mod hlt, Nat.mod_eq_of_lt (by omega)]
  dsimp only
  rw [hedge]
  obtain ⟨bufA, a1, a2, a3⟩ := block_rows p.tab f.acc f.size (p.n2 - p.tab.order2) b1 p.bs1 p.tab.order2 _ rfl p.h1 inp s.1
    f.row hi h1 hb (by omega) f.loOne
  obtain ⟨bufB, c1, c2, c3⟩ := block_rows p.tab f.acc f.size 0 b1 p.bs1 p.bs2 (b1 : Int) (by push_cast; ring_nf) p.h1 inp bufA
    f.row hi a2 hb (by omega) f.loOne
  have hinv0 : Inv p inp s.2 b1 0 (bufB, s.2) := by
    refine ⟨c2, h2, ?_, ?_, fun y x _ _ _ => rfl⟩
    · intro y x hy hx1 hx2 hr
      rw [c3 y x hy (by omega)]
      by_cases hin : 0 ≤ y ∧ y < 0 + p.bs2 ∧ b1 ≤ x ∧ x < b1 + p.bs1
      · rw [if_pos hin]; rfl
      · rw [if_neg hin, a3 y x hy (by omega), if_pos (by omega)]
        rfl
    · intro y x hy _ _ h0
      omega
  obtain ⟨t, t1, t2, t3, t4, t5, t6⟩ := loop_inv L (blockStep p inp (b1 : Int)) (fun j s' => Inv p inp s.2 b1 j s') (bufB, s.2)
    hinv0 (fun j hj s' hs' => blockStep_inv f inp s.2 hi b1 hb j hj s' hs')
  obtain ⟨outA, d1, d2, d3⟩ := block_cols p.tab f.acc f.size (L * p.bs2) b1 p.bs1 p.bs2
    ((b1 : Int) + (L : Int) * p.bs2 * p.n1) (by push_cast; ring_nf) p.h2 t.1 t.2 f.row t2 t3 hb (by omega) f.lo
  obtain ⟨outB, g1, g2, g3⟩ := block_cols p.tab f.acc f.size (p.n2 - p.tab.order2) b1 p.bs1 p.tab.order2 _ rfl p.h2 t.1 outA
    f.row t2 d2 hb (by omega) f.lo
  refine ⟨(t.1, outB), ?_, t2, g2, ?_, ?_⟩
  · simp only [a1, c1, Option.bind_some, Int.toNat_natCast, t1, d1, g1]
  · intro y x hy hx1 hx2 hyl
    show outB.getD _ 0 = _
    rw [g3 y x hy (by omega), if_neg (by omega), d3 y x hy (by omega)]
    by_cases hin : L * p.bs2 ≤ y ∧ y < L * p.bs2 + p.bs2 ∧ b1 ≤ x ∧ x < b1 + p.bs1
    · rw [if_pos hin]
      exact ring_buf f inp t.1 b1 _ hb t4 y x hx1 hx2 hyl (by omega)
    · rw [if_neg hin]
      exact t5 y x hy hx1 hx2 (by omega)
  · intro y x hy hx hr
    show outB.getD _ 0 = _
    rw [g3 y x hy hx, if_neg (by omega), d3 y x hy hx, if_neg (by omega)]
    exact t6 y x hy hx (by omega)

end

end QDng.MixDiff
