import Verif.Stencil.Model
import Verif.Stencil.Spec
import Verif.Grid.Lemmas
import Mathlib.Tactic.Ring
import Mathlib.Tactic.Linarith

/-
Lemmas for the finite difference properties.
-/

namespace QDng.Stencil

open QDng.Common QDng.Grid

theorem sumTo_congr {K : Type} [Zero K] [Add K] (f g : Nat → K) (n : Nat)
    (h : ∀ k, k < n → f k = g k) : sumTo f n = sumTo g n := by
  induction n with
  | zero => rfl
  | succ n ih =>
    simp only [sumTo]
    rw [ih (fun k hk => h k (by omega)), h n (by omega)]

theorem sumTo_split {K : Type} [CommRing K] (f : Nat → K) (a b : Nat) :
    sumTo f (a + b) = sumTo f a + sumTo (fun t => f (a + t)) b := by
  induction b with
  | zero => simp [sumTo]
  | succ b ih =>
    rw [← Nat.add_assoc]
    simp only [sumTo]
    rw [ih]
    ring

theorem sumTo_add {K : Type} [CommRing K] (f g : Nat → K) (n : Nat) :
    sumTo (fun t => f t + g t) n = sumTo f n + sumTo g n := by
  induction n with
  | zero => simp [sumTo]
  | succ n ih =>
    simp only [sumTo]
    rw [ih]
    ring

theorem loop_sum1 {K : Type} [CommRing K] (n : Nat) (body : Nat → K → Option K)
    (f : Nat → K) (h : ∀ t, t < n → ∀ s, body t s = some (s + f t)) (s : K) :
    loop n body s = some (s + sumTo f n) := by
  induction n with
  | zero => simp [loop, sumTo]
  | succ n ih =>
    simp only [loop, sumTo]
    rw [ih (fun t ht => h t (by omega)), Option.bind_some, h n (by omega), add_assoc]

theorem loop_sum2 {K : Type} [CommRing K] (n : Nat) (body : Nat → K × K → Option (K × K))
    (f g : Nat → K) (h : ∀ t, t < n → ∀ s, body t s = some (s.1 + f t, s.2 + g t)) (s : K × K) :
    loop n body s = some (s.1 + sumTo f n, s.2 + sumTo g n) := by
  induction n with
  | zero => simp [loop, sumTo]
  | succ n ih =>
    simp only [loop, sumTo]
    rw [ih (fun t ht => h t (by omega)), Option.bind_some, h n (by omega)]
    simp only [add_assoc]

/-- The data of one line: coefficients, values, geometry. -/
structure Good {K : Type} [CommRing K] (p : Line K) (inp : List K) (L : Nat) (c : Nat → K)
    (ψ : Int → K) : Prop where
  base : 0 ≤ p.base
  lo : 0 < p.lo
  wide : 2 * p.order2 ≤ p.nx
  coef : ∀ m, m ≤ p.order2 → p.c ((p.order2 : Int) - m) = some (c m)
  val : ∀ x : Int, 0 ≤ x → x < p.nx → rd inp (p.base + x * p.lo) = some (ψ x)
  room : ∀ x : Int, 0 ≤ x → x < p.nx → p.base + x * p.lo < L
  left : ∀ x : Int, - (p.order2 : Int) ≤ x → x < 0 → ψ x = if p.pbc then ψ (x + p.nx) else 0
  right : ∀ x : Int, (p.nx : Int) ≤ x → x < p.nx + p.order2 →
    ψ x = if p.pbc then ψ (x - p.nx) else 0

variable {K : Type} [CommRing K] {p : Line K} {inp : List K} {L : Nat} {c : Nat → K} {ψ : Int → K}

theorem Good.cAt (h : Good p inp L c ψ) (m : Nat) (hm : m ≤ p.order2) (z : Int)
    (hz : z = (p.order2 : Int) - m) : p.c z = some (c m) := by
  rw [hz]; exact h.coef m hm

theorem Good.rdAt (h : Good p inp L c ψ) (x z : Int) (h0 : 0 ≤ x) (h1 : x < p.nx)
    (hz : z = p.base + x * p.lo) : rd inp z = some (ψ x) := by
  rw [hz]; exact h.val x h0 h1

theorem edgeA_spec (h : Good p inp L c ψ) (i : Nat) (hi : i < p.order2) (t : Nat) (ht : t < i)
    (s : K × K) :
    edgeA p inp i t s = some
      (s.1 + c (t + 1) * (ψ ((i : Int) - (t + 1)) + p.df * ψ ((i : Int) + (t + 1))),
       s.2 + c (t + 1) * (ψ (((p.nx : Int) - 1 - i) - (t + 1)) +
          p.df * ψ (((p.nx : Int) - 1 - i) + (t + 1)))) := by
  have hw := h.wide
  unfold edgeA
  dsimp only
  rw [h.cAt (t + 1) (by omega) _ (by push_cast; ring),
    h.rdAt ((i : Int) - (t + 1)) (p.base + i * p.lo - ((t : Int) + 1) * p.lo)
      (by omega) (by omega) (by ring),
    h.rdAt ((i : Int) + (t + 1)) (p.base + i * p.lo + ((t : Int) + 1) * p.lo)
      (by omega) (by omega) (by ring),
    h.rdAt (((p.nx : Int) - 1 - i) - (t + 1))
      (p.base + ((p.nx : Int) - i - 1) * p.lo - ((t : Int) + 1) * p.lo)
      (by omega) (by omega) (by ring),
    h.rdAt (((p.nx : Int) - 1 - i) + (t + 1))
      (p.base + ((p.nx : Int) - i - 1) * p.lo + ((t : Int) + 1) * p.lo)
      (by omega) (by omega) (by ring)]

theorem edgeB_spec (h : Good p inp L c ψ) (i : Nat) (hi : i < p.order2) (t : Nat)
    (ht : t < p.order2 - i) (s : K × K) :
    edgeB p inp i t s = some
      (s.1 + c (i + t + 1) * (p.df * ψ ((i : Int) + ((i + t : Nat) + 1))),
       s.2 + c (i + t + 1) * ψ (((p.nx : Int) - 1 - i) - ((i + t : Nat) + 1))) := by
  have hw := h.wide
  unfold edgeB
  dsimp only
  rw [h.cAt (i + t + 1) (by omega) _ (by push_cast; ring),
    h.rdAt ((i : Int) + ((i + t : Nat) + 1)) (p.base + i * p.lo + ((i : Int) + 1 + t) * p.lo)
      (by omega) (by omega) (by push_cast; ring),
    h.rdAt (((p.nx : Int) - 1 - i) - ((i + t : Nat) + 1))
      (p.base + ((p.nx : Int) - i - 1) * p.lo - ((i : Int) + 1 + t) * p.lo)
      (by omega) (by omega) (by push_cast; ring)]
  simp only [Option.some.injEq, Prod.mk.injEq, and_true]
  ring

theorem edgeC_spec (h : Good p inp L c ψ) (i : Nat) (hi : i < p.order2) (t : Nat)
    (ht : t < p.order2 - i) (s : K × K) :
    edgeC p inp i t s = some
      (s.1 + c (i + t + 1) * ψ ((i : Int) - ((i + t : Nat) + 1) + p.nx),
       s.2 + c (i + t + 1) *
        (p.df * ψ (((p.nx : Int) - 1 - i) + ((i + t : Nat) + 1) - p.nx))) := by
  have hw := h.wide
  unfold edgeC
  dsimp only
  rw [h.cAt (i + t + 1) (by omega) _ (by push_cast; ring),
    h.rdAt ((i : Int) - ((i + t : Nat) + 1) + p.nx)
      (p.base + (p.nx : Int) * p.lo - ((t : Int) + 1) * p.lo)
      (by omega) (by omega) (by push_cast; ring),
    h.rdAt (((p.nx : Int) - 1 - i) + ((i + t : Nat) + 1) - p.nx)
      (p.base + ((t : Int) + 1) * p.lo - p.lo)
      (by omega) (by omega) (by push_cast; ring)]
  simp only [Option.some.injEq, Prod.mk.injEq, true_and]
  ring

theorem centerStep_spec (h : Good p inp L c ψ) (i : Nat) (h1 : p.order2 ≤ i)
    (h2 : i < p.nx - p.order2) (t : Nat) (ht : t < p.order2) (d : K) :
    centerStep p inp i t d = some
      (d + c (t + 1) * (ψ ((i : Int) - (t + 1)) + p.df * ψ ((i : Int) + (t + 1)))) := by
  unfold centerStep
  dsimp only
  rw [h.cAt (t + 1) (by omega) _ (by push_cast; ring),
    h.rdAt ((i : Int) + (t + 1)) (p.base + i * p.lo + ((t : Int) + 1) * p.lo)
      (by omega) (by omega) (by ring),
    h.rdAt ((i : Int) - (t + 1)) (p.base + i * p.lo - ((t : Int) + 1) * p.lo)
      (by omega) (by omega) (by ring)]
  simp only [Option.some.injEq]
  ring

theorem wr_nat {A : Type} (z : Int) (hz : 0 ≤ z) (f : A → A) (a : List A) :
    wr z f a = upd z.toNat f a := by
  unfold wr
  rw [if_neg (by omega)]

/-- The address of a position of the line. -/
def Line.addr {K : Type} (p : Line K) (x : Int) : Nat := (p.base + x * p.lo).toNat

theorem Good.addr_inj (h : Good p inp L c ψ) (x y : Int) (hx : 0 ≤ x) (hy : 0 ≤ y)
    (e : p.addr x = p.addr y) : x = y := by
  unfold Line.addr at e
  have hb := h.base
  have h1 : 0 ≤ x * p.lo := by positivity
  have h2 : 0 ≤ y * p.lo := by positivity
  have : x * p.lo = y * p.lo := by omega
  have hl := h.lo
  exact Int.eq_of_mul_eq_mul_right (by omega) this

theorem Good.addr_lt (h : Good p inp L c ψ) (x : Int) (hx : 0 ≤ x) (hx' : x < p.nx) :
    p.addr x < L := by
  unfold Line.addr
  have := h.room x hx hx'
  have hb := h.base
  have h1 : 0 ≤ x * p.lo := by positivity
  omega

/-- The new value of a point of the line. -/
def newVal (p : Line K) (c : Nat → K) (ψ : Int → K) (x : Int) : K → K :=
  put p.acc (p.h * central p.order2 c p.df ψ x)

theorem central_left (h : Good p inp L c ψ) (i : Nat) (hi : i < p.order2) :
    c 0 * ψ i +
      sumTo (fun t => c (t + 1) * (ψ ((i : Int) - (t + 1)) + p.df * ψ ((i : Int) + (t + 1)))) i +
      sumTo (fun t => c (i + t + 1) * (p.df * ψ ((i : Int) + ((i + t : Nat) + 1)))) (p.order2 - i) +
      (if p.pbc then
        sumTo (fun t => c (i + t + 1) * ψ ((i : Int) - ((i + t : Nat) + 1) + p.nx)) (p.order2 - i)
       else 0) = central p.order2 c p.df ψ i := by
  unfold central
  obtain ⟨r, hr⟩ : ∃ r, p.order2 = i + r := ⟨p.order2 - i, by omega⟩
  have hl := h.left
  rw [hr, sumTo_split, show i + r - i = r by omega]
  have e : sumTo (fun t => c (i + t + 1) * (ψ ((i : Int) - ((i + t : Nat) + 1)) +
        p.df * ψ ((i : Int) + ((i + t : Nat) + 1)))) r =
      sumTo (fun t => c (i + t + 1) * (p.df * ψ ((i : Int) + ((i + t : Nat) + 1)))) r +
      (if p.pbc then
        sumTo (fun t => c (i + t + 1) * ψ ((i : Int) - ((i + t : Nat) + 1) + p.nx)) r else 0) := by
    by_cases hp : p.pbc = true
    · rw [if_pos hp, ← sumTo_add]
      apply sumTo_congr
      intro t ht
      have := hl ((i : Int) - ((i + t : Nat) + 1)) (by push_cast; omega) (by push_cast; omega)
      rw [if_pos hp] at this
      rw [this]; ring
    · rw [if_neg hp, add_zero]
      apply sumTo_congr
      intro t ht
      have := hl ((i : Int) - ((i + t : Nat) + 1)) (by push_cast; omega) (by push_cast; omega)
      rw [if_neg hp] at this
      rw [this]; ring
  rw [e]
  ring

theorem central_right (h : Good p inp L c ψ) (i : Nat) (hi : i < p.order2) :
    c 0 * ψ ((p.nx : Int) - 1 - i) +
      sumTo (fun t => c (t + 1) * (ψ (((p.nx : Int) - 1 - i) - (t + 1)) +
        p.df * ψ (((p.nx : Int) - 1 - i) + (t + 1)))) i +
      sumTo (fun t => c (i + t + 1) * ψ (((p.nx : Int) - 1 - i) - ((i + t : Nat) + 1)))
        (p.order2 - i) +
      (if p.pbc then
        sumTo (fun t => c (i + t + 1) *
          (p.df * ψ (((p.nx : Int) - 1 - i) + ((i + t : Nat) + 1) - p.nx))) (p.order2 - i)
       else 0) = central p.order2 c p.df ψ ((p.nx : Int) - 1 - i) := by
  unfold central
  obtain ⟨r, hr⟩ : ∃ r, p.order2 = i + r := ⟨p.order2 - i, by omega⟩
  have hl := h.right
  rw [hr, sumTo_split, show i + r - i = r by omega]
  have e : sumTo (fun t => c (i + t + 1) * (ψ (((p.nx : Int) - 1 - i) - ((i + t : Nat) + 1)) +
        p.df * ψ (((p.nx : Int) - 1 - i) + ((i + t : Nat) + 1)))) r =
      sumTo (fun t => c (i + t + 1) * ψ (((p.nx : Int) - 1 - i) - ((i + t : Nat) + 1))) r +
      (if p.pbc then
        sumTo (fun t => c (i + t + 1) *
          (p.df * ψ (((p.nx : Int) - 1 - i) + ((i + t : Nat) + 1) - p.nx))) r else 0) := by
    by_cases hp : p.pbc = true
    · rw [if_pos hp, ← sumTo_add]
      apply sumTo_congr
      intro t ht
      have := hl (((p.nx : Int) - 1 - i) + ((i + t : Nat) + 1)) (by push_cast; omega)
        (by push_cast; omega)
      rw [if_pos hp] at this
      rw [this]; ring
    · rw [if_neg hp, add_zero]
      apply sumTo_congr
      intro t ht
      have := hl (((p.nx : Int) - 1 - i) + ((i + t : Nat) + 1)) (by push_cast; omega)
        (by push_cast; omega)
      rw [if_neg hp] at this
      rw [this]; ring
  rw [e]
  ring

theorem edge_spec (h : Good p inp L c ψ) (i : Nat) (hi : i < p.order2) (out : List K) :
    edge p inp i out =
      (upd (p.addr i) (newVal p c ψ i) out).bind
        (upd (p.addr ((p.nx : Int) - 1 - i)) (newVal p c ψ ((p.nx : Int) - 1 - i))) := by
  have hw := h.wide
  have hb := h.base
  have e1 := h.cAt 0 (by omega) (p.order2 : Int) (by simp)
  have e2 := h.rdAt (i : Int) (p.base + i * p.lo) (by omega) (by omega) rfl
  have e3 := h.rdAt ((p.nx : Int) - 1 - i) (p.base + ((p.nx : Int) - i - 1) * p.lo) (by omega)
    (by omega) (by ring)
  have n1 : 0 ≤ p.base + (i : Int) * p.lo := by positivity
  have n2 : 0 ≤ p.base + ((p.nx : Int) - i - 1) * p.lo := by
    have : 0 ≤ ((p.nx : Int) - i - 1) := by omega
    positivity
  unfold edge
  simp only [e1, e2, e3]
  rw [loop_sum2 i _ _ _ (fun t ht s => edgeA_spec h i hi t ht s), Option.bind_some,
    loop_sum2 (p.order2 - i) _ _ _ (fun t ht s => edgeB_spec h i hi t ht s), Option.bind_some]
  have hl := central_left h i hi
  have hr := central_right h i hi
  have key : ∀ s : K × K, s.1 = central p.order2 c p.df ψ i →
      s.2 = central p.order2 c p.df ψ ((p.nx : Int) - 1 - i) →
      (wr (p.base + (i : Int) * p.lo) (put p.acc (p.h * s.1)) out).bind
        (wr (p.base + ((p.nx : Int) - i - 1) * p.lo) (put p.acc (p.h * s.2))) =
      (upd (p.addr i) (newVal p c ψ i) out).bind
        (upd (p.addr ((p.nx : Int) - 1 - i)) (newVal p c ψ ((p.nx : Int) - 1 - i))) := by
    intro s h1 h2
    rw [h1, h2, wr_nat _ n1]
    congr 1
    funext a
    rw [wr_nat _ n2]
    unfold newVal Line.addr
    congr 2
    ring
  by_cases hp : p.pbc = true
  · simp only [if_pos hp] at hl hr ⊢
    rw [loop_sum2 (p.order2 - i) _ _ _ (fun t ht s => edgeC_spec h i hi t ht s), Option.bind_some]
    exact key _ hl hr
  · simp only [if_neg hp, add_zero] at hl hr ⊢
    rw [Option.bind_some]
    exact key _ hl hr

theorem center_spec (h : Good p inp L c ψ) (i : Nat) (h1 : p.order2 ≤ i)
    (h2 : i < p.nx - p.order2) (out : List K) :
    center p inp i out = upd (p.addr i) (newVal p c ψ i) out := by
  have hb := h.base
  have e1 := h.cAt 0 (by omega) (p.order2 : Int) (by simp)
  have e2 := h.rdAt (i : Int) (p.base + i * p.lo) (by omega) (by omega) rfl
  have n1 : 0 ≤ p.base + (i : Int) * p.lo := by positivity
  unfold center
  simp only [e1, e2]
  rw [loop_sum1 p.order2 _ _ (fun t ht s => centerStep_spec h i h1 h2 t ht s), Option.bind_some,
    wr_nat _ n1]
  unfold newVal central Line.addr
  rw [mul_comm p.h]

/-- A line is differentiated point by point, and nothing else is changed. -/
theorem diffSingleDim_acts (h : Good p inp L c ψ) (g : Nat → K → K)
    (hg : ∀ x : Int, 0 ≤ x → x < p.nx → g (p.addr x) = newVal p c ψ x) :
    Acts L (diffSingleDim p inp) (fun q => ∃ x : Int, 0 ≤ x ∧ x < p.nx ∧ q = p.addr x) g := by
  have hw := h.wide
  have hE := acts_loop (L := L) p.order2 (edge p inp)
    (fun i q => q = p.addr i ∨ q = p.addr ((p.nx : Int) - 1 - i)) g (by
      intro i hi
      refine (acts_seq (acts_upd (newVal p c ψ i) g (h.addr_lt _ (by omega) (by omega))
        (hg _ (by omega) (by omega)))
        (acts_upd (newVal p c ψ ((p.nx : Int) - 1 - i)) g (h.addr_lt _ (by omega) (by omega))
        (hg _ (by omega) (by omega))) ?_).mono (fun s _ => edge_spec h i hi s) (fun q => Iff.rfl)
        (fun _ _ => rfl)
      intro q h1 h2
      have := h.addr_inj _ _ (by omega) (by omega) (h1.symm.trans h2)
      omega) (by
      intro k k' hk hk' q h1 h2
      rcases h1 with h1 | h1 <;> rcases h2 with h2 | h2 <;>
        (have := h.addr_inj _ _ (by omega) (by omega) (h1.symm.trans h2); omega))
  have hC := acts_loop (L := L) (p.nx - p.order2 - p.order2)
    (fun t => center p inp (p.order2 + t))
    (fun t q => q = p.addr ((p.order2 + t : Nat) : Int)) g (by
      intro t ht
      exact (acts_upd (newVal p c ψ ((p.order2 + t : Nat) : Int)) g
        (h.addr_lt _ (by omega) (by omega)) (hg _ (by omega) (by omega))).mono
        (fun s _ => center_spec h (p.order2 + t) (by omega) (by omega) s) (fun q => Iff.rfl)
        (fun _ _ => rfl)) (by
      intro k k' hk hk' q h1 h2
      have := h.addr_inj _ _ (by omega) (by omega) (h1.symm.trans h2)
      omega)
  refine (acts_seq hE hC ?_).mono (fun s _ => rfl) ?_ (fun _ _ => rfl)
  · rintro q ⟨i, hi, h1⟩ ⟨t, ht, h2⟩
    rcases h1 with h1 | h1 <;>
      (have := h.addr_inj _ _ (by omega) (by omega) (h1.symm.trans h2); omega)
  · intro q
    constructor
    · rintro ⟨x, h0, h1, rfl⟩
      by_cases a : x < p.order2
      · exact Or.inl ⟨x.toNat, by omega, Or.inl (by rw [Int.toNat_of_nonneg h0])⟩
      · by_cases b : x < (p.nx : Int) - p.order2
        · refine Or.inr ⟨x.toNat - p.order2, by omega, ?_⟩
          show p.addr x = p.addr _
          congr 1; omega
        · refine Or.inl ⟨(p.nx - 1 - x.toNat), by omega, Or.inr ?_⟩
          congr 1; omega
    · rintro (⟨i, hi, h1 | h1⟩ | ⟨t, ht, h1⟩)
      · exact ⟨i, by omega, by omega, h1⟩
      · exact ⟨(p.nx : Int) - 1 - i, by omega, by omega, h1⟩
      · exact ⟨((p.order2 + t : Nat) : Int), by omega, by omega, h1⟩

end QDng.Stencil
