import Verif.MixDiff.Model
import Verif.Stencil.Lemmas
import Mathlib.Tactic.Ring
import Mathlib.Tactic.Linarith
import Mathlib.Data.List.GetD

/- Auxiliary statements on the blocks of the mixed derivative. -/

namespace QDng.MixDiff

open QDng.Common QDng.Grid QDng.Stencil

/-- The stencil along one direction with the indices taken modulo the number of points. -/
def ring {K : Type} [CommRing K] (cf : List K) (order2 N lo : Nat) (df : K) (f : Nat → K) (q : Nat) : K :=
  cf.getD order2 0 * f q +
    sumTo (fun t => df * cf.getD (order2 - 1 - t) 0 * f ((q + (t + 1) * lo) % N) +
      cf.getD (order2 - 1 - t) 0 * f ((N + q - (t + 1) * lo) % N)) order2

theorem rd_nat {A : Type} (l : List A) (d : A) (i : Nat) (z : Int) (hz : z = (i : Int)) (h : i < l.length) :
    rd l z = some (l.getD i d) := by
  subst hz
  unfold rd
  rw [if_neg (by omega)]
  simp [List.getElem?_eq_getElem h]

theorem pointVal_eq {K : Type} [CommRing K] (cf : List K) (order2 N lo : Nat) (df : K) (inp : List K) (q : Nat)
    (hc : order2 < cf.length) (hl : inp.length = N) (hq : q < N) (ho : order2 * lo ≤ N + q) :
    pointVal cf order2 N lo df inp (q : Int) = some (ring cf order2 N lo df (fun i => inp.getD i 0) q) := by
  unfold pointVal
  rw [rd_nat cf 0 order2 _ rfl hc, Option.bind_some, rd_nat inp 0 q _ rfl (by omega), Option.bind_some]
  unfold ring
  refine loop_sum1 order2 _ _ ?_ _
  intro t ht s
  have h1 : (t + 1) * lo ≤ order2 * lo := Nat.mul_le_mul_right _ (by omega)
  have hN : 0 < N := by omega
  rw [rd_nat cf 0 (order2 - 1 - t) _ (by omega) (by omega), Option.bind_some,
    rd_nat inp 0 ((q + (t + 1) * lo) % N) _ ?_ (by rw [hl]; exact Nat.mod_lt _ hN), Option.bind_some,
    rd_nat inp 0 ((N + q - (t + 1) * lo) % N) _ ?_ (by rw [hl]; exact Nat.mod_lt _ hN), Option.bind_some]
  · have e : ((N : Int) + (q : Int) - ((t : Int) + 1) * (lo : Int)) = ((N + q - (t + 1) * lo : Nat) : Int) := by
      rw [Nat.cast_sub (by omega)]
      push_cast
      rfl
    rw [e]
    rfl
  · have e : ((q : Int) + ((t : Int) + 1) * (lo : Int)) = ((q + (t + 1) * lo : Nat) : Int) := by
      push_cast
      rfl
    rw [e]
    rfl

theorem ring_congr {K : Type} [CommRing K] (cf : List K) (order2 N lo : Nat) (df : K) (f g : Nat → K) (q : Nat)
    (h0 : f q = g q) (hr : ∀ t, t < order2 → f ((q + (t + 1) * lo) % N) = g ((q + (t + 1) * lo) % N))
    (hl : ∀ t, t < order2 → f ((N + q - (t + 1) * lo) % N) = g ((N + q - (t + 1) * lo) % N)) :
    ring cf order2 N lo df f q = ring cf order2 N lo df g q := by
  unfold ring
  rw [h0]
  congr 1
  refine sumTo_congr _ _ _ ?_
  intro t ht
  rw [hr t ht, hl t ht]

theorem wr_set {K : Type} (i : Nat) (f : K → K) (a : List K) (h : i < a.length) :
    wr (i : Int) f a = some (a.set i (f a[i])) := by
  unfold wr upd
  rw [if_neg (by omega)]
  simp [List.getElem?_eq_getElem h]

/-- The points of a block. -/
def InBlock (point lo1 lo2 bs1 bs2 q : Nat) : Prop :=
  ∃ x1 x2, x1 < bs1 ∧ x2 < bs2 ∧ q = point + x2 * lo2 + x1 * lo1

/-- What a block does: nothing is undefined, the points of the block get the stencil, the others are kept. -/
theorem diffBlock2D_spec {K : Type} [CommRing K] (p : Tab K) (hacc : p.acc = false) (point lo1 lo2 bs1 bs2 : Nat) (h : K)
    (inp out : List K) (hc : p.order2 < p.cf.length) (hi : inp.length = p.N) (ho : out.length = p.N)
    (hin : ∀ q, InBlock point lo1 lo2 bs1 bs2 q → q < p.N) (hlo : p.order2 * lo1 ≤ p.N) :
    ∃ out', diffBlock2D p (point : Int) lo1 lo2 bs1 bs2 h inp out = some out' ∧ out'.length = p.N ∧
      (∀ q, InBlock point lo1 lo2 bs1 bs2 q →
        out'[q]? = some (h * ring p.cf p.order2 p.N lo1 p.df (fun i => inp.getD i 0) q)) ∧
      (∀ q, ¬ InBlock point lo1 lo2 bs1 bs2 q → out'[q]? = out[q]?) := by
  let val : Nat → K := fun q => h * ring p.cf p.order2 p.N lo1 p.df (fun i => inp.getD i 0) q
  let D : Nat → Nat → Nat → Prop := fun k2 k1 q =>
    (∃ x1 x2, x1 < bs1 ∧ x2 < k2 ∧ q = point + x2 * lo2 + x1 * lo1) ∨ ∃ x1, x1 < k1 ∧ q = point + k2 * lo2 + x1 * lo1
  let I : Nat → Nat → List K → Prop := fun k2 k1 s => s.length = p.N ∧
    (∀ q, D k2 k1 q → s[q]? = some (val q)) ∧ (∀ q, ¬ D k2 k1 q → s[q]? = out[q]?)
  have hstep : ∀ k2, k2 < bs2 → ∀ s, I k2 0 s → ∃ s', loop bs1 (fun x1 out =>
      (pointVal p.cf p.order2 p.N lo1 p.df inp ((point : Int) + k2 * lo2 + x1 * lo1)).bind fun d =>
        wr ((point : Int) + k2 * lo2 + x1 * lo1) (put p.acc (h * d)) out) s = some s' ∧ I k2 bs1 s' := by
    intro k2 hk2 s hs
    refine loop_inv bs1 _ (fun k1 s => I k2 k1 s) s hs ?_
    intro k1 hk1 s hs
    have e : ((point : Int) + k2 * lo2 + k1 * lo1) = ((point + k2 * lo2 + k1 * lo1 : Nat) : Int) := by push_cast; rfl
    have hq := hin (point + k2 * lo2 + k1 * lo1) ⟨k1, k2, hk1, hk2, rfl⟩
    obtain ⟨hl, ha, hb⟩ := hs
    refine ⟨s.set (point + k2 * lo2 + k1 * lo1) (val (point + k2 * lo2 + k1 * lo1)), ?_, ?_, ?_, ?_⟩
    · rw [e, pointVal_eq _ _ _ _ _ _ _ hc hi hq (by omega), Option.bind_some, wr_set _ _ _ (by omega), hacc]
      rfl
    · rw [List.length_set, hl]
    · intro q hD
      by_cases heq : point + k2 * lo2 + k1 * lo1 = q
      · subst heq
        rw [List.getElem?_set_self (by omega)]
      · rw [List.getElem?_set_ne heq]
        refine ha q ?_
        rcases hD with hD | ⟨x1, hx1, hx⟩
        · exact Or.inl hD
        · refine Or.inr ⟨x1, ?_, hx⟩
          rcases Nat.lt_succ_iff_lt_or_eq.1 hx1 with hlt | rfl
          · exact hlt
          · exact absurd hx.symm heq
    · intro q hD
      have heq : point + k2 * lo2 + k1 * lo1 ≠ q := fun hE => hD (Or.inr ⟨k1, by omega, hE.symm⟩)
      rw [List.getElem?_set_ne heq]
      refine hb q ?_
      rintro (hD' | ⟨x1, hx1, hx⟩)
      · exact hD (Or.inl hD')
      · exact hD (Or.inr ⟨x1, by omega, hx⟩)
  have hDs : ∀ k2 q, D (k2 + 1) 0 q ↔ D k2 bs1 q := by
    intro k2 q
    constructor
    · rintro (⟨x1, x2, h1, h2, h3⟩ | ⟨x1, h1, _⟩)
      · rcases Nat.lt_succ_iff_lt_or_eq.1 h2 with hlt | rfl
        · exact Or.inl ⟨x1, x2, h1, hlt, h3⟩
        · exact Or.inr ⟨x1, h1, h3⟩
      · omega
    · rintro (⟨x1, x2, h1, h2, h3⟩ | ⟨x1, h1, h3⟩)
      · exact Or.inl ⟨x1, x2, h1, by omega, h3⟩
      · exact Or.inl ⟨x1, k2, h1, by omega, h3⟩
  obtain ⟨out', h1, h2, h3, h4⟩ := loop_inv bs2 (fun x2 out => loop bs1 (fun x1 out =>
      (pointVal p.cf p.order2 p.N lo1 p.df inp ((point : Int) + x2 * lo2 + x1 * lo1)).bind fun d =>
        wr ((point : Int) + x2 * lo2 + x1 * lo1) (put p.acc (h * d)) out) out) (fun k2 s => I k2 0 s) out
    ⟨ho, fun q hD => by
        rcases hD with ⟨x1, x2, _, hx, _⟩ | ⟨x1, hx, _⟩ <;> omega, fun q _ => rfl⟩
    (by
      intro k2 hk2 s hs
      obtain ⟨s', hs', hl, ha, hb⟩ := hstep k2 hk2 s hs
      exact ⟨s', hs', hl, fun q hq => ha q ((hDs k2 q).1 hq), fun q hq => hb q (fun hD => hq ((hDs k2 q).2 hD))⟩)
  have hD0 : ∀ q, D bs2 0 q ↔ InBlock point lo1 lo2 bs1 bs2 q := by
    intro q
    constructor
    · rintro (hD | ⟨x1, hx, _⟩)
      · exact hD
      · omega
    · exact Or.inl
  exact ⟨out', h1, h2, fun q hq => h3 q ((hD0 q).2 hq), fun q hq => h4 q (fun hD => hq ((hD0 q).1 hD))⟩

/-! ### the sizes of the blocks -/

theorem blockSize_cases (beg nx : Nat) :
    (beg ≤ blockSize beg nx ∧ blockSize beg nx < nx ∧ nx % blockSize beg nx = 0) ∨ blockSize beg nx = max beg nx := by
  unfold blockSize
  cases hf : (List.range' beg (nx - beg)).find? fun b => nx % b == 0 with
  | none => exact Or.inr rfl
  | some b =>
    refine Or.inl ?_
    have hm := List.mem_of_find?_eq_some hf
    have hp := List.find?_some hf
    rw [List.mem_range'_1] at hm
    simp only [beq_iff_eq] at hp
    simp only [Option.getD_some]
    exact ⟨hm.1, by omega, hp⟩

theorem blockSize_ge (beg nx : Nat) : beg ≤ blockSize beg nx := by
  rcases blockSize_cases beg nx with h | h
  · exact h.1
  · rw [h]; exact le_max_left _ _

theorem blockSize_dvd (beg nx : Nat) (h : beg ≤ nx) : blockSize beg nx ∣ nx := by
  rcases blockSize_cases beg nx with h' | h'
  · exact Nat.dvd_of_mod_eq_zero h'.2.2
  · rw [h', max_eq_right h]

end QDng.MixDiff
