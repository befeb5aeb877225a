import Verif.Cfun.Model
import Verif.Cfun.Spec
import Mathlib.Tactic.Ring
import Mathlib.Tactic.NormNum
import Mathlib.Tactic.Push

namespace QDng.Cfun

open QDng QDng.Common

variable {V K : Type}

theorem propagate_eq (U : Nat → V → V) : ∀ (n c : Nat) (v : V), propagate U c n v = Spec.evolve U c (c + n) v := by
  intro n
  induction n with
  | zero => intro c v; simp [propagate, Spec.evolve]
  | succ n ih =>
    intro c v
    rw [propagate, ih]
    unfold Spec.evolve
    rw [show c + (n + 1) - c = n + 1 by omega, show c + 1 + n - (c + 1) = n by omega, List.range'_succ, List.foldl_cons]

theorem evolve_self (U : Nat → V → V) (a : Nat) (v : V) : Spec.evolve U a a v = v := by simp [Spec.evolve]

theorem evolve_trans (U : Nat → V → V) (a b c : Nat) (hab : a ≤ b) (hbc : b ≤ c) (v : V) :
    Spec.evolve U b c (Spec.evolve U a b v) = Spec.evolve U a c v := by
  unfold Spec.evolve
  rw [← List.foldl_append]
  congr 1
  have := List.range'_append (s := a) (m := b - a) (n := c - b) (step := 1)
  rw [Nat.one_mul] at this
  rw [show a + (b - a) = b by omega] at this
  rw [this]
  congr 1
  omega

theorem evolve_step (U : Nat → V → V) (a : Nat) (v : V) : Spec.evolve U a (a + 1) v = U a v := by
  unfold Spec.evolve
  rw [show a + 1 - a = 1 by omega]
  rfl

theorem applyOps_map (c : Nat) (ops : List (Nat → V → V)) (v : V) : applyOps c (ops.map some) v = Spec.apply ops c v := by
  induction ops generalizing v with
  | nil => rfl
  | cons o l ih => exact ih (o c v)

theorem applyOps_stop (c : Nat) (ops : List (Nat → V → V)) (rest : List (Elem V)) (v : V) :
    applyOps c (ops.map some ++ none :: rest) v = Spec.apply ops c v := by
  induction ops generalizing v with
  | nil => rfl
  | cons o l ih => exact ih (o c v)

theorem fill_ok (U : Nat → V → V) (w : Nat) (hw : 0 < w) (psi : V) :
    ∀ (n i : Nat), fill U (w : Int) n (i + 1) (Spec.evolve U 0 i psi)
        ((List.range (i / w + 1)).map fun k => Spec.evolve U 0 (k * w) psi)
      = .val ((List.range ((i + n) / w + 1)).map fun k => Spec.evolve U 0 (k * w) psi) := by
  intro n
  induction n with
  | zero => intro i; rfl
  | succ n ih =>
    intro i
    unfold fill
    have hv : U (i + 1 - 1) (Spec.evolve U 0 i psi) = Spec.evolve U 0 (i + 1) psi := by
      rw [Nat.add_sub_cancel, ← evolve_step U i, evolve_trans U 0 i (i + 1) (by omega) (by omega)]
    dsimp only
    rw [if_neg (by omega), hv]
    have := ih (i + 1)
    rw [show i + 1 + n = i + (n + 1) by omega] at this
    rw [← this]
    congr 1
    have hmod : (((i + 1 : Nat) : Int).tmod (w : Int)) = (((i + 1) % w : Nat) : Int) := rfl
    rw [hmod]
    by_cases h : (i + 1) % w = 0
    · rw [if_pos (by rw [h]; rfl)]
      have hd : (i + 1) / w = i / w + 1 := by
        rw [Nat.succ_div, if_pos (Nat.dvd_of_mod_eq_zero h)]
      rw [hd, List.range_succ (n := i / w + 1), List.map_append, List.map_singleton]
      congr 2
      rw [← hd, Nat.div_mul_cancel (Nat.dvd_of_mod_eq_zero h)]
    · rw [if_neg (by omega)]
      have hd : (i + 1) / w = i / w := by
        rw [Nat.succ_div, if_neg (fun hh => h (Nat.mod_eq_zero_of_dvd hh))]
        omega
      rw [hd]

/-- The time series: the states at the steps `0, w, 2w, …`, enough of them for all values. -/
theorem baseline_ok (s : Setup V K) (n w : Nat) (hn : s.steps = (n : Int)) (hn0 : 0 < n) (hw : s.wcycle = (w : Int)) (hw0 : 0 < w)
    (hk : s.ket ≠ []) : ∃ buf, baseline s [s.psi0] = .val (buf, n - 1) ∧ buf ≠ [] ∧
      ∀ t, t < n / w → buf[t]? = some (Spec.evolve s.U 0 (t * w) (applyOps 0 s.ket s.psi0)) := by
  unfold baseline
  rw [if_pos (by rfl)]
  have hi : initKetBra 0 s.ket s.psi0 = .val (applyOps 0 s.ket s.psi0) := by
    unfold initKetBra
    split
    · contradiction
    · rfl
  rw [hi]
  dsimp only
  have hf := fill_ok s.U w hw0 (applyOps 0 s.ket s.psi0) (n - 1) 0
  rw [evolve_self, Nat.zero_div, Nat.zero_add, Nat.zero_add, List.range_one, List.map_singleton, Nat.zero_mul, evolve_self] at hf
  have hpass : (s.steps - 1).toNat = n - 1 := by omega
  rw [hpass, hw, hf]
  refine ⟨_, rfl, by simp, ?_⟩
  intro t ht
  have hle : n / w ≤ (n - 1) / w + 1 := by
    have : n = (n - 1) + 1 := by omega
    calc n / w = ((n - 1) + 1) / w := by rw [← this]
      _ ≤ ((n - 1) + w) / w := Nat.div_le_div_right (by omega)
      _ = (n - 1) / w + 1 := Nat.add_div_right _ hw0
  rw [List.getElem?_map, List.getElem?_range (by omega)]
  rfl

theorem c1Loop_none (s : Setup V K) (buf : List V) (w : Nat) (hw : s.wcycle = (w : Int)) (psi : Nat → V) (N : Nat)
    (hb : ∀ t, t < N → buf[t]? = some (psi t)) :
    ∀ (n t : Nat) (out : List K), t + n ≤ N → c1Loop s buf n t none out
      = .val (out ++ (List.range n).map fun j =>
          s.ip (psi (t + j)) (applyOps ((t + j) * w) (elemsFrom (firstOp s.ket) s.ket) (psi (t + j)))) := by
  intro n
  induction n with
  | zero => intro t out _; simp [c1Loop]
  | succ n ih =>
    intro t out ht
    unfold c1Loop
    rw [hb t (by omega)]
    dsimp only
    rw [ih (t + 1) _ (by omega), hw, Int.toNat_natCast, List.range_succ_eq_map, List.map_cons, List.map_map, List.append_assoc]
    congr 2
    rw [List.singleton_append]
    congr 1
    refine List.map_congr_left fun j _ => ?_
    simp only [Function.comp_apply, Nat.succ_eq_add_one]
    rw [show t + 1 + j = t + (j + 1) by omega]

theorem c1Loop_some (s : Setup V K) (buf : List V) (w : Nat) (hw : s.wcycle = (w : Int)) (psi : Nat → V) (N : Nat)
    (hb : ∀ t, t < N → buf[t]? = some (psi t)) (b0 : V) :
    ∀ (n t : Nat) (out : List K), t + n ≤ N → c1Loop s buf n t (some (Spec.evolve s.U 0 (t * w) b0)) out
      = .val (out ++ (List.range n).map fun j =>
          s.ip (Spec.evolve s.U 0 ((t + j + 1) * w) b0)
            (applyOps ((t + j) * w) (elemsFrom (firstOp s.ket) s.ket) (psi (t + j)))) := by
  intro n
  induction n with
  | zero => intro t out _; simp [c1Loop]
  | succ n ih =>
    intro t out ht
    unfold c1Loop
    rw [hb t (by omega)]
    dsimp only
    have hp : propagate s.U (t * s.wcycle.toNat) s.wcycle.toNat (Spec.evolve s.U 0 (t * w) b0)
        = Spec.evolve s.U 0 ((t + 1) * w) b0 := by
      rw [hw, Int.toNat_natCast, propagate_eq, evolve_trans s.U 0 (t * w) _ (by omega) (by omega)]
      congr 1
      ring
    rw [hp, ih (t + 1) _ (by omega), hw, Int.toNat_natCast, List.range_succ_eq_map, List.map_cons, List.map_map, List.append_assoc]
    congr 2
    rw [List.singleton_append]
    congr 1
    refine List.map_congr_left fun j _ => ?_
    simp only [Function.comp_apply, Nat.succ_eq_add_one]
    rw [show t + 1 + j = t + (j + 1) by omega]

theorem numU_map (ops : List (Nat → V → V)) : numU (ops.map some : List (Elem V)) = 0 := by
  induction ops with
  | nil => rfl
  | cons o l ih => simp [numU]

theorem numU_append (a b : List (Elem V)) : numU (a ++ b) = numU a + numU b := by simp [numU]

theorem numU_cons_none (l : List (Elem V)) : numU (none :: l) = numU l + 1 := by simp [numU]

theorem numU_cons_some (o : Nat → V → V) (l : List (Elem V)) : numU (some o :: l) = numU l := by simp [numU]

theorem initBra_ok (s : Setup V K) (c : Nat) :
    initBra s c = .val (if s.bra = [] then none else some (applyOps c s.bra s.psi0)) := by
  unfold initBra initKetBra
  by_cases h : s.bra = []
  · rw [if_pos h, if_pos h]
  · rw [if_neg h, if_neg h]
    cases hb : s.bra with
    | nil => exact absurd hb h
    | cons x l => rfl

/-- Index of a value in the array. -/
def idx (nt : Nat) (lhs : Bool) (a t : Nat) : Nat := if lhs then a * nt + t else t * nt + a

theorem idx_inj (nt : Nat) (lhs : Bool) (a t a' t' : Nat) (ha : a < nt) (ht : t < nt) (ha' : a' < nt) (ht' : t' < nt)
    (h : idx nt lhs a t = idx nt lhs a' t') : a = a' ∧ t = t' := by
  unfold idx at h
  have key : ∀ x y x' y' : Nat, y < nt → y' < nt → x * nt + y = x' * nt + y' → x = x' ∧ y = y' := by
    intro x y x' y' hy hy' h
    have h1 : (x * nt + y) % nt = (x' * nt + y') % nt := by rw [h]
    rw [Nat.mul_add_mod_self_right, Nat.mul_add_mod_self_right, Nat.mod_eq_of_lt hy, Nat.mod_eq_of_lt hy'] at h1
    have h2 : x * nt = x' * nt := by omega
    exact ⟨Nat.eq_of_mul_eq_mul_right (by omega) h2, h1⟩
  cases lhs with
  | true => exact key _ _ _ _ ht ht' h
  | false =>
    have := key _ _ _ _ ha ha' h
    exact ⟨this.2, this.1⟩

theorem idx_lt (nt : Nat) (lhs : Bool) (a t : Nat) (ha : a < nt) (ht : t < nt) : idx nt lhs a t < nt * nt := by
  have key : ∀ x y : Nat, x < nt → y < nt → x * nt + y < nt * nt := by
    intro x y hx hy
    calc x * nt + y < x * nt + nt := by omega
      _ = (x + 1) * nt := by ring
      _ ≤ nt * nt := Nat.mul_le_mul_right nt hx
  unfold idx
  cases lhs with
  | true => exact key _ _ ha ht
  | false => exact key _ _ ht ha

/-- The passes that are reached before the limit on the intermediate time stops the loop. -/
def reached (si : Int) (a t : Nat) : Prop := si ≤ 0 ∨ (t : Int) - a ≤ si + 1

theorem c2Inner_ok (s : Setup V K) (buf : List V) (nt w : Nat) (hw : s.wcycle = (w : Int)) (psi : Nat → V)
    (hbuf : ∀ t, t < nt → buf[t]? = some (psi t)) (lhs bra : Bool) (sig a : Nat) (ha : a < nt) (k0 b0 : V) (B0 : V) :
    ∀ (n t : Nat) (k b : V) (out : Nat → K), t + n = nt → a ≤ t →
      (lhs = true → k = Spec.evolve s.U (a * w) (t * w) k0) → (bra = true → b = Spec.evolve s.U (a * w) (t * w) b0) →
      (n ≠ 0 → reached s.stepsint a t) →
      ∃ out', c2Inner s buf nt lhs bra sig a n t (t * w) k b out = .val out' ∧
        (∀ t', t ≤ t' → t' < nt → reached s.stepsint a t' → out' (idx nt lhs a t')
          = s.ip (if bra then Spec.evolve s.U (a * w) (t' * w) b0 else psi t')
              (applyOps (t' * w) (s.ket.drop sig) (if lhs then Spec.evolve s.U (a * w) (t' * w) k0 else psi t'))) ∧
        (∀ i, (∀ t', t ≤ t' → t' < nt → reached s.stepsint a t' → i ≠ idx nt lhs a t') → out' i = out i) := by
  intro n
  induction n with
  | zero =>
    intro t k b out htn _ _ _ _
    exact ⟨out, rfl, fun t' h1 h2 => by omega, fun i _ => rfl⟩
  | succ n ih =>
    intro t k b out htn hat hk hb hr
    have ht : t < nt := by omega
    have hreach := hr (by omega)
    obtain ⟨B, hB⟩ : ∃ B, B = (if bra then Spec.evolve s.U (a * w) (t * w) b0 else psi t) := ⟨_, rfl⟩
    obtain ⟨Q, hQ⟩ : ∃ Q, Q = (if lhs then Spec.evolve s.U (a * w) (t * w) k0 else psi t) := ⟨_, rfl⟩
    have e1 : (if bra = true then some b else buf[t]?) = some B := by
      rw [hB]
      cases bra with
      | true => rw [if_pos rfl, if_pos rfl, hb rfl]
      | false => rw [if_neg (by simp), if_neg (by simp), hbuf t ht]
    have e2 : (if lhs = true then some k else buf[t]?) = some Q := by
      rw [hQ]
      cases lhs with
      | true => rw [if_pos rfl, if_pos rfl, hk rfl]
      | false => rw [if_neg (by simp), if_neg (by simp), hbuf t ht]
    have eidx : (if lhs = true then a * nt + t else t * nt + a) = idx nt lhs a t := rfl
    have hlt := idx_lt nt lhs a t ha ht
    unfold c2Inner
    rw [e1, e2]
    dsimp only
    rw [eidx]
    unfold setValue
    rw [if_pos hlt]
    dsimp only
    by_cases hstop : ((t : Int) - a > s.stepsint) ∧ s.stepsint > 0
    · rw [if_pos hstop]
      refine ⟨_, rfl, ?_, ?_⟩
      · intro t' h1 h2 h3
        have : t' = t := by
          unfold reached at h3
          omega
        subst this
        rw [if_pos rfl, hB, hQ]
      · intro i hi
        rw [if_neg (hi t le_rfl ht hreach)]
    · rw [if_neg hstop]
      have hstep : ∀ v : V, propagate s.U (t * w) w (Spec.evolve s.U (a * w) (t * w) v)
          = Spec.evolve s.U (a * w) ((t + 1) * w) v := by
        intro v
        rw [propagate_eq, evolve_trans s.U (a * w) (t * w) _ (Nat.mul_le_mul_right w hat) (by omega)]
        congr 1
        ring
      have hc : t * w + s.wcycle.toNat = (t + 1) * w := by rw [hw, Int.toNat_natCast]; ring
      rw [hc]
      obtain ⟨out', h1, h2, h3⟩ := ih (t + 1) (if lhs = true then propagate s.U (t * w) s.wcycle.toNat Q else Q)
        (if bra = true then propagate s.U (t * w) s.wcycle.toNat B else B)
        (fun j => if j = idx nt lhs a t then s.ip B (applyOps (t * w) (s.ket.drop sig) Q) else out j)
        (by omega) (by omega)
        (by intro hl; subst hl; rw [if_pos rfl, hQ, if_pos rfl, hw, Int.toNat_natCast, hstep])
        (by intro hl; subst hl; rw [if_pos rfl, hB, if_pos rfl, hw, Int.toNat_natCast, hstep])
        (by intro _; unfold reached at *; push_cast; omega)
      refine ⟨out', h1, ?_, ?_⟩
      · intro t' g1 g2 g3
        by_cases heq : t' = t
        · subst heq
          rw [h3]
          · rw [if_pos rfl, hB, hQ]
          · intro t'' j1 j2 _ he
            have := idx_inj nt lhs a t' a t'' ha ht ha j2 he
            omega
        · exact h2 t' (by omega) g2 g3
      · intro i hi
        rw [h3 i (fun t' g1 g2 g3 => hi t' (by omega) g2 g3)]
        rw [if_neg (hi t le_rfl ht hreach)]

/-- The value computed for the times `a` and `t`. -/
def value (s : Setup V K) (w : Nat) (psi : Nat → V) (lhs : Bool) (fk fb : Nat) (b0 : Option V) (a t : Nat) : K :=
  s.ip
    (match b0 with
      | none => psi t
      | some b => Spec.evolve s.U (a * w) (t * w)
          (if lhs then Spec.evolve s.U 0 ((a + 1) * w) b
           else applyOps (a * w) (s.bra.drop fb) (Spec.evolve s.U 0 ((a + 1) * w) b)))
    (applyOps (t * w) (s.ket.drop (if lhs then fk + 2 else fk))
      (if lhs then Spec.evolve s.U (a * w) (t * w) (applyOps (a * w) (s.ket.drop fk) (psi a)) else psi t))

theorem c2Outer_ok (s : Setup V K) (buf : List V) (nt w : Nat) (hw : s.wcycle = (w : Int)) (psi : Nat → V)
    (hbuf : ∀ t, t < nt → buf[t]? = some (psi t)) (lhs : Bool) (fk fb : Nat) (b0 : Option V) :
    ∀ (n a : Nat) (out : Nat → K), a + n = nt →
      ∃ out', c2Outer s buf nt lhs fk fb n a (b0.map (Spec.evolve s.U 0 (a * w))) out = .val out' ∧
        (∀ a' t, a ≤ a' → a' ≤ t → t < nt → reached s.stepsint a' t →
          out' (idx nt lhs a' t) = value s w psi lhs fk fb b0 a' t) ∧
        (∀ i, (∀ a' t, a ≤ a' → a' ≤ t → t < nt → reached s.stepsint a' t → i ≠ idx nt lhs a' t) → out' i = out i) := by
  intro n
  induction n with
  | zero =>
    intro a out han
    exact ⟨out, rfl, fun a' t h1 h2 h3 => by omega, fun i _ => rfl⟩
  | succ n ih =>
    intro a out han
    have ha : a < nt := by omega
    unfold c2Outer
    rw [hbuf a ha]
    dsimp only
    have hmap : (b0.map (Spec.evolve s.U 0 (a * w))).map (propagate s.U (a * s.wcycle.toNat) s.wcycle.toNat)
        = b0.map (Spec.evolve s.U 0 ((a + 1) * w)) := by
      rw [Option.map_map]
      congr 1
      funext v
      simp only [Function.comp_apply]
      rw [hw, Int.toNat_natCast, propagate_eq, evolve_trans s.U 0 (a * w) _ (by omega) (by omega)]
      congr 1
      ring
    rw [hmap, hw, Int.toNat_natCast]
    obtain ⟨K0, hK0⟩ : ∃ K0, K0 = (if lhs = true then applyOps (a * w) (s.ket.drop fk) (psi a) else psi a) := ⟨_, rfl⟩
    obtain ⟨B0, hB0⟩ : ∃ B0, B0 = (if lhs = true then (b0.map (Spec.evolve s.U 0 ((a + 1) * w))).getD (psi a)
      else applyOps (a * w) (s.bra.drop fb) ((b0.map (Spec.evolve s.U 0 ((a + 1) * w))).getD (psi a))) := ⟨_, rfl⟩
    rw [← hK0, ← hB0]
    obtain ⟨o1, g1, g2, g3⟩ := c2Inner_ok s buf nt w hw psi hbuf lhs (b0.map (Spec.evolve s.U 0 ((a + 1) * w))).isSome
      (if lhs = true then fk + 2 else fk) a ha K0 B0 B0 (nt - a) a K0 B0 out (by omega) le_rfl
      (fun _ => by rw [evolve_self]) (fun _ => by rw [evolve_self])
      (fun _ => by unfold reached; omega)
    rw [g1]
    dsimp only
    obtain ⟨o2, f1, f2, f3⟩ := ih (a + 1) o1 (by omega)
    refine ⟨o2, f1, ?_, ?_⟩
    · intro a' t h1 h2 h3 h4
      by_cases heq : a' = a
      · subst heq
        rw [f3, g2 t h2 h3 h4]
        · unfold value
          congr 1
          · cases b0 with
            | none => simp
            | some b => simp [hB0]
          · congr 1
            cases lhs with
            | true => simp [hK0]
            | false => simp
        · intro a'' t'' j1 j2 j3 _ he
          have := idx_inj nt lhs a' t a'' t'' ha h3 (by omega) j3 he
          omega
      · exact f2 a' t (by omega) h2 h3 h4
    · intro i hi
      rw [f3 i (fun a' t h1 h2 h3 h4 => hi a' t (by omega) h2 h3 h4)]
      exact g3 i (fun t h2 h3 h4 => hi a t le_rfl h2 h3 h4)

theorem search_pre (ops : List (Nat → V → V)) (rest : List (Elem V)) (n : Nat) (hn : n ≠ 1) :
    ∀ i f, search (ops.map some ++ rest) i n f = search rest (i + ops.length) n f := by
  induction ops with
  | nil => intro i f; rfl
  | cons o l ih =>
    intro i f
    rw [List.map_cons, List.cons_append, search, if_neg hn, ih]
    congr 1
    rw [List.length_cons]
    omega

theorem search_mid (ops : List (Nat → V → V)) (rest : List (Elem V)) :
    ∀ i f, search (ops.map some ++ rest) i 1 f
      = search rest (i + ops.length) 1 (if ops = [] then f else i + ops.length - 1) := by
  induction ops with
  | nil => intro i f; rfl
  | cons o l ih =>
    intro i f
    rw [List.map_cons, List.cons_append, search, if_pos rfl, ih]
    rw [List.length_cons, show i + 1 + l.length = i + (l.length + 1) by omega]
    congr 1
    by_cases h : l = []
    · subst h; simp
    · rw [if_neg h, if_neg (by simp)]

/-- Runs with three propagators in all: every value. -/
theorem runC2_ok (s : Setup V K) (buf : List V) (n w c : Nat) (hn : s.steps = (n : Int)) (hw : s.wcycle = (w : Int)) (hw0 : 0 < w)
    (hne : buf ≠ []) (psi : Nat → V) (hbuf : ∀ t, t < n / w → buf[t]? = some (psi t)) (nk fk nb fb : Nat) (lhs : Bool)
    (hk : search s.ket 0 0 0 = (nk, fk)) (hb : (if s.bra = [] then (0, 0) else search s.bra 0 0 0) = (nb, fb))
    (hl : if lhs then nk = 2 ∧ nb ≤ 1 else nk = 1 ∧ nb = 2) :
    ∃ out, runC2 s buf c = .val (n / w, out) ∧
      (∀ a t, a ≤ t → t < n / w → reached s.stepsint a t → out (idx (n / w) lhs a t)
        = value s w psi lhs fk fb (if s.bra = [] then none else some (applyOps c s.bra s.psi0)) a t) ∧
      (∀ i, (∀ a t, a ≤ t → t < n / w → reached s.stepsint a t → i ≠ idx (n / w) lhs a t) → out i = s.zero) := by
  have hdiv : s.steps.tdiv s.wcycle = ((n / w : Nat) : Int) := by rw [hn, hw]; rfl
  obtain ⟨b0, hb0⟩ : ∃ b0, b0 = (if s.bra = [] then none else some (applyOps c s.bra s.psi0)) := ⟨_, rfl⟩
  obtain ⟨out, h1, h2, h3⟩ := c2Outer_ok s buf (n / w) w hw psi hbuf lhs fk fb b0 (n / w) 0 (fun _ => s.zero) (by omega)
  have hmap0 : b0.map (Spec.evolve s.U 0 (0 * w)) = b0 := by
    cases b0 with
    | none => rfl
    | some b => rw [Nat.zero_mul, Option.map_some, evolve_self]
  rw [hmap0] at h1
  rw [← hb0]
  refine ⟨out, ?_, fun a t g1 g2 g3 => h2 a t (by omega) g1 g2 g3, fun i hi => h3 i (fun a t _ g1 g2 g3 => hi a t g1 g2 g3)⟩
  unfold runC2
  rw [if_neg (by omega), hdiv, if_neg (Int.not_lt.mpr (Int.natCast_nonneg _)), if_neg hne, initBra_ok, ← hb0, hk]
  have hsb : (if b0.isSome = true then search s.bra 0 0 0 else (0, 0)) = (nb, fb) := by
    rw [← hb, hb0]
    by_cases h : s.bra = []
    · simp [h]
    · simp [h]
  dsimp only
  rw [hsb]
  dsimp only
  rw [Int.toNat_natCast]
  cases lhs with
  | true =>
    rw [if_pos rfl] at hl
    rw [if_pos hl, h1]
  | false =>
    rw [if_neg (by simp)] at hl
    rw [if_neg (by omega), if_pos hl, h1]

end QDng.Cfun
