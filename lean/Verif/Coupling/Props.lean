import Mathlib.Tactic.NormNum
import Verif.Coupling.Lemmas

/-
Properties of the search for the laser operators of a Hamiltonian.

C247: the optimal control program works with exactly the laser operators with the label OptLaser, or with all if none
has it; without any it says so.
C248: the coupling operator it uses is the answer of the Hamiltonian to the field of these lasers.
-/

namespace QDng.Coupling
open Spec

/-! ### C247 -/

theorem hits_none (o : Op) : hits none o = lasers o := by
  show (lasers o).filter (fun _ => true) = _
  simp

/-- `find` from the start. -/
theorem find_top (sel : Option (Nat → Bool)) (H : Op) (hr : Regular H) :
    (hits sel H = [] → ∃ n f, find sel maxLasers H (fun _ => none) 0 = .null n f ∧
      (n = 0 ∨ ∃ id, H = .laser id ∧ n = maxLasers)) ∧
    (hits sel H ≠ [] → find sel maxLasers H (fun _ => none) 0 =
      if (hits sel H).length ≤ maxLasers then
        .got (pack sel H) (hits sel H).length (write (fun _ => none) 0 (hits sel H)) else .ub) := by
  have h := find_spec sel maxLasers H hr (fun _ => none) 0
  refine ⟨fun e => ?_, fun e => ?_⟩
  · obtain ⟨n, h1, h2⟩ := h.1 e
    exact ⟨n, _, h1, h2⟩
  · rw [h.2 e, Nat.zero_add]

theorem useFound_write (coup : Op) (ws : List Nat) :
    useFound coup ws.length (write (fun _ => none) 0 ws) = .lasers (initOp coup) ws := by
  unfold useFound
  rw [readFound_write ws 0 _ fun k x h => write_get _ _ _ _ _ h]

/-- The search with all outcomes, for a Hamiltonian that is not just one laser operator. -/
theorem search_eq (marked : Nat → Bool) (H : Op) (hr : Regular H) (ha : ∀ id, H ≠ .laser id) :
    search marked H =
      if chosen marked H = [] then .threw
      else if (chosen marked H).length ≤ 16 then
        .lasers (initOp (pack (if (lasers H).filter marked = [] then none else some marked) H)) (chosen marked H)
      else .ub := by
  have h1 := find_top (some marked) H hr
  have h2 := find_top none H hr
  rw [hits_none] at h2
  have hm : hits (some marked) H = (lasers H).filter marked := rfl
  rw [hm] at h1
  unfold search
  by_cases h : (lasers H).filter marked = []
  · have hc : chosen marked H = lasers H := by unfold chosen; rw [if_pos h]
    obtain ⟨n, f, e, hn⟩ := h1.1 h
    have hn0 : n = 0 := hn.elim id fun ⟨id, hx, _⟩ => absurd hx (ha id)
    rw [e, hc, if_pos h]
    dsimp only
    rw [if_pos hn0]
    unfold searchAll
    by_cases h3 : lasers H = []
    · obtain ⟨n, f, e, hn⟩ := h2.1 h3
      have hn0 : n = 0 := hn.elim id fun ⟨id, hx, _⟩ => absurd hx (ha id)
      rw [e, if_pos h3]
      dsimp only
      rw [if_pos hn0]
    · rw [h2.2 h3, if_neg h3]
      by_cases h4 : (lasers H).length ≤ 16
      · rw [if_pos h4, if_pos (show _ ≤ maxLasers from h4)]
        exact useFound_write _ _
      · rw [if_neg h4, if_neg (show ¬ _ ≤ maxLasers from h4)]
  · have hc : chosen marked H = (lasers H).filter marked := by unfold chosen; rw [if_neg h]
    rw [h1.2 h, hc, if_neg h, if_neg h]
    by_cases h4 : ((lasers H).filter marked).length ≤ 16
    · rw [if_pos h4, if_pos (show _ ≤ maxLasers from h4)]
      exact useFound_write _ _
    · rw [if_neg h4, if_neg (show ¬ _ ≤ maxLasers from h4)]

/-- For a Hamiltonian with symmetric matrices, without lasers on the diagonal or in sums on a grid, and with no more
than 16 lasers to optimise: these lasers are found, in the order of the input; if there are none the program says so. -/
theorem C247_finds_partial (marked : Nat → Bool) (H : Op) (hr : Regular H) (ha : ∀ id, H ≠ .laser id)
    (hn : (chosen marked H).length ≤ 16) :
    (chosen marked H = [] → search marked H = .threw) ∧
    (chosen marked H ≠ [] → ∃ coup, search marked H = .lasers coup (chosen marked H)) := by
  rw [search_eq marked H hr ha]
  refine ⟨fun h => if_pos h, fun h =>
    ⟨initOp (pack (if (lasers H).filter marked = [] then none else some marked) H), ?_⟩⟩
  rw [if_neg h, if_pos hn]

/-- More than 16 lasers: elements behind the end of an array are written. -/
theorem C247_violated_many (marked : Nat → Bool) (H : Op) (hr : Regular H) (ha : ∀ id, H ≠ .laser id)
    (hn : 16 < (chosen marked H).length) : search marked H = .ub := by
  rw [search_eq marked H hr ha, if_neg (fun e => by rw [e] at hn; simp at hn), if_neg (by omega)]

/-- A Hamiltonian that is one laser operator without label: pointers without a value are used. -/
theorem C247_violated_alone (marked : Nat → Bool) (id : Nat) (h : marked id = false) :
    search marked (.laser id) = .ub := by
  unfold search
  rw [find, if_pos (show hit (some marked) id = false from h)]
  rfl

/-- Lasers on the diagonal of a matrix are not looked at, with or without label. -/
theorem C247_violated_diagonal (marked : Nat → Bool) (diag : Ops) (pairs : Pairs) :
    search marked (.multi diag pairs) = search marked (.multi .nil pairs) := by
  unfold search searchAll
  rw [find, find, find, find]

/-- So a Hamiltonian with a laser on the diagonal only is refused. -/
theorem C247_violated_permanent (marked : Nat → Bool) (row id : Nat) :
    search marked (.multi (.cons row (.laser id) .nil) .nil) = .threw := rfl

/-- Lasers in a sum on a grid are not looked at: such a Hamiltonian is refused whatever it contains. -/
theorem C247_violated_grid (marked : Nat → Bool) (parts : Ops) : search marked (.grid parts) = .threw := rfl

/-- Elements above the diagonal are not looked at if there is none at the other side, with or without label. -/
theorem C247_violated_upper (marked : Nat → Bool) (diag : Ops) (i j : Nat) (up : Upper) (rest : Pairs) :
    search marked (.multi diag (.cons i j .none up rest)) = search marked (.multi diag rest) := by
  unfold search searchAll
  rw [find, find, find, find, findPairs, findPairs]

/-! ### C248 -/

/-- The coupling operator is the answer to the field: if the lasers found have the field value `e`, the Hamiltonian is
the one without their field minus `e` times the coupling operator.  For Hamiltonians as for C247 where no laser
operator is a factor of a product. -/
theorem C248_response_partial {A : Type} [Ring A] [Algebra ℝ A] (w : World A) (marked : Nat → Bool) (H : Op)
    (hr : Regular H) (hf : NoFactor H) (ha : ∀ id, H ≠ .laser id) (coup : Op) (ids : List Nat)
    (h : search marked H = .lasers coup ids) (E : Nat → ℝ) (e : ℝ) :
    value w (withField ids E e) H = value w (withField ids E 0) H - e • parent w coup := by
  rw [search_eq marked H hr ha] at h
  by_cases h1 : chosen marked H = []
  · rw [if_pos h1] at h; cases h
  rw [if_neg h1] at h
  by_cases h2 : (chosen marked H).length ≤ 16
  · rw [if_pos h2] at h
    injection h with h3 h4
    subst h3 h4
    by_cases h5 : (lasers H).filter marked = []
    · rw [if_pos h5]
      have hc : chosen marked H = lasers H := by unfold chosen; rw [if_pos h5]
      rw [hc] at h1 ⊢
      exact pack_value w none _ E e H hr hf (fun id hi => ⟨fun _ => rfl, fun _ => hi⟩) (by rwa [hits_none])
    · rw [if_neg h5]
      have hc : chosen marked H = (lasers H).filter marked := by unfold chosen; rw [if_neg h5]
      rw [hc]
      refine pack_value w (some marked) _ E e H hr hf (fun id hi => ?_) h5
      rw [List.mem_filter]
      exact ⟨fun x => x.2, fun x => ⟨hi, x⟩⟩
  · rw [if_neg h2] at h; cases h

/-- A laser operator in a product: the other factors are missing in the coupling operator. -/
theorem C248_violated_product {A : Type} [Ring A] [Algebra ℝ A] (w : World A) (marked : Nat → Bool) (a b : Nat) :
    ∃ coup, search marked (.list true (.cons 0 (.other a) (.cons 1 (.laser b) .nil))) = .lasers coup [b] ∧
      parent w coup = w.mu b ∧
      ∀ E e, value w (withField [b] E e) (.list true (.cons 0 (.other a) (.cons 1 (.laser b) .nil))) =
        value w (withField [b] E 0) (.list true (.cons 0 (.other a) (.cons 1 (.laser b) .nil))) -
          e • (w.oth a * w.mu b) := by
  refine ⟨.list true (.cons 1 (.laser b) .nil), ?_, ?_, fun E e => ?_⟩
  · have h := search_eq marked (.list true (.cons 0 (.other a) (.cons 1 (.laser b) .nil)))
      (by simp [Regular, RegularIn]) (fun id h => by cases h)
    have hl : lasers (.list true (.cons 0 (.other a) (.cons 1 (.laser b) .nil))) = [b] := rfl
    have hc : chosen marked (.list true (.cons 0 (.other a) (.cons 1 (.laser b) .nil))) = [b] := by
      unfold chosen
      rw [hl]
      cases hm : marked b <;> simp [hm]
    rw [h, hc, if_neg (by simp), if_pos (by simp), hl]
    cases hm : marked b <;> simp [hm, pack, packIn, hits, lasers, hit, initOp, initOps]
  · simp [parent, parentProd]
  · simp [value, valueProd, withField]

/-- Two laser operators as factors: the Hamiltonian is quadratic in the field, the coupling operator is the product of
both dipole moments, in the order of the factors. -/
theorem C248_violated_two {A : Type} [Ring A] [Algebra ℝ A] (w : World A) (a b : Nat) :
    ∃ coup, search (fun _ => false) (.list true (.cons 0 (.laser a) (.cons 1 (.laser b) .nil))) = .lasers coup [a, b] ∧
      parent w coup = w.mu a * w.mu b ∧
      ∀ E e, value w (withField [a, b] E e) (.list true (.cons 0 (.laser a) (.cons 1 (.laser b) .nil))) =
        (e * e) • (w.mu a * w.mu b) := by
  refine ⟨.list true (.cons 0 (.laser a) (.cons 1 (.laser b) .nil)), ?_, ?_, fun E e => ?_⟩
  · have h := search_eq (fun _ => false) (.list true (.cons 0 (.laser a) (.cons 1 (.laser b) .nil)))
      (by simp [Regular, RegularIn]) (fun id h => by cases h)
    have hl : lasers (.list true (.cons 0 (.laser a) (.cons 1 (.laser b) .nil))) = [a, b] := rfl
    have hc : chosen (fun _ => false) (.list true (.cons 0 (.laser a) (.cons 1 (.laser b) .nil))) = [a, b] := by
      unfold chosen
      rw [hl]
      simp
    rw [h, hc, if_neg (by simp), if_pos (by simp), hl]
    simp [pack, packIn, hits, lasers, hit, initOp, initOps]
  · simp [parent, parentProd]
  · simp [value, valueProd, withField, smul_smul]

/-- A matrix that is not symmetric, with a laser at one side of the diagonal: the coupling operator has it at both
sides. -/
theorem C248_violated_one_sided {A : Type} [Ring A] [Algebra ℝ A] (w : World A) (marked : Nat → Bool) (i j a : Nat) :
    ∃ coup, search marked (.multi .nil (.cons i j (.some (.laser a)) .none .nil)) = .lasers coup [a] ∧
      parent w coup = w.emb i j (w.mu a) + w.emb j i (w.mu a) ∧
      ∀ E e, value w (withField [a] E e) (.multi .nil (.cons i j (.some (.laser a)) .none .nil)) =
        value w (withField [a] E 0) (.multi .nil (.cons i j (.some (.laser a)) .none .nil)) -
          e • w.emb i j (w.mu a) := by
  refine ⟨.multi .nil (.cons i j (.some (.laser a)) .same .nil), ?_, ?_, fun E e => ?_⟩
  · unfold search
    rw [find, findPairs, find]
    cases hm : marked a
    · rw [if_pos (show hit (some marked) a = false from hm)]
      rfl
    · rw [if_neg (by simp [hit, hm]), if_pos (by decide)]
      rfl
  · simp [parent, parentDiag, parentPairs, parentEntry, parentUpper]
  · simp [value, valueDiag, valuePairs, valueEntry, valueUpper, withField]

/-- A matrix with different operators at both sides of the diagonal, if no laser operator has the label: a null pointer
is used. -/
theorem C247_violated_null (marked : Nat → Bool) (diag : Ops) (i j a : Nat) (u : Op) (h : marked a = false) :
    search marked (.multi diag (.cons i j (.some (.laser a)) (.other u) .nil)) = .ub := by
  unfold search
  rw [find, findPairs, find, if_pos (show hit (some marked) a = false from h)]
  dsimp only
  rw [findPairs, endMulti, if_pos rfl]
  dsimp only
  rw [if_pos rfl]
  unfold searchAll
  rw [find, findPairs, find, if_neg (by simp [hit]), if_pos (by decide)]
  rfl

/-! ### The hypotheses can be met -/

/-- Two states with a laser between them, and another laser in a sum beside it. -/
def sample : Op :=
  .list false (.cons 0 (.other 0) (.cons 1 (.multi (.cons 0 (.other 1) (.cons 1 (.other 2) .nil))
    (.cons 1 0 (.some (.list false (.cons 0 (.other 3) (.cons 1 (.laser 7) .nil)))) .same .nil)) (.cons 2 (.laser 8) .nil)))

theorem sample_regular : Regular sample := by
  simp [sample, Regular, RegularIn, RegularOff, RegularPair, lasersIn, lasers]

theorem sample_noFactor : NoFactor sample := by
  simp [sample, NoFactor, NoFactorIn, NoFactorOff, NoFactorLow]

example : chosen (· == 8) sample = [8] := by decide

example : chosen (fun _ => false) sample = [7, 8] := by decide

example : ∃ coup, search (· == 8) sample = .lasers coup [8] :=
  (C247_finds_partial (· == 8) sample sample_regular (fun id h => by cases h) (by decide)).2 (by decide)

example : ∃ coup, search (fun _ => false) sample = .lasers coup [7, 8] :=
  (C247_finds_partial (fun _ => false) sample sample_regular (fun id h => by cases h) (by decide)).2 (by decide)

/-- C248: the response of the sample to the field of both lasers. -/
example {A : Type} [Ring A] [Algebra ℝ A] (w : World A) (E : Nat → ℝ) (e : ℝ) :
    ∃ coup, search (fun _ => false) sample = .lasers coup [7, 8] ∧
      value w (withField [7, 8] E e) sample = value w (withField [7, 8] E 0) sample - e • parent w coup := by
  obtain ⟨coup, h⟩ := (C247_finds_partial (fun _ => false) sample sample_regular (fun id h => by cases h) (by decide)).2
    (by decide)
  have hc : chosen (fun _ => false) sample = [7, 8] := by decide
  rw [hc] at h
  exact ⟨coup, h, C248_response_partial w _ sample sample_regular sample_noFactor (fun id h => by cases h) coup _ h E e⟩

/-- A sum of `n` lasers. -/
def manyOps : Nat → Ops
  | 0 => .nil
  | n + 1 => .cons n (.laser n) (manyOps n)

theorem many_regular : (n : Nat) → RegularIn (manyOps n)
  | 0 => trivial
  | n + 1 => ⟨trivial, many_regular n⟩

theorem many_lasers : (n : Nat) → (lasersIn (manyOps n)).length = n
  | 0 => rfl
  | n + 1 => by simp [manyOps, lasersIn, lasers, many_lasers n, Nat.add_comm]

example (n : Nat) (h : 16 < n) : search (fun _ => false) (.list false (manyOps n)) = .ub := by
  refine C247_violated_many _ _ (many_regular n) (fun id h => by cases h) ?_
  have : chosen (fun _ => false) (.list false (manyOps n)) = lasersIn (manyOps n) := by
    unfold chosen
    rw [if_pos (by simp)]
    rfl
  rw [this, many_lasers]
  exact h

/-- C248: with the numbers as operators the answer of a product is twice the coupling operator. -/
example : ∃ w : World ℝ, ∃ coup, search (fun _ => false) (.list true (.cons 0 (.other 0) (.cons 1 (.laser 1) .nil))) =
      .lasers coup [1] ∧ parent w coup = 1 ∧
      value w (withField [1] 0 3) (.list true (.cons 0 (.other 0) (.cons 1 (.laser 1) .nil))) = -6 := by
  let w : World ℝ := { mu := fun _ => 1, oth := fun _ => 2, emb := fun _ _ => LinearMap.id }
  obtain ⟨coup, h1, h2, h3⟩ := C248_violated_product w (fun _ => false) 0 1
  refine ⟨w, coup, h1, h2, ?_⟩
  simp [value, valueProd, withField, w]
  norm_num

end QDng.Coupling
