import Verif.Cfun.Lemmas
import Mathlib.Data.Nat.Init

/-
C89, C90: correlation functions.
-/

namespace QDng.Cfun

open QDng QDng.Common

variable {V K : Type}

theorem run_one (s : Setup V K) (n w : Nat) (hn : s.steps = (n : Int)) (hn0 : 0 < n) (hw : s.wcycle = (w : Int)) (hw0 : 0 < w)
    (o : Nat → V → V) (hk : s.ket.getLast? = some (some o)) (hb : s.bra = [] ∨ s.bra.getLast? = some none)
    (hc : countU s = 2) :
    ∃ l, run s none = .val (.one l) ∧ l.length = n / w ∧ ∀ t (ht : t < l.length), l[t]
      = s.ip (if s.bra = [] then Spec.evolve s.U 0 (t * w) (applyOps 0 s.ket s.psi0)
              else Spec.evolve s.U 0 ((t + 1) * w) (applyOps (n - 1) s.bra s.psi0))
          (applyOps (t * w) (elemsFrom (firstOp s.ket) s.ket) (Spec.evolve s.U 0 (t * w) (applyOps 0 s.ket s.psi0))) := by
  have hkn : s.ket ≠ [] := by
    intro h
    rw [h] at hk
    exact absurd hk (by simp)
  obtain ⟨buf, h1, h2, h3⟩ := baseline_ok s n w hn hn0 hw hw0 hkn
  have hdiv : s.steps.tdiv s.wcycle = ((n / w : Nat) : Int) := by rw [hn, hw]; rfl
  suffices h : ∃ l, runC1 s buf (n - 1) = .val l ∧ l.length = n / w ∧ ∀ t (ht : t < l.length), l[t]
      = s.ip (if s.bra = [] then Spec.evolve s.U 0 (t * w) (applyOps 0 s.ket s.psi0)
              else Spec.evolve s.U 0 ((t + 1) * w) (applyOps (n - 1) s.bra s.psi0))
          (applyOps (t * w) (elemsFrom (firstOp s.ket) s.ket) (Spec.evolve s.U 0 (t * w) (applyOps 0 s.ket s.psi0))) by
    obtain ⟨l, g1, g2, g3⟩ := h
    refine ⟨l, ?_, g2, g3⟩
    have hcheck : checkBaseline s [s.psi0] = .val () := by
      unfold checkBaseline
      rw [if_neg (by simp)]
    unfold run
    dsimp only
    rw [Option.getD_none, hk, hcheck]
    dsimp only
    rw [h1]
    dsimp only
    rw [if_pos hc, g1]
    rcases hb with hb | hb
    · rw [hb]; rfl
    · rw [hb]
  unfold runC1
  rw [if_neg (by omega), hdiv, if_neg (Int.not_lt.mpr (Int.natCast_nonneg _)), if_neg h2, initBra_ok]
  dsimp only
  rw [Int.toNat_natCast]
  by_cases hbr : s.bra = []
  · rw [if_pos hbr]
    rw [c1Loop_none s buf w hw (fun t => Spec.evolve s.U 0 (t * w) (applyOps 0 s.ket s.psi0)) (n / w) h3 (n / w) 0 [] (by omega)]
    refine ⟨_, rfl, by simp, ?_⟩
    intro t ht
    simp only [List.nil_append, List.getElem_map, List.getElem_range, Nat.zero_add, if_pos hbr]
  · rw [if_neg hbr]
    have := c1Loop_some s buf w hw (fun t => Spec.evolve s.U 0 (t * w) (applyOps 0 s.ket s.psi0)) (n / w) h3
      (applyOps (n - 1) s.bra s.psi0) (n / w) 0 [] (by omega)
    rw [Nat.zero_mul, evolve_self] at this
    rw [this]
    refine ⟨_, rfl, by simp, ?_⟩
    intro t ht
    simp only [List.nil_append, List.getElem_map, List.getElem_range, Nat.zero_add, if_neg hbr]

theorem run_two (s : Setup V K) (n w : Nat) (hn : s.steps = (n : Int)) (hn0 : 0 < n) (hw : s.wcycle = (w : Int)) (hw0 : 0 < w)
    (o : Nat → V → V) (hk : s.ket.getLast? = some (some o)) (hb : s.bra = [] ∨ s.bra.getLast? = some none)
    (hc : countU s = 3) (nk fk nb fb : Nat) (lhs : Bool) (hsk : search s.ket 0 0 0 = (nk, fk))
    (hsb : (if s.bra = [] then (0, 0) else search s.bra 0 0 0) = (nb, fb))
    (hl : if lhs then nk = 2 ∧ nb ≤ 1 else nk = 1 ∧ nb = 2) :
    ∃ out, run s none = .val (.two (n / w) out) ∧
      (∀ a t, a ≤ t → t < n / w → reached s.stepsint a t → out (idx (n / w) lhs a t)
        = value s w (fun t => Spec.evolve s.U 0 (t * w) (applyOps 0 s.ket s.psi0)) lhs fk fb
            (if s.bra = [] then none else some (applyOps (n - 1) s.bra s.psi0)) a t) ∧
      (∀ i, (∀ a t, a ≤ t → t < n / w → reached s.stepsint a t → i ≠ idx (n / w) lhs a t) → out i = s.zero) := by
  have hkn : s.ket ≠ [] := by
    intro h
    rw [h] at hk
    exact absurd hk (by simp)
  obtain ⟨buf, h1, h2, h3⟩ := baseline_ok s n w hn hn0 hw hw0 hkn
  obtain ⟨out, g1, g2, g3⟩ := runC2_ok s buf n w (n - 1) hn hw hw0 h2 _ h3 nk fk nb fb lhs hsk hsb hl
  refine ⟨out, ?_, g2, g3⟩
  have hcheck : checkBaseline s [s.psi0] = .val () := by
    unfold checkBaseline
    rw [if_neg (by simp)]
  unfold run
  dsimp only
  rw [Option.getD_none, hk, hcheck]
  dsimp only
  rw [h1]
  dsimp only
  rw [if_neg (by omega), if_pos hc, g1]
  rcases hb with hb | hb
  · rw [hb]; rfl
  · rw [hb]

/-- The elements of a list of operators. -/
abbrev elems (ops : List (Nat → V → V)) : List (Elem V) := ops.map some

theorem last_elems (l : List (Elem V)) (sig : List (Nat → V → V)) (h : sig ≠ []) :
    ∃ o, (l ++ none :: elems sig).getLast? = some (some o) := by
  obtain ⟨sig', o, rfl⟩ := List.eq_nil_or_concat sig |>.resolve_left h
  refine ⟨o, ?_⟩
  rw [elems, List.concat_eq_append, List.map_append, List.map_singleton, ← List.cons_append, ← List.append_assoc,
    List.getLast?_append]
  rfl

/-! ### C89: one point -/

/-- **C89**, ket `U, O_p` and no bra: the program computes `⟨Ψ(t)|O_p|Ψ(t)⟩`, the documented function, at the times
`0, w, 2w, …` (in steps), for every number of steps, write cycle, propagator (also time dependent) and probe. -/
theorem C89_values_partial (s : Setup V K) (n w : Nat) (sig : List (Nat → V → V)) (hn : s.steps = (n : Int)) (hn0 : 0 < n)
    (hw : s.wcycle = (w : Int)) (hw0 : 0 < w) (hk : s.ket = none :: elems sig) (hsig : sig ≠ []) (hb : s.bra = []) :
    ∃ l, run s none = .val (.one l) ∧ l.length = n / w ∧
      ∀ t (ht : t < l.length), l[t] = Spec.onePoint s.U s.ip (Spec.apply sig) s.psi0 s.psi0 (t * w) := by
  obtain ⟨o, ho⟩ := last_elems [] sig hsig
  rw [List.nil_append, ← hk] at ho
  obtain ⟨l, h1, h2, h3⟩ := run_one s n w hn hn0 hw hw0 o ho (Or.inl hb)
    (by unfold countU; rw [hk, hb, numU_cons_none, numU_map]; rfl)
  refine ⟨l, h1, h2, fun t ht => ?_⟩
  have hf : elemsFrom (firstOp s.ket) s.ket = elems sig := by
    rw [hk]
    obtain ⟨x, l', rfl⟩ := List.exists_cons_of_ne_nil hsig
    simp [firstOp, elemsFrom, List.findIdx?_cons]
  have hp : applyOps 0 s.ket s.psi0 = s.psi0 := by rw [hk]; rfl
  rw [h3 t ht, if_pos hb, hf, hp, applyOps_map]
  rfl

/-- Numbers as wave functions: one step adds one. -/
def sample (ket bra : List (Elem Int)) (steps w si : Int) : Setup Int Int :=
  { psi0 := 1, U := fun _ x => x + 1, ip := fun x y => x * y, zero := 0, ket := ket, bra := bra, steps := steps, wcycle := w, stepsint := si }

example : ∃ l, run (sample [none, some fun _ x => 10 * x] [] 5 2 0) none = .val (.one l) ∧ l = [10, 90] := by
  obtain ⟨l, h1, h2, h3⟩ := C89_values_partial (sample [none, some fun _ x => 10 * x] [] 5 2 0) 5 2 [fun _ x => 10 * x] rfl (by norm_num)
    rfl (by norm_num) rfl (by simp) rfl
  refine ⟨l, h1, ?_⟩
  refine List.ext_getElem (by rw [h2]; rfl) fun t ht ht' => ?_
  rw [h3 t ht]
  have : t < 2 := ht'
  have : t = 0 ∨ t = 1 := by omega
  rcases this with rfl | rfl <;> rfl

/-- With operators before the first propagator of the ket the probe has no effect at all: the leading operators are applied
a second time in its place. -/
theorem C89_violated_pre (s : Setup V K) (n w : Nat) (pre sig : List (Nat → V → V)) (hn : s.steps = (n : Int)) (hn0 : 0 < n)
    (hw : s.wcycle = (w : Int)) (hw0 : 0 < w) (hk : s.ket = elems pre ++ none :: elems sig) (hpre : pre ≠ []) (hsig : sig ≠ [])
    (hb : s.bra = []) :
    ∃ l, run s none = .val (.one l) ∧ l.length = n / w ∧ ∀ t (ht : t < l.length),
      l[t] = Spec.onePoint s.U s.ip (Spec.apply pre) (Spec.apply pre 0 s.psi0) (Spec.apply pre 0 s.psi0) (t * w) := by
  obtain ⟨o, ho⟩ := last_elems (elems pre) sig hsig
  rw [← hk] at ho
  obtain ⟨l, h1, h2, h3⟩ := run_one s n w hn hn0 hw hw0 o ho (Or.inl hb)
    (by unfold countU; rw [hk, hb, numU_append, numU_cons_none, numU_map, numU_map]; rfl)
  refine ⟨l, h1, h2, fun t ht => ?_⟩
  have hf : elemsFrom (firstOp s.ket) s.ket = s.ket := by
    rw [hk]
    obtain ⟨x, l', rfl⟩ := List.exists_cons_of_ne_nil hpre
    simp [firstOp, elemsFrom, List.findIdx?_cons]
  have hp : ∀ c v, applyOps c s.ket v = Spec.apply pre c v := by intro c v; rw [hk]; exact applyOps_stop c pre _ v
  rw [h3 t ht, if_pos hb, hf, hp, hp]
  rfl

/-- The documented value differs: probe 10, leading operator 2. -/
example : ∃ l, run (sample [some fun _ x => 2 * x, none, some fun _ x => 10 * x] [] 2 1 0) none = .val (.one l) ∧ l = [8, 18] ∧
    Spec.onePoint (fun _ x => x + 1) (fun x y => x * y) (fun _ x => 10 * x) (2 : Int) 2 0 = 40 := by
  obtain ⟨l, h1, h2, h3⟩ := C89_violated_pre (sample [some fun _ x => 2 * x, none, some fun _ x => 10 * x] [] 2 1 0) 2 1 [fun _ x => 2 * x]
    [fun _ x => 10 * x] rfl (by norm_num) rfl (by norm_num) rfl (by simp) (by simp) rfl
  refine ⟨l, h1, ?_, rfl⟩
  refine List.ext_getElem (by rw [h2]; rfl) fun t ht ht' => ?_
  rw [h3 t ht]
  have : t < 2 := ht'
  have : t = 0 ∨ t = 1 := by omega
  rcases this with rfl | rfl <;> rfl

/-- With an explicit bra `O_b, U` the bra is one write cycle ahead of the ket: the value for step `t w` is the scalar product of
the bra at `(t + 1) w` with the ket at `t w`.  Also, `O_b` acts at the last step number instead of the first. -/
theorem C89_violated_bra (s : Setup V K) (n w : Nat) (pre sig : List (Nat → V → V)) (hn : s.steps = (n : Int)) (hn0 : 0 < n)
    (hw : s.wcycle = (w : Int)) (hw0 : 0 < w) (hk : s.ket = none :: elems sig) (hsig : sig ≠ [])
    (hb : s.bra = elems pre ++ [none]) :
    ∃ l, run s none = .val (.one l) ∧ l.length = n / w ∧ ∀ t (ht : t < l.length),
      l[t] = s.ip (Spec.evolve s.U 0 ((t + 1) * w) (Spec.apply pre (n - 1) s.psi0))
        (Spec.apply sig (t * w) (Spec.evolve s.U 0 (t * w) s.psi0)) := by
  obtain ⟨o, ho⟩ := last_elems [] sig hsig
  rw [List.nil_append, ← hk] at ho
  have hbn : s.bra ≠ [] := by rw [hb]; simp
  obtain ⟨l, h1, h2, h3⟩ := run_one s n w hn hn0 hw hw0 o ho (Or.inr (by rw [hb]; simp))
    (by unfold countU; rw [if_neg hbn, hk, hb, numU_append, numU_cons_none, numU_cons_none, numU_map, numU_map]; rfl)
  refine ⟨l, h1, h2, fun t ht => ?_⟩
  have hf : elemsFrom (firstOp s.ket) s.ket = elems sig := by
    rw [hk]
    obtain ⟨x, l', rfl⟩ := List.exists_cons_of_ne_nil hsig
    simp [firstOp, elemsFrom, List.findIdx?_cons]
  have hp : applyOps 0 s.ket s.psi0 = s.psi0 := by rw [hk]; rfl
  rw [h3 t ht, if_neg hbn, hf, hp, applyOps_map, hb, applyOps_stop]

/-- The explicit bra `U` is documented to be what is assumed without a bra.  The results differ. -/
theorem C89_violated_default : ∃ l l', run (sample [none, some fun _ x => x] [] 1 1 0) none = .val (.one l) ∧
    run (sample [none, some fun _ x => x] [none] 1 1 0) none = .val (.one l') ∧ l = [1] ∧ l' = [2] := by
  obtain ⟨l, h1, h2, h3⟩ := C89_values_partial (sample [none, some fun _ x => x] [] 1 1 0) 1 1 [fun _ x => x] rfl (by norm_num)
    rfl (by norm_num) rfl (by simp) rfl
  obtain ⟨l', g1, g2, g3⟩ := C89_violated_bra (sample [none, some fun _ x => x] [none] 1 1 0) 1 1 [] [fun _ x => x] rfl (by norm_num)
    rfl (by norm_num) rfl (by simp) rfl
  refine ⟨l, l', h1, g1, ?_, ?_⟩
  · refine List.ext_getElem (by rw [h2]; rfl) fun t ht ht' => ?_
    rw [h3 t ht]
    have : t < 1 := ht'
    have : t = 0 := by omega
    subst this; rfl
  · refine List.ext_getElem (by rw [g2]; rfl) fun t ht ht' => ?_
    rw [g3 t ht]
    have : t < 1 := ht'
    have : t = 0 := by omega
    subst this; rfl

/-- A write cycle of zero is not rejected. -/
theorem C89_violated_zero (s : Setup V K) (sig : List (Nat → V → V)) (hw : s.wcycle = 0) (hk : s.ket = none :: elems sig)
    (hsig : sig ≠ []) (hb : s.bra = []) : run s none = .ub := by
  obtain ⟨o, ho⟩ := last_elems [] sig hsig
  rw [List.nil_append, ← hk] at ho
  have hcheck : checkBaseline s [s.psi0] = .val () := by
    unfold checkBaseline
    rw [if_neg (by simp)]
  unfold run
  dsimp only
  rw [Option.getD_none, ho, hcheck, hb]
  dsimp only
  have hbase : baseline s [s.psi0] = .ub ∨ baseline s [s.psi0] = .val ([s.psi0], (s.steps - 1).toNat) := by
    unfold baseline
    rw [if_pos (by rfl), hk]
    unfold initKetBra
    dsimp only
    cases hp : (s.steps - 1).toNat with
    | zero => right; rfl
    | succ m =>
      left
      unfold fill
      dsimp only
      rw [if_pos hw]
  have hcount : countU s = 2 := by unfold countU; rw [hk, hb, numU_cons_none, numU_map]; rfl
  rcases hbase with h | h
  · rw [h]; rfl
  · rw [h, List.getLast?_nil]
    dsimp only
    rw [if_pos hcount]
    unfold runC1
    rw [if_pos hw]

example : run (sample [none, some fun _ x => x] [] 5 0 0) none = .ub :=
  C89_violated_zero _ [fun _ x => x] rfl rfl (by simp) rfl

/-! ### C90: two points -/

theorem drop_elems (pre : List (Nat → V → V)) (rest : List (Elem V)) (k : Nat) :
    (elems pre ++ rest).drop (pre.length + k) = rest.drop k := by
  rw [List.drop_append]
  simp

/-- **C90**, ket `O_k, U, O_1, U, O_p` and no bra: the program computes the documented function of two times, at all pairs
`t1 ≤ t` of multiples of the write cycle, as long as the number of values between them is at most `stepsint + 1`; all other
values are zero.  The element `t1, t` is at `t1 Nt + t`. -/
theorem C90_ket_partial (s : Setup V K) (n w : Nat) (pre sig : List (Nat → V → V)) (o1 : Nat → V → V) (hn : s.steps = (n : Int))
    (hn0 : 0 < n) (hw : s.wcycle = (w : Int)) (hw0 : 0 < w)
    (hk : s.ket = elems pre ++ none :: some o1 :: none :: elems sig) (hsig : sig ≠ []) (hb : s.bra = []) :
    ∃ out, run s none = .val (.two (n / w) out) ∧ ∀ i j, i < n / w → j < n / w →
      (i ≤ j → (s.stepsint ≤ 0 ∨ (j : Int) - i ≤ s.stepsint + 1) → out (i * (n / w) + j)
        = Spec.twoPointKet s.U s.ip (Spec.apply sig) o1 (Spec.apply pre 0 s.psi0) (Spec.apply pre 0 s.psi0) (i * w) (j * w)) ∧
      (¬ (i ≤ j ∧ (s.stepsint ≤ 0 ∨ (j : Int) - i ≤ s.stepsint + 1)) → out (i * (n / w) + j) = s.zero) := by
  obtain ⟨o, ho⟩ := last_elems (elems pre ++ none :: [some o1]) sig hsig
  have hk' : s.ket = (elems pre ++ none :: [some o1]) ++ none :: elems sig := by rw [hk]; simp
  rw [← hk'] at ho
  have hse : search s.ket 0 0 0 = (2, pre.length + 1) := by
    rw [hk, search_pre pre _ 0 (by omega), search, search, if_pos rfl, search]
    have := search_pre sig [] 2 (by omega) (0 + pre.length + 1 + 1 + 1) (0 + pre.length + 1)
    rw [List.append_nil] at this
    rw [this, search]
    congr 1
    omega
  obtain ⟨out, h1, h2, h3⟩ := run_two s n w hn hn0 hw hw0 o ho (Or.inl hb)
    (by
      unfold countU
      rw [hk, hb, numU_append, numU_cons_none, numU_cons_some, numU_cons_none, numU_map, numU_map]; rfl)
    2 (pre.length + 1) 0 0 true hse (by rw [if_pos hb]) (by simp)
  refine ⟨out, h1, fun i j hi hj => ⟨fun hij hr => ?_, fun hr => ?_⟩⟩
  · have := h2 i j hij hj hr
    have e0 : idx (n / w) true i j = i * (n / w) + j := rfl
    rw [e0] at this
    rw [this]
    unfold value Spec.twoPointKet
    rw [if_pos hb]
    dsimp only
    have hp : ∀ c v, applyOps c s.ket v = Spec.apply pre c v := by intro c v; rw [hk]; exact applyOps_stop c pre _ v
    have d1 : s.ket.drop (pre.length + 1) = some o1 :: none :: elems sig := by rw [hk, drop_elems]; rfl
    have d3 : s.ket.drop (pre.length + 1 + 2) = elems sig := by
      rw [hk, show pre.length + 1 + 2 = pre.length + 3 by omega, drop_elems]; rfl
    rw [if_pos rfl, if_pos rfl, d1, d3, applyOps_map, hp]
    rfl
  · refine h3 _ (fun a t g1 g2 g3 he => hr ?_)
    have := idx_inj (n / w) true i j a t hi hj (by omega) g2 he
    obtain ⟨rfl, rfl⟩ := this
    exact ⟨g1, g3⟩

example : ∃ out, run (sample [none, some fun _ x => 10 * x, none, some fun _ x => x + 100] [] 3 1 0) none = .val (.two 3 out) ∧
    out 5 = 363 ∧ out 3 = 0 := by
  obtain ⟨out, h1, h2⟩ := C90_ket_partial (sample [none, some fun _ x => 10 * x, none, some fun _ x => x + 100] [] 3 1 0) 3 1 []
    [fun _ x => x + 100] (fun _ x => 10 * x) rfl (by norm_num) rfl (by norm_num) rfl (by simp) rfl
  refine ⟨out, h1, ?_, ?_⟩
  · have := (h2 1 2 (by norm_num) (by norm_num)).1 (by norm_num) (Or.inl le_rfl)
    exact this.trans rfl
  · exact (h2 1 0 (by norm_num) (by norm_num)).2 (by simp)

/-- The limit on the intermediate time is exceeded: with `stepsint = k` the value `k + 1` write cycles behind `t1` is
computed as well, though the handbook speaks of at most `k` time steps. -/
theorem C90_violated_stepsint (k : Nat) (hk : 0 < k) : ∃ out,
    run (sample [none, some fun _ x => x, none, some fun _ x => x] [] (k + 2) 1 k) none = .val (.two (k + 2) out) ∧
      out (k + 1) = ((k : Int) + 2) * (k + 2) := by
  obtain ⟨out, h1, h2⟩ := C90_ket_partial (sample [none, some fun _ x => x, none, some fun _ x => x] [] (k + 2) 1 k) (k + 2) 1 []
    [fun _ x => x] (fun _ x => x) (by simp [sample]) (by norm_num) rfl (by norm_num) rfl (by simp) rfl
  rw [Nat.div_one] at h1 h2
  refine ⟨out, h1, ?_⟩
  have := (h2 0 (k + 1) (by omega) (by omega)).1 (by omega) (Or.inr (by simp [sample]))
  rw [Nat.zero_mul, Nat.zero_add] at this
  rw [this]
  have hev : ∀ (m : Nat) (v : Int), Spec.evolve (fun (_ : Nat) (x : Int) => x + 1) 0 m v = v + m := by
    intro m
    induction m with
    | zero => intro v; simp [Spec.evolve]
    | succ m ih =>
      intro v
      rw [← evolve_trans (fun (_ : Nat) (x : Int) => x + 1) 0 m (m + 1) (by omega) (by omega), ih, evolve_step]
      push_cast
      ring
  unfold Spec.twoPointKet sample
  dsimp only
  rw [Nat.zero_mul, Nat.mul_one, evolve_self, hev]
  unfold Spec.apply
  dsimp only [List.foldl]
  push_cast
  ring

/-- Of several operators between the propagators of the ket only the last one is applied. -/
theorem C90_violated_several (s : Setup V K) (n w : Nat) (ops sig : List (Nat → V → V)) (o1 : Nat → V → V) (hn : s.steps = (n : Int))
    (hn0 : 0 < n) (hw : s.wcycle = (w : Int)) (hw0 : 0 < w)
    (hk : s.ket = none :: (elems ops ++ some o1 :: none :: elems sig)) (hsig : sig ≠ []) (hb : s.bra = []) :
    ∃ out, run s none = .val (.two (n / w) out) ∧ ∀ i j, i ≤ j → j < n / w →
      (s.stepsint ≤ 0 ∨ (j : Int) - i ≤ s.stepsint + 1) → out (i * (n / w) + j)
        = Spec.twoPointKet s.U s.ip (Spec.apply sig) o1 s.psi0 s.psi0 (i * w) (j * w) := by
  obtain ⟨o, ho⟩ := last_elems (none :: (elems ops ++ [some o1])) sig hsig
  have hk' : s.ket = (none :: (elems ops ++ [some o1])) ++ none :: elems sig := by rw [hk]; simp
  rw [← hk'] at ho
  have hse : search s.ket 0 0 0 = (2, ops.length + 1) := by
    rw [hk, search]
    have e : elems ops ++ some o1 :: none :: elems sig = elems (ops ++ [o1]) ++ none :: elems sig := by simp [elems]
    rw [e, search_mid, search]
    have := search_pre sig [] 2 (by omega) (0 + 1 + (ops ++ [o1]).length + 1) (0 + 1 + (ops ++ [o1]).length - 1)
    rw [List.append_nil] at this
    rw [if_neg (by simp), this, search]
    congr 1
    rw [List.length_append, List.length_singleton]
    omega
  obtain ⟨out, h1, h2, _⟩ := run_two s n w hn hn0 hw hw0 o ho (Or.inl hb)
    (by
      unfold countU
      rw [hk, hb, numU_cons_none, numU_append, numU_cons_some, numU_cons_none, numU_map, numU_map]; rfl)
    2 (ops.length + 1) 0 0 true hse (by rw [if_pos hb]) (by simp)
  refine ⟨out, h1, fun i j hij hj hr => ?_⟩
  have := h2 i j hij hj hr
  have e0 : idx (n / w) true i j = i * (n / w) + j := rfl
  rw [e0] at this
  rw [this]
  unfold value Spec.twoPointKet
  rw [if_pos hb]
  dsimp only
  have hp : applyOps 0 s.ket s.psi0 = s.psi0 := by rw [hk]; rfl
  have d1 : s.ket.drop (ops.length + 1) = some o1 :: none :: elems sig := by
    rw [hk, List.drop_succ_cons]
    have := drop_elems ops (some o1 :: none :: elems sig) 0
    rw [Nat.add_zero] at this
    rw [this]
    rfl
  have d3 : s.ket.drop (ops.length + 1 + 2) = elems sig := by
    rw [hk, show ops.length + 1 + 2 = (ops.length + 2) + 1 by omega, List.drop_succ_cons, drop_elems]
    rfl
  rw [if_pos rfl, if_pos rfl, d1, d3, applyOps_map, hp]
  rfl

/-- Hence the first of two operators has no effect, whatever it is. -/
example (o o' : Nat → Int → Int) : ∃ out out',
    run (sample [none, some o, some fun _ x => 2 * x, none, some fun _ x => x] [] 3 1 0) none = .val (.two 3 out) ∧
    run (sample [none, some o', some fun _ x => 2 * x, none, some fun _ x => x] [] 3 1 0) none = .val (.two 3 out') ∧
    out 5 = out' 5 := by
  obtain ⟨out, h1, h2⟩ := C90_violated_several (sample [none, some o, some fun _ x => 2 * x, none, some fun _ x => x] [] 3 1 0) 3 1 [o]
    [fun _ x => x] (fun _ x => 2 * x) rfl (by norm_num) rfl (by norm_num) rfl (by simp) rfl
  obtain ⟨out', g1, g2⟩ := C90_violated_several (sample [none, some o', some fun _ x => 2 * x, none, some fun _ x => x] [] 3 1 0) 3 1 [o']
    [fun _ x => x] (fun _ x => 2 * x) rfl (by norm_num) rfl (by norm_num) rfl (by simp) rfl
  refine ⟨out, out', h1, g1, ?_⟩
  have e1 := h2 1 2 (by norm_num) (by norm_num) (Or.inl le_rfl)
  have e2 := g2 1 2 (by norm_num) (by norm_num) (Or.inl le_rfl)
  exact e1.trans e2.symm

/-- Interaction on the bra side (ket `U, O_p`, bra `U, O_2, U`): the operator `O_2` acts on the bra one write cycle later
than documented, `⟨Ψ0|U†(t2 + w,0) O_2 …` instead of `⟨Ψ0|U†(t2,0) O_2 …`. -/
theorem C90_violated_bra (s : Setup V K) (n w : Nat) (o2 probe : Nat → V → V) (hn : s.steps = (n : Int))
    (hn0 : 0 < n) (hw : s.wcycle = (w : Int)) (hw0 : 0 < w)
    (hk : s.ket = [none, some probe]) (hb : s.bra = [none, some o2, none]) :
    ∃ out, run s none = .val (.two (n / w) out) ∧ ∀ i j, i ≤ j → j < n / w →
      (s.stepsint ≤ 0 ∨ (j : Int) - i ≤ s.stepsint + 1) → out (j * (n / w) + i)
        = s.ip (Spec.evolve s.U (i * w) (j * w) (o2 (i * w) (Spec.evolve s.U 0 ((i + 1) * w) s.psi0)))
            (probe (j * w) (Spec.evolve s.U 0 (j * w) s.psi0)) := by
  have hbn : s.bra ≠ [] := by rw [hb]; simp
  obtain ⟨out, h1, h2, _⟩ := run_two s n w hn hn0 hw hw0 probe (by rw [hk]; rfl) (Or.inr (by rw [hb]; rfl))
    (by unfold countU; rw [if_neg hbn, hk, hb]; rfl) 1 1 2 1 false (by rw [hk]; rfl) (by rw [if_neg hbn, hb]; rfl) (by simp)
  refine ⟨out, h1, fun i j hij hj hr => ?_⟩
  have := h2 i j hij hj hr
  have e0 : idx (n / w) false i j = j * (n / w) + i := rfl
  rw [e0] at this
  rw [this]
  unfold value
  rw [if_neg hbn, hk, hb]
  rfl

/-- The documented value differs. -/
example : ∃ out, run (sample [none, some fun _ x => x] [none, some fun _ x => 10 * x, none] 1 1 0) none = .val (.two 1 out) ∧
    out 0 = 20 ∧ Spec.twoPointBra (fun _ x => x + 1) (fun x y => x * y) (fun _ x => x) (fun _ x => 10 * x) (1 : Int) 1 0 0 = 10 := by
  obtain ⟨out, h1, h2⟩ := C90_violated_bra (sample [none, some fun _ x => x] [none, some fun _ x => 10 * x, none] 1 1 0) 1 1
    (fun _ x => 10 * x) (fun _ x => x) rfl (by norm_num) rfl (by norm_num) rfl rfl
  refine ⟨out, h1, ?_, rfl⟩
  exact (h2 0 0 le_rfl (by norm_num) (Or.inl le_rfl)).trans rfl

/-- The same for an explicit bra with an interaction on the ket side (ket `U, O_1, U, O_p`, bra `U`). -/
theorem C90_violated_ahead (s : Setup V K) (n w : Nat) (o1 probe : Nat → V → V) (hn : s.steps = (n : Int))
    (hn0 : 0 < n) (hw : s.wcycle = (w : Int)) (hw0 : 0 < w)
    (hk : s.ket = [none, some o1, none, some probe]) (hb : s.bra = [none]) :
    ∃ out, run s none = .val (.two (n / w) out) ∧ ∀ i j, i ≤ j → j < n / w →
      (s.stepsint ≤ 0 ∨ (j : Int) - i ≤ s.stepsint + 1) → out (i * (n / w) + j)
        = s.ip (Spec.evolve s.U (i * w) (j * w) (Spec.evolve s.U 0 ((i + 1) * w) s.psi0))
            (probe (j * w) (Spec.evolve s.U (i * w) (j * w) (o1 (i * w) (Spec.evolve s.U 0 (i * w) s.psi0)))) := by
  have hbn : s.bra ≠ [] := by rw [hb]; simp
  obtain ⟨out, h1, h2, _⟩ := run_two s n w hn hn0 hw hw0 probe (by rw [hk]; rfl) (Or.inr (by rw [hb]; rfl))
    (by unfold countU; rw [if_neg hbn, hk, hb]; rfl) 2 1 1 0 true (by rw [hk]; rfl) (by rw [if_neg hbn, hb]; rfl) (by simp)
  refine ⟨out, h1, fun i j hij hj hr => ?_⟩
  have := h2 i j hij hj hr
  have e0 : idx (n / w) true i j = i * (n / w) + j := rfl
  rw [e0] at this
  rw [this]
  unfold value
  rw [if_neg hbn, hk, hb]
  rfl

example : ∃ out, run (sample [none, some fun _ x => 10 * x, none, some fun _ x => x] [none] 1 1 0) none = .val (.two 1 out) ∧
    out 0 = 20 ∧ Spec.twoPointKet (fun _ x => x + 1) (fun x y => x * y) (fun _ x => x) (fun _ x => 10 * x) (1 : Int) 1 0 0 = 10 := by
  obtain ⟨out, h1, h2⟩ := C90_violated_ahead (sample [none, some fun _ x => 10 * x, none, some fun _ x => x] [none] 1 1 0) 1 1
    (fun _ x => 10 * x) (fun _ x => x) rfl (by norm_num) rfl (by norm_num) rfl rfl
  refine ⟨out, h1, ?_, rfl⟩
  exact (h2 0 0 le_rfl (by norm_num) (Or.inl le_rfl)).trans rfl

/-- A ket that ends with a propagator is rejected, as in the first example of the handbook (doc/Handbook.tex:512-533). -/
theorem C90_violated_example (s : Setup V K) (l : List (Elem V)) (hk : s.ket = l ++ [none]) (read : Option (List V)) :
    run s read = .threw := by
  unfold run
  rw [hk]
  dsimp only
  split
  · rfl
  · simp

example : run (sample [none, some fun _ x => x, none] [] 600 4 300) none = .threw :=
  C90_violated_example _ [none, some fun _ x => x] rfl none

/-- A section `ket` without elements, or none at all, is not rejected: its last element is read. -/
theorem C90_violated_empty (s : Setup V K) (hk : s.ket = []) (hb : s.bra = []) (read : Option (List V)) :
    run s read = .ub := by
  unfold run
  rw [hk, hb]
  rfl

/-! ### C38: a baseline read from files -/

/-- With a baseline of more than one wave function from files and no bra, the first element of the missing bra is read. -/
theorem C38_violated_bra (s : Setup V K) (sig : List (Nat → V → V)) (buf : List V) (hbuf : 1 < buf.length)
    (hk : s.ket = none :: elems sig) (hsig : sig ≠ []) (hb : s.bra = []) : run s (some buf) = .ub := by
  obtain ⟨o, ho⟩ := last_elems [] sig hsig
  rw [List.nil_append, ← hk] at ho
  have hcheck : checkBaseline s buf = .ub := by
    unfold checkBaseline
    rw [if_pos hbuf, hk, hb]
  unfold run
  dsimp only
  rw [Option.getD_some, ho, hcheck, hb]
  rfl

example : run (sample [none, some fun _ x => x] [] 2 1 0) (some [1, 2]) = .ub :=
  C38_violated_bra _ [fun _ x => x] [1, 2] (by simp) rfl (by simp) rfl

end QDng.Cfun
