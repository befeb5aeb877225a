import Verif.Simd.Spec
import Mathlib.Tactic.Ring
import Mathlib.Tactic.NormNum
import Mathlib.Algebra.BigOperators.Group.List.Basic

/-
Lemmas about the vector operations: arithmetic of registers, loops in any order, sums of threads.
-/

namespace QDng.Simd

open QDng.Common QDng.Deriv QDng.GridFn

/-! ### Arithmetic -/

theorem cMul_eq (a b : ℂ) : cMul a b = a * b := by
  apply Complex.ext <;> simp [cMul]

theorem cMulD_eq (a : ℂ) (b : ℝ) : cMulD a b = a * b := by
  apply Complex.ext <;> simp [cMulD]

theorem cAdd_eq (a b : ℂ) : cAdd a b = a + b := rfl

theorem cSub_eq (a b : ℂ) : cSub a b = a - b := rfl

theorem cMulI_eq (a : ℂ) : cMulI a = a * Complex.I := by
  apply Complex.ext <;> simp [cMulI]

theorem dMulI_eq (a : ℝ) : dMulI a = a * Complex.I := by
  apply Complex.ext <;> simp [dMulI]

theorem cConj_eq (a : ℂ) : cConj a = (starRingEnd ℂ) a := rfl

theorem cExp_eq (a : ℂ) : cExp a = Complex.exp a := by
  apply Complex.ext
  · simp [cExp, cMulD, Complex.exp_re, mul_comm]
  · simp [cExp, cMulD, Complex.exp_im, mul_comm]

theorem cAbs_eq (a : ℂ) : cAbs a = ‖a‖ := by
  rw [Complex.norm_def, Complex.normSq_apply]
  rfl

theorem store_load (a : ℂ) : store (load a) = a := rfl

theorem load_store (a : Reg) : load (store a) = a := rfl

theorem store_mul (t : Bool) (a b : Reg) : store (a.mul t b) = store a * store b := by
  cases t <;> apply Complex.ext <;>
    simp [Reg.mul, store, hadd, addPd, unpackLo, unpackHi, xorSign, mulPd, shuffle1] <;> ring

theorem store_scale (a : Reg) (b : ℝ) : store (a.scale b) = store a * b := by
  apply Complex.ext <;> simp [Reg.scale, store, mulPd, load1]

theorem store_add (a b : Reg) : store (a.add b) = store a + store b := rfl

theorem store_sub (a b : Reg) : store (a.sub b) = store a - store b := rfl

theorem store_conj (a : Reg) : store a.conj = (starRingEnd ℂ) (store a) := rfl

theorem store_multImag (a : Reg) (b : ℝ) : store (a.multImag b) = store a * (b * Complex.I) := by
  apply Complex.ext <;> simp [Reg.multImag, store, mulPd, load1, xorSign, shuffle1]

/-! ### Loops -/

theorem loop_c (a : Call) (t : Var) (g : Env → ℂ) (order : List Nat) : order.Nodup → ∀ m : Mem,
    order.foldl (fun (m : Mem) i => ({ m with
        c := fun v j => if v = a.vec t ∧ j = i then g (a.env m i) else m.c v j } : Mem)) m =
      { c := fun v j => if v = a.vec t ∧ j ∈ order then g (a.env m j) else m.c v j, d := m.d } := by
  induction order with
  | nil => intro _ m; simp
  | cons i l ih =>
    intro hn m
    rw [List.foldl_cons, ih (List.nodup_cons.1 hn).2]
    have hi : i ∉ l := (List.nodup_cons.1 hn).1
    ext v j
    · dsimp only
      by_cases hv : v = a.vec t
      · by_cases hj : j ∈ l
        · have hne : j ≠ i := fun h => hi (h ▸ hj)
          rw [if_pos ⟨hv, hj⟩, if_pos ⟨hv, List.mem_cons_of_mem _ hj⟩]
          congr 1
          simp only [Call.env, hne, and_false, if_false]
        · rw [if_neg (fun h => hj h.2)]
          by_cases he : j = i
          · rw [if_pos ⟨hv, he⟩, if_pos ⟨hv, by rw [he]; exact List.mem_cons_self⟩, he]
          · rw [if_neg (fun h => he h.2), if_neg (fun h => ?_)]
            rcases List.mem_cons.1 h.2 with h | h
            · exact he h
            · exact hj h
      · rw [if_neg (fun h => hv h.1), if_neg (fun h => hv h.1), if_neg (fun h => hv h.1)]
    · rfl

theorem loop_d (a : Call) (t : Var) (g : Env → ℝ) (order : List Nat) : order.Nodup → ∀ m : Mem,
    order.foldl (fun (m : Mem) i => ({ m with
        d := fun v j => if v = a.vec t ∧ j = i then g (a.env m i) else m.d v j } : Mem)) m =
      { c := m.c, d := fun v j => if v = a.vec t ∧ j ∈ order then g (a.env m j) else m.d v j } := by
  induction order with
  | nil => intro _ m; simp
  | cons i l ih =>
    intro hn m
    rw [List.foldl_cons, ih (List.nodup_cons.1 hn).2]
    have hi : i ∉ l := (List.nodup_cons.1 hn).1
    ext v j
    · rfl
    · dsimp only
      by_cases hv : v = a.vec t
      · by_cases hj : j ∈ l
        · have hne : j ≠ i := fun h => hi (h ▸ hj)
          rw [if_pos ⟨hv, hj⟩, if_pos ⟨hv, List.mem_cons_of_mem _ hj⟩]
          congr 1
          simp only [Call.env, hne, and_false, if_false]
        · rw [if_neg (fun h => hj h.2)]
          by_cases he : j = i
          · rw [if_pos ⟨hv, he⟩, if_pos ⟨hv, by rw [he]; exact List.mem_cons_self⟩, he]
          · rw [if_neg (fun h => he h.2), if_neg (fun h => ?_)]
            rcases List.mem_cons.1 h.2 with h | h
            · exact he h
            · exact hj h
      · rw [if_neg (fun h => hv h.1), if_neg (fun h => hv h.1), if_neg (fun h => hv h.1)]

/-- The target and value of a statement. -/
noncomputable def Body.result (b : Build) : Body → Result
  | .cplx t x => .cplx t fun e => x.eval b e
  | .real t x => .real t fun e => x.eval e
  | .abs t x => .real t fun e => cAbs (x.eval b e)

theorem run_after (k : Codelet) (b : Build) (a : Call) (n : Nat) (order : List Nat)
    (h : order.Perm (List.range n)) (m : Mem) :
    k.run b a order m = ((k.body b).result b).after a n m := by
  have hn : order.Nodup := h.nodup_iff.2 List.nodup_range
  have hm : ∀ j, j ∈ order ↔ j < n := fun j => by rw [h.mem_iff, List.mem_range]
  unfold Codelet.run
  cases hb : k.body b with
  | cplx t x =>
    show order.foldl (fun (m : Mem) i => ({ m with
        c := fun v j => if v = a.vec t ∧ j = i then x.eval b (a.env m i) else m.c v j } : Mem)) m = _
    rw [loop_c a t (fun e => x.eval b e) order hn m]
    simp only [hm]
    rfl
  | real t x =>
    show order.foldl (fun (m : Mem) i => ({ m with
        d := fun v j => if v = a.vec t ∧ j = i then x.eval (a.env m i) else m.d v j } : Mem)) m = _
    rw [loop_d a t (fun e => x.eval e) order hn m]
    simp only [hm]
    rfl
  | abs t x =>
    show order.foldl (fun (m : Mem) i => ({ m with
        d := fun v j => if v = a.vec t ∧ j = i then cAbs (x.eval b (a.env m i)) else m.d v j } : Mem)) m = _
    rw [loop_d a t (fun e => cAbs (x.eval b e)) order hn m]
    simp only [hm]
    rfl

theorem store_real (a : Reg) : store a.real = ((store a).re : ℂ) := rfl

theorem mk_re (a : ℂ) : (⟨a.re, 0⟩ : ℂ) = (a.re : ℂ) := rfl

theorem body_doc (k : Codelet) (hk : ¬ k.TakesImag) (b : Build) : (k.body b).result b = k.doc := by
  cases k <;> first
    | exact absurd (Or.inl rfl) hk
    | exact absurd (Or.inr rfl) hk
    | (cases b <;>
        simp only [Codelet.body, Body.result, Codelet.doc, CX.eval, CX.evalS, CX.evalV, DX.eval, cMul_eq,
          cMulD_eq, cAdd_eq, cMulI_eq, dMulI_eq, cConj_eq, cExp_eq, cAbs_eq, store_load, store_mul,
          store_scale, store_add, store_conj, store_multImag, store_real, mk_re] <;>
        first
          | rfl
          | (congr 1; funext e; ring)
          | (congr 1; funext e; congr 1; ring))

/-! ### Chebychev loop -/

theorem cDivD_eq (a : ℂ) (b : ℝ) : cDivD a b = a / b := by
  apply Complex.ext
  · rw [Complex.div_ofReal_re]; rfl
  · rw [Complex.div_ofReal_im]; rfl

theorem conj_mul_re (p : ℂ) : ((starRingEnd ℂ) p * p).re = ‖p‖ ^ 2 := by
  rw [← Complex.normSq_eq_norm_sq, Complex.normSq_apply]
  simp

/-- The values of one element. -/
noncomputable def chebB (q : ChebPar) (m : ChebMem) (j : Nat) : ℂ :=
  (m.bf j - q.offset * m.k1 j) / q.scaling * q.exp2

noncomputable def chebK (q : ChebPar) (im : Bool) (m : ChebMem) (j : Nat) : ℂ :=
  if im then chebB q m j - m.k0 j else chebB q m j + m.k0 j

noncomputable def chebP (q : ChebPar) (im : Bool) (m : ChebMem) (j : Nat) : ℂ :=
  m.psi j + chebK q im m j * q.coeff

/-- One iteration in terms of these values. -/
noncomputable def chebStep (q : ChebPar) (im : Bool) (m : ChebMem) (j : Nat) : ChebMem :=
  ⟨Function.update m.bf j (chebB q m j), Function.update m.k0 j (chebK q im m j), m.k1,
    Function.update m.k2 j (chebK q im m j), Function.update m.psi j (chebP q im m j),
    m.acc + ‖chebP q im m j‖ ^ 2⟩

theorem chebScalar_eq (q : ChebPar) (im : Bool) (m : ChebMem) (j : Nat) :
    chebScalar q im m j = chebStep q im m j := by
  unfold chebScalar chebStep
  simp only [cMul_eq, cDivD_eq, cSub_eq, cAdd_eq, cConj_eq, conj_mul_re]
  rfl

theorem chebSse_eq (three : Bool) (q : ChebPar) (im : Bool) (m : ChebMem) (j : Nat) :
    chebSse three q im m j = chebStep q im m j := by
  have hb : store ((((load (m.bf j)).sub ((load (m.k1 j)).mul three (load q.offset))).scale
      (1 / q.scaling)).mul three (load q.exp2)) = chebB q m j := by
    rw [store_mul, store_scale, store_sub, store_mul]
    simp only [store_load, chebB]
    push_cast
    ring
  unfold chebSse chebStep
  cases im
  · simp only [Bool.false_eq_true, if_false, store_mul, store_conj, store_add, hb, store_load,
      Function.update_eq_self, conj_mul_re, chebP, chebK, add_comm (m.k0 j)]
  · simp only [if_true, store_mul, store_conj, store_add, store_sub, hb, store_load,
      Function.update_eq_self, conj_mul_re, chebP, chebK]

theorem chebLoop_eq (b : Build) (q : ChebPar) (im : Bool) (order : List Nat) (m : ChebMem) :
    chebLoop b q im order m = order.foldl (chebStep q im) m := by
  unfold chebLoop
  congr 1
  funext m j
  cases b
  · exact chebScalar_eq q im m j
  · exact chebSse_eq false q im m j
  · exact chebSse_eq true q im m j

theorem chebFold (q : ChebPar) (im : Bool) (order : List Nat) : order.Nodup → ∀ m : ChebMem,
    order.foldl (chebStep q im) m =
      ⟨fun j => if j ∈ order then chebB q m j else m.bf j,
       fun j => if j ∈ order then chebK q im m j else m.k0 j, m.k1,
       fun j => if j ∈ order then chebK q im m j else m.k2 j,
       fun j => if j ∈ order then chebP q im m j else m.psi j,
       m.acc + (order.map fun j => ‖chebP q im m j‖ ^ 2).sum⟩ := by
  induction order with
  | nil => intro _ m; simp
  | cons i l ih =>
    intro hn m
    have hi : i ∉ l := (List.nodup_cons.1 hn).1
    have hB : ∀ j, j ≠ i → chebB q (chebStep q im m i) j = chebB q m j := by
      intro j hj
      simp only [chebB, chebStep, Function.update_of_ne hj]
    have hK : ∀ j, j ≠ i → chebK q im (chebStep q im m i) j = chebK q im m j := by
      intro j hj
      simp only [chebK, hB j hj]
      simp only [chebStep, Function.update_of_ne hj]
    have hP : ∀ j, j ≠ i → chebP q im (chebStep q im m i) j = chebP q im m j := by
      intro j hj
      simp only [chebP, hK j hj]
      simp only [chebStep, Function.update_of_ne hj]
    have key : ∀ (x y z : Nat → ℂ), (∀ j, j ≠ i → x j = y j) → ∀ j,
        (if j ∈ l then x j else Function.update z i (y i) j) = if j ∈ i :: l then y j else z j := by
      intro x y z h j
      by_cases hj : j ∈ l
      · rw [if_pos hj, if_pos (List.mem_cons_of_mem _ hj), h j (fun e => hi (e ▸ hj))]
      · rw [if_neg hj]
        by_cases he : j = i
        · subst he
          rw [if_pos List.mem_cons_self, Function.update_self]
        · rw [Function.update_of_ne he, if_neg (fun h => ?_)]
          rcases List.mem_cons.1 h with h | h
          · exact he h
          · exact hj h
    rw [List.foldl_cons, ih (List.nodup_cons.1 hn).2]
    have hs : (l.map fun j => ‖chebP q im (chebStep q im m i) j‖ ^ 2) =
        l.map fun j => ‖chebP q im m j‖ ^ 2 :=
      List.map_congr_left (fun j hj => by rw [hP j (fun e => hi (e ▸ hj))])
    ext j
    · exact key _ _ _ hB j
    · exact key _ _ _ hK j
    · rfl
    · exact key _ _ _ hK j
    · exact key _ _ _ hP j
    · show (m.acc + ‖chebP q im m i‖ ^ 2) + _ = _
      rw [hs, List.map_cons, List.sum_cons, add_assoc]

/-! ### Scalar product -/

theorem scalarFold (f g : Nat → ℂ) (own : List Nat) : ∀ c : ℂ,
    own.foldl (fun c i => cAdd c (cMul (cConj (f i)) (g i))) c =
      c + (own.map fun i => (starRingEnd ℂ) (f i) * g i).sum := by
  induction own with
  | nil => intro c; simp
  | cons i l ih =>
    intro c
    rw [List.foldl_cons, ih, List.map_cons, List.sum_cons, cMul_eq, cAdd_eq, cConj_eq, add_assoc]

theorem sseFold (t : Bool) (f g : Nat → ℂ) (own : List Nat) : ∀ v : Reg,
    store (own.foldl (fun v i => v.add ((load (f i)).conj.mul t (load (g i)))) v) =
      store v + (own.map fun i => (starRingEnd ℂ) (f i) * g i).sum := by
  induction own with
  | nil => intro v; simp
  | cons i l ih =>
    intro v
    rw [List.foldl_cons, ih, List.map_cons, List.sum_cons, store_add, store_mul, store_conj, store_load,
      store_load, add_assoc]

theorem threadSum_eq (b : Build) (f g : Nat → ℂ) (own : List Nat) (c : ℂ) :
    threadSum b f g own c = c + (own.map fun i => (starRingEnd ℂ) (f i) * g i).sum := by
  cases b with
  | scalar => exact scalarFold f g own c
  | sse2 => exact sseFold false f g own (load c)
  | sse3 => exact sseFold true f g own (load c)

theorem threads_eq (b : Build) (f g : Nat → ℂ) (l : List (List Nat)) : ∀ c : ℂ,
    l.foldl (fun cg own => cAdd cg (threadSum b f g own 0)) c =
      c + (l.flatten.map fun i => (starRingEnd ℂ) (f i) * g i).sum := by
  induction l with
  | nil => intro c; simp
  | cons o l ih =>
    intro c
    rw [List.foldl_cons, ih, threadSum_eq, cAdd_eq, List.flatten_cons, List.map_append, List.sum_append,
      zero_add, add_assoc]

theorem range_sum (h : Nat → ℂ) (n : Nat) : ((List.range n).map h).sum = ∑ i ∈ Finset.range n, h i := rfl

theorem strideSums_eq (b : Build) (f g : Nat → Nat → ℂ) (o : Nat → List (List Nat)) (size : Nat)
    (ho : ∀ s, (o s).flatten.Perm (List.range size)) (l : List Nat) :
    strideSums b f g o l =
      (l.map fun s => ∑ i ∈ Finset.range size, (starRingEnd ℂ) (f s i) * g s i).sum := by
  have h : ∀ c : ℂ, l.foldl (fun cglob s =>
      (o s).foldl (fun cg own => cAdd cg (threadSum b (f s) (g s) own 0)) cglob) c =
      c + (l.map fun s => ∑ i ∈ Finset.range size, (starRingEnd ℂ) (f s i) * g s i).sum := by
    induction l with
    | nil => intro c; simp
    | cons s l ih =>
      intro c
      rw [List.foldl_cons, ih, threads_eq, ((ho s).map _).sum_eq, range_sum, List.map_cons, List.sum_cons,
        add_assoc]
  rw [strideSums, h, zero_add]

theorem serialSums_eq (b : Build) (f g : Nat → Nat → ℂ) (size : Nat) (l : List Nat) :
    serialSums b f g size l =
      (l.map fun s => ∑ i ∈ Finset.range size, (starRingEnd ℂ) (f s i) * g s i).sum := by
  have h : ∀ c : ℂ, (l.foldl (fun (x : ℂ × ℂ) s =>
      let c := threadSum b (f s) (g s) (List.range size) x.1
      (c, c)) (c, c)).2 =
      c + (l.map fun s => ∑ i ∈ Finset.range size, (starRingEnd ℂ) (f s i) * g s i).sum := by
    induction l with
    | nil => intro c; simp
    | cons s l ih =>
      intro c
      rw [List.foldl_cons]
      dsimp only
      rw [ih, threadSum_eq, range_sum, List.map_cons, List.sum_cons, add_assoc]
  rw [serialSums, h, zero_add]

theorem scaleFold (l : List (ℝ × ℝ)) (w : ℝ × ℝ → ℝ) : ∀ c : ℂ,
    l.foldl (fun c x => cMulD c (w x)) c = ((l.map w).prod : ℝ) * c := by
  induction l with
  | nil => intro c; simp
  | cons x l ih =>
    intro c
    rw [List.foldl_cons, ih, cMulD_eq, List.map_cons, List.prod_cons]
    push_cast
    ring

theorem gridProduct_eq (b : Build) (f g : Nat → Nat → ℂ) (t : Threads) (rank msize strides size : Nat)
    (ht : ∀ o, t = .omp o → ∀ s, (o s).flatten.Perm (List.range size))
    (kspace : Bool) (dims : List (ℝ × ℝ)) :
    gridProduct b f g t rank msize strides size kspace dims =
      ((dims.map fun x => if kspace then 2 * Real.pi / x.2 else x.1).prod : ℝ) *
      ((ownStrides rank msize strides).map fun s =>
        ∑ i ∈ Finset.range size, (starRingEnd ℂ) (f s i) * g s i).sum := by
  unfold gridProduct
  cases t with
  | none =>
    cases kspace
    · simp only [Bool.false_eq_true, if_false, serialSums_eq]
      exact scaleFold dims (fun x => x.1) _
    · simp only [if_true, serialSums_eq]
      exact scaleFold dims (fun x => 2 * Real.pi / x.2) _
  | omp o =>
    have := strideSums_eq b f g o size (ht o rfl)
    cases kspace
    · simp only [Bool.false_eq_true, if_false, this]
      exact scaleFold dims (fun x => x.1) _
    · simp only [if_true, this]
      exact scaleFold dims (fun x => 2 * Real.pi / x.2) _

theorem ownStrides_one (strides : Nat) : ownStrides 0 1 strides = List.range strides := by
  unfold ownStrides
  rw [List.filter_eq_self]
  intro s _
  simp [Nat.mod_one]

end QDng.Simd
