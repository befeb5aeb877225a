import Verif.Simd.Lemmas
import Verif.GridFn.FluxProps

/-
Properties C172-C177: vector operations with and without SIMD instructions and threads.
-/

namespace QDng.Simd

open QDng.Common QDng.Deriv QDng.GridFn

/-! ### C172 -/

/-- **C172.**  Each vector operation apart from the imaginary part computes, in all builds, for all lengths
and orders in which the threads work, and also if vectors coincide, what its documentation says. -/
theorem C172_codelets_partial (k : Codelet) (hk : ¬ k.TakesImag) (b : Build) (a : Call) (n : Nat)
    (order : List Nat) (h : order.Perm (List.range n)) (m : Mem) :
    k.run b a order m = k.doc.after a n m := by
  rw [run_after k b a n order h m, body_doc k hk b]

example : ¬ Codelet.cplxCCDd.TakesImag ∧ [2, 0, 1].Perm (List.range 3) := by
  exact ⟨fun h => h.elim nofun nofun, by decide⟩

/-- **C172.**  Without SSE the imaginary part is computed as documented too. -/
theorem C172_imag_scalar (k : Codelet) (a : Call) (n : Nat) (order : List Nat)
    (h : order.Perm (List.range n)) (m : Mem) :
    k.run .scalar a order m = k.doc.after a n m := by
  by_cases hk : k.TakesImag
  · rw [run_after k .scalar a n order h m]
    rcases hk with rfl | rfl <;> rfl
  · exact C172_codelets_partial k hk .scalar a n order h m

/-- **C172.**  With SSE the imaginary part stays where it was: the result is different from the documented
one for every vector with an element that is not real. -/
theorem C172_violated_imag (b : Build) (hb : b = .sse2 ∨ b = .sse3) (a : Call) (n : Nat) (order : List Nat)
    (h : order.Perm (List.range n)) (m : Mem) (j : Nat) (hj : j < n) (hz : (m.c (a.vec .A) j).im ≠ 0) :
    (Codelet.imC.run b a order m).c (a.vec .A) j = ((m.c (a.vec .A) j).im : ℂ) * Complex.I ∧
    Codelet.imC.run b a order m ≠ Codelet.imC.doc.after a n m := by
  have key : (Codelet.imC.run b a order m).c (a.vec .A) j = ((m.c (a.vec .A) j).im : ℂ) * Complex.I := by
    rw [run_after _ b a n order h m]
    rcases hb with rfl | rfl <;>
    · show (if _ then _ else _ : ℂ) = _
      rw [if_pos ⟨rfl, hj⟩]
      apply Complex.ext <;> simp [CX.eval, CX.evalV, store, load, Reg.imag]
  refine ⟨key, fun he => hz ?_⟩
  rw [he] at key
  have h2 : ((m.c (a.vec .A) j).im : ℂ) = ((m.c (a.vec .A) j).im : ℂ) * Complex.I := by
    rw [← key]
    show _ = (if _ then _ else _ : ℂ)
    rw [if_pos ⟨rfl, hj⟩]
  have h3 := congrArg Complex.re h2
  simpa using h3

example : ∃ (m : Mem) (a : Call), (m.c (a.vec .A) 0).im ≠ 0 :=
  ⟨⟨fun _ _ => Complex.I, fun _ _ => 0⟩, ⟨fun _ => 0, 0, 0⟩, by simp⟩

/-! ### C173 -/

/-- **C173.**  The complex numbers of the SSE builds follow the rules of complex numbers. -/
theorem C173_arithmetic_partial (three : Bool) (a b : ℂ) (x : ℝ) :
    store ((load a).mul three (load b)) = a * b ∧ store ((load a).add (load b)) = a + b ∧
    store ((load a).sub (load b)) = a - b ∧ store ((load a).scale x) = a * x ∧
    store ((load a).multImag x) = a * (x * Complex.I) ∧ store (load a).conj = (starRingEnd ℂ) a ∧
    (load a).reals = a.re ∧ store (load a).real = (a.re : ℂ) ∧
    store (load a).imag = (a.im : ℂ) * Complex.I := by
  refine ⟨?_, ?_, ?_, ?_, ?_, ?_, rfl, rfl, ?_⟩
  · rw [store_mul, store_load, store_load]
  · rw [store_add, store_load, store_load]
  · rw [store_sub, store_load, store_load]
  · rw [store_scale, store_load]
  · rw [store_multImag, store_load]
  · rw [store_conj, store_load]
  · apply Complex.ext <;> simp [store, load, Reg.imag]

/-- **C173.**  The function for the imaginary part as a number returns the real part. -/
theorem C173_violated_imags (a : ℂ) : (load a).imags = a.re := rfl

example : (load ⟨1, 2⟩).imags ≠ (⟨1, 2⟩ : ℂ).im := by
  show (1 : ℝ) ≠ 2
  norm_num

/-! ### C174 -/

/-- **C174.**  Without SSE the flux operator is the one described in C159. -/
theorem C174_scalar_partial {s : Space} (T G : s.Wf → s.Wf) (bra ket : s.Wf) (o : Flux s)
    (h : (Flux.new s [T, G]).init = .ok o) :
    o.matrixElement bra ket = .val (fluxElement .scalar T G bra ket) := by
  unfold Flux.init at h
  simp only [Flux.new, Bool.false_eq_true, if_false, List.length_cons, List.length_nil, ne_eq,
    not_true_eq_false, Nat.reduceAdd, Out.ok.injEq] at h
  subst h
  simp only [Flux.matrixElement, Bool.true_eq_false, if_false, List.getElem?_cons_zero,
    List.getElem?_cons_succ, Ans.val.injEq]
  unfold fluxElement
  congr 2
  funext p
  simp only [CX.eval, CX.evalS, cMulD_eq, cMul_eq, cConj_eq]
  rfl

example {s : Space} (T G : s.Wf → s.Wf) : ∃ o, (Flux.new s [T, G]).init = .ok o := ⟨_, rfl⟩

/-- **C174.**  With SSE the flux through every boundary (a real mask `g`) is reported as zero, for every
kinetic energy and wave function: the real part, which is the expectation value, vanishes. -/
theorem C174_violated_sse {s : Space} (b : Build) (hb : b = .sse2 ∨ b = .sse3) (T : s.Wf → s.Wf)
    (g : s.Pt → ℝ) (ψ : s.Wf) :
    (fluxElement b T (times g) ψ ψ).re = 0 := by
  have hs : fluxElement b T (times g) ψ ψ =
      wfMul s (fun _ => -2) (fun p => ((cMulD (cMul (cConj (T ψ p)) (ψ p)) 1).im : ℂ) * Complex.I *
        (g p : ℂ)) := by
    unfold fluxElement
    refine congrArg (wfMul s fun _ => -2) (funext fun p => ?_)
    have : (CX.im (.vec .A)).eval b ⟨fun _ => cMulD (cMul (cConj (T ψ p)) (ψ p)) 1, fun _ => 0, 0, 0⟩ =
        ((cMulD (cMul (cConj (T ψ p)) (ψ p)) 1).im : ℂ) * Complex.I := by
      rcases hb with rfl | rfl <;>
        apply Complex.ext <;> simp [CX.eval, CX.evalV, store, load, Reg.imag]
    show (g p : ℂ) * (CX.im (.vec .A)).eval b _ = _
    rw [this, mul_comm]
  rw [hs]
  unfold wfMul
  have hf : ∀ (l : List (Fin s.d)) (c : ℂ), c.re = 0 →
      (l.foldl (fun c i => c * (((s.axes i).dx : ℝ) : ℂ)) c).re = 0 := by
    intro l
    induction l with
    | nil => exact fun c hc => hc
    | cons i l ih => exact fun c hc => ih _ (by simp [hc])
  apply hf
  rw [Complex.re_sum]
  refine Finset.sum_eq_zero (fun p _ => ?_)
  simp

/-- **C174.**  There are cases in which the build without SSE reports a flux of 2 and the builds with SSE
report zero. -/
theorem C174_violated_case : ∃ ψ : pair.Wf, fluxElement .scalar hop (times leftPoint) ψ ψ = 2 ∧
    (fluxElement .sse2 hop (times leftPoint) ψ ψ).re = 0 ∧
    (fluxElement .sse3 hop (times leftPoint) ψ ψ).re = 0 := by
  obtain ⟨ψ, o, h1, h2⟩ := C159_sign_violated.2.2
  rw [C174_scalar_partial hop (times leftPoint) ψ ψ o h1] at h2
  exact ⟨ψ, by injection h2, C174_violated_sse .sse2 (Or.inl rfl) hop leftPoint ψ,
    C174_violated_sse .sse3 (Or.inr rfl) hop leftPoint ψ⟩

/-! ### C175 -/

/-- **C175.**  In one process the scalar product is the sum over all elements times the volume element, for
all builds, numbers of strides and distributions of the elements over threads. -/
theorem C175_product_partial (b : Build) (f g : Nat → Nat → ℂ) (t : Threads) (strides size : Nat)
    (ht : ∀ o, t = .omp o → ∀ s, (o s).flatten.Perm (List.range size))
    (kspace : Bool) (dims : List (ℝ × ℝ)) :
    gridProduct b f g t 0 1 strides size kspace dims =
      ((dims.map fun x => if kspace then 2 * Real.pi / x.2 else x.1).prod : ℝ) *
      ∑ s ∈ Finset.range strides, ∑ i ∈ Finset.range size, (starRingEnd ℂ) (f s i) * g s i := by
  rw [gridProduct_eq b f g t 0 1 strides size ht kspace dims, ownStrides_one, range_sum]

example : ∃ t : Threads, t ≠ .none ∧ ∀ o, t = .omp o → ∀ s, (o s).flatten.Perm (List.range 3) := by
  refine ⟨.omp fun _ => [[2], [], [0, 1]], nofun, fun o ho s => ?_⟩
  cases ho
  show List.Perm [2, 0, 1] (List.range 3)
  decide

/-- **C175.**  With several processes each one returns the share of its own strides only. -/
theorem C175_violated_processes (b : Build) (f g : Nat → Nat → ℂ) (size : Nat) (dims : List (ℝ × ℝ)) :
    gridProduct b f g .none 1 2 1 size false dims = 0 ∧
    gridProduct b f g .none 0 2 1 size false dims =
      ((dims.map fun x => x.1).prod : ℝ) * ∑ i ∈ Finset.range size, (starRingEnd ℂ) (f 0 i) * g 0 i := by
  have h1 : ownStrides 1 2 1 = [] := by decide
  have h0 : ownStrides 0 2 1 = [0] := by decide
  rw [gridProduct_eq _ _ _ _ _ _ _ _ (fun o h => Threads.noConfusion h), gridProduct_eq _ _ _ _ _ _ _ _
    (fun o h => Threads.noConfusion h), h1, h0]
  simp

example : ∃ f : Nat → Nat → ℂ,
    gridProduct .sse2 f f .none 1 2 1 1 false [] ≠ gridProduct .sse2 f f .none 0 2 1 1 false [] := by
  refine ⟨fun _ _ => 1, ?_⟩
  rw [(C175_violated_processes _ _ _ _ _).1, (C175_violated_processes _ _ _ _ _).2]
  simp

/-! ### C176 -/

/-- **C176.**  One order of the Chebychev recursion has the documented result, in all builds and for all
orders in which the threads work. -/
theorem C176_recursion (b : Build) (q : ChebPar) (im : Bool) (n : Nat) (order : List Nat)
    (h : order.Perm (List.range n)) (m : ChebMem) : chebLoop b q im order m = chebDoc q im n m := by
  have hn : order.Nodup := h.nodup_iff.2 List.nodup_range
  have hm : ∀ j, j ∈ order ↔ j < n := fun j => by rw [h.mem_iff, List.mem_range]
  rw [chebLoop_eq, chebFold q im order hn m, (h.map _).sum_eq]
  simp only [hm]
  rfl

example : [1, 2, 0].Perm (List.range 3) := by decide

/-- **C176.**  In particular all builds and all schedules agree. -/
theorem C176_agree (b b' : Build) (q : ChebPar) (im : Bool) (n : Nat) (o o' : List Nat)
    (h : o.Perm (List.range n)) (h' : o'.Perm (List.range n)) (m : ChebMem) :
    chebLoop b q im o m = chebLoop b' q im o' m := by
  rw [C176_recursion b q im n o h m, C176_recursion b' q im n o' h' m]

/-! ### C177 -/

/-- The steps of one thread that handles the strides in the given order. -/
def alone (order : List Nat) : List NormStep := order.flatMap fun s => [.read s, .write s]

/-- **C177.**  The norm of one stride is the sum of the squares. -/
theorem C177_stride (n : Nat) (wf : Nat → ℂ) : lnorm n wf = ∑ j ∈ Finset.range n, ‖wf j‖ ^ 2 := by
  unfold lnorm
  simp only [cMul_eq, cConj_eq, conj_mul_re]
  induction n with
  | zero => rfl
  | succ n ih => rw [List.range_succ, List.foldl_append, ih, Finset.sum_range_succ]; rfl

/-- **C177.**  If the strides are handled one after the other the norm is the sum over all strides. -/
theorem C177_norm_partial (l : Nat → ℝ) (n : Nat) (order : List Nat) (h : order.Perm (List.range n)) :
    rawNorm l (alone order) = ∑ s ∈ Finset.range n, l s := by
  have key : ∀ (o : List Nat) (x : NormState),
      ((alone o).foldl (NormState.step l) x).norm = x.norm + (o.map l).sum := by
    intro o
    induction o with
    | nil => intro x; simp [alone]
    | cons s o ih =>
      intro x
      have : alone (s :: o) = .read s :: .write s :: alone o := rfl
      rw [this, List.foldl_cons, List.foldl_cons, ih, List.map_cons, List.sum_cons, ← add_assoc]
      congr 1
      simp [NormState.step]
  unfold rawNorm
  rw [key, zero_add, (h.map l).sum_eq]
  rfl

/-- The strides for which an interleaving contains the write. -/
def writes : List NormStep → List Nat
  | [] => []
  | .read _ :: l => writes l
  | .write s :: l => s :: writes l

/-- **C177.**  In no interleaving the norm is larger than the sum over the strides. -/
theorem C177_bound_partial (l : Nat → ℝ) (hl : ∀ s, 0 ≤ l s) (n : Nat) (steps : List NormStep)
    (h : (writes steps).Perm (List.range n)) : rawNorm l steps ≤ ∑ s ∈ Finset.range n, l s := by
  have key : ∀ (st : List NormStep) (x : NormState) (c : ℝ), 0 ≤ c → x.norm ≤ c → (∀ s, x.reg s ≤ c) →
      (st.foldl (NormState.step l) x).norm ≤ c + ((writes st).map l).sum := by
    intro st
    induction st with
    | nil => intro x c _ hx _; simpa [writes] using hx
    | cons a st ih =>
      intro x c hc hx hr
      cases a with
      | read s =>
        rw [List.foldl_cons]
        refine ih _ c hc hx (fun s' => ?_)
        show Function.update x.reg s x.norm s' ≤ c
        by_cases e : s' = s
        · rw [e, Function.update_self]; exact hx
        · rw [Function.update_of_ne e]; exact hr s'
      | write s =>
        rw [List.foldl_cons]
        refine (ih _ (c + l s) (add_nonneg hc (hl s)) ?_ (fun s' => ?_)).trans ?_
        · exact add_le_add (hr s) le_rfl
        · exact (hr s').trans (le_add_of_nonneg_right (hl s))
        · show c + l s + _ ≤ c + (l s :: (writes st).map l).sum
          rw [List.sum_cons, add_assoc]
  have := key steps ⟨0, fun _ => 0⟩ 0 le_rfl le_rfl (fun _ => le_rfl)
  rw [zero_add, (h.map l).sum_eq] at this
  exact this

/-- **C177.**  If two threads read before either writes, the share of one stride is lost. -/
theorem C177_violated_race (l : Nat → ℝ) (h : 0 < l 0) :
    rawNorm l [.read 0, .read 1, .write 0, .write 1] = l 1 ∧
    rawNorm l [.read 0, .read 1, .write 0, .write 1] < ∑ s ∈ Finset.range 2, l s := by
  have e : rawNorm l [.read 0, .read 1, .write 0, .write 1] = l 1 := by
    simp [rawNorm, NormState.step]
  refine ⟨e, ?_⟩
  rw [e, Finset.sum_range_succ, Finset.sum_range_one]
  exact lt_add_of_pos_left _ h

example : (writes [.read 0, .read 1, .write 0, .write 1]).Perm (List.range 2) ∧
    0 < lnorm 1 (fun _ => Complex.I) := by
  refine ⟨by decide, ?_⟩
  rw [C177_stride]
  simp

end QDng.Simd
