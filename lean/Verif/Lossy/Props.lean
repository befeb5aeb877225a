import Verif.Lossy.Lemmas
import Mathlib.Tactic.NormNum
import Mathlib.Tactic.NormNum.OfScientific

/- The properties of the lossy compression of wave functions. -/

namespace QDng.Lossy

open QDng.Deriv Spec

/-- A grid of two dimensions with four points each. -/
@[reducible] noncomputable def square : Space :=
  { d := 2, axes := fun _ => { n := 4, xmin := 0, xmax := 3 } }

theorem square_ok : square.Ok := by
  intro i
  refine ⟨by show 2 ≤ 4; omega, ?_⟩
  show (0 : ℝ) < 3
  norm_num

/-! ### C290 -/

/-- **C290** (with the assumption that reading finds a plan for the transform: the object has one, or
the library has wisdom for both directions, or the flag is FFTW_ESTIMATE).  A wave function that is
written with compression and read back has lost the real and imaginary parts of the plane waves that
are smaller than the tolerance times the largest amplitude, and nothing else; the square of the error
is at most `2 (tol M)^2`, and at most `2 N tol^2` of the square of the norm for `N` grid points; the
norm does not grow. -/
theorem C290_partial {s : Space} (h : s.Ok) (wlib rlib : Lib s) (tol : ℝ) (w r : Obj s)
    (hw : w.isK = false)
    (hr : (r.fft = true ∧ r.sized = true) ∨ rlib.flag = .estimate ∨
      (rlib.knowsForward = true ∧ rlib.knowsBackward = true)) :
    let out := (r.restore rlib (w.reduce wlib tol).1).val
    ∀ M, Largest s w.val M →
      (∀ q, (amplitude s out q).re = kept (tol * M) (amplitude s w.val q).re ∧
        (amplitude s out q).im = kept (tol * M) (amplitude s w.val q).im) ∧
      normSq s (out - w.val) ≤ 2 * (tol * M) ^ 2 ∧
      normSq s (out - w.val) ≤ 2 * s.size * tol ^ 2 * normSq s w.val ∧
      normSq s out ≤ normSq s w.val := by
  intro out M hM
  have hv : w.val = w.x := by unfold Obj.val; rw [hw]; rfl
  rw [hv] at hM ⊢
  have hout := restored h wlib rlib tol w r hM hr
  have hn : (0 : ℝ) < (s.size : ℝ) := by exact_mod_cast size_pos h
  have herr : normSq s (out - w.x) ≤ 2 * (tol * M) ^ 2 := by
    rw [normSq_forward h, div_le_iff₀ hn]
    have : ∀ q ∈ (Finset.univ : Finset s.Pt), ‖forward s (out - w.x) q‖ ^ 2 ≤ 2 * (tol * M) ^ 2 := by
      intro q _
      rw [forward_sub, hout q]
      exact cutAmp_sub _ _
    have h2 := Finset.sum_le_card_nsmul _ _ _ this
    rw [Finset.card_univ, card_pt, nsmul_eq_mul] at h2
    linarith
  refine ⟨?_, herr, ?_, ?_⟩
  · intro q
    rw [amplitude_eq, amplitude_eq, hout q]
    exact ⟨rfl, rfl⟩
  · obtain ⟨⟨q, hq⟩, _⟩ := hM
    have h3 : M ^ 2 ≤ s.size * normSq s w.x := by
      rw [normSq_forward h, mul_div_cancel₀ _ hn.ne', ← hq, amplitude_eq]
      exact Finset.single_le_sum (f := fun q => ‖forward s w.x q‖ ^ 2)
        (fun q _ => by positivity) (Finset.mem_univ q)
    have h4 := mul_le_mul_of_nonneg_left h3 (show 0 ≤ 2 * tol ^ 2 by positivity)
    nlinarith
  · rw [normSq_forward h, normSq_forward h]
    refine div_le_div_of_nonneg_right (Finset.sum_le_sum (fun q _ => ?_)) hn.le
    rw [hout q]
    exact cutAmp_le _ _

/-- **C290** (same assumption).  With the tolerance zero the wave function is read back unchanged. -/
theorem C290_exact_partial {s : Space} (h : s.Ok) (wlib rlib : Lib s) (w r : Obj s)
    (hw : w.isK = false)
    (hr : (r.fft = true ∧ r.sized = true) ∨ rlib.flag = .estimate ∨
      (rlib.knowsForward = true ∧ rlib.knowsBackward = true)) :
    (r.restore rlib (w.reduce wlib 0).1).val = w.val := by
  obtain ⟨M, hM⟩ := exists_largest h w.val
  have h1 := (C290_partial h wlib rlib 0 w r hw hr M hM).2.1
  rw [zero_mul] at h1
  have h2 : normSq s ((r.restore rlib (w.reduce wlib 0).1).val - w.val) = 0 :=
    le_antisymm (by simpa using h1) (Finset.sum_nonneg (fun x _ => by positivity))
  funext x
  have h3 := (Finset.sum_eq_zero_iff_of_nonneg (fun x _ => by positivity)).1 h2 x (Finset.mem_univ x)
  have h4 : ‖((r.restore rlib (w.reduce wlib 0).1).val - w.val) x‖ = 0 := by
    exact pow_eq_zero_iff (two_ne_zero) |>.1 h3
  rw [norm_eq_zero, Pi.sub_apply, sub_eq_zero] at h4
  exact h4

/-- The writer and a reader with a library that was told to estimate: a wave function that is not
constant on a grid of two dimensions. -/
noncomputable def writer : Obj square :=
  { x := fun p => if (p ⟨0, by decide⟩ : Nat) = 1 then 1 else Complex.I, k := 0, isK := false, fft := false
    sized := false }

noncomputable def estimating : Lib square :=
  { flag := chooseFlag false false, knowsForward := false, knowsBackward := false
    junkForward := 0, junkBackward := 0 }

example : ∃ M, Largest square writer.val M ∧
    normSq square ((writer.restore estimating (writer.reduce estimating 1e-6).1).val - writer.val) ≤
      2 * (1e-6 * M) ^ 2 := by
  obtain ⟨M, hM⟩ := exists_largest square_ok writer.val
  exact ⟨M, hM, (C290_partial square_ok estimating estimating 1e-6 writer writer rfl
    (Or.inr (Or.inl rfl)) M hM).2.1⟩

/-- **C290 is violated**: with the default options the first wave function that is read from a
compressed file is destroyed.  The stored data are copied into the array before the plan is searched
for, and the search overwrites it: what is read does not depend on the file at all. -/
theorem C290_violated {s : Space} (lib : Lib s) (wisdomFile : Bool)
    (hf : lib.flag = chooseFlag true wisdomFile)
    (hk : lib.knowsForward = false ∨ lib.knowsBackward = false) (r : Obj s)
    (hr : r.fft = false ∨ r.sized = false) :
    (∀ data data' : s.Wf, (r.restore lib data).val = (r.restore lib data').val) ∧
    (s.Ok → ∃ w : Obj s, w.isK = false ∧ ∀ wlib tol, (r.restore lib (w.reduce wlib tol).1).val ≠ w.val) := by
  have hfl : lib.flag ≠ .estimate := by
    rw [hf]
    cases wisdomFile <;> decide
  have hind : ∀ data data' : s.Wf, (r.restore lib data).val = (r.restore lib data').val := by
    intro data data'
    unfold Obj.restore
    simp only [Obj.setK, Obj.val, Bool.false_eq_true, if_false]
    rw [checkFFT_lost lib { r with k := data, isK := true } data' hr hfl hk]
  refine ⟨hind, fun h => ?_⟩
  refine ⟨{ x := fun p => (r.restore lib 0).val p + 1, k := 0, isK := false, fft := false
            sized := false }, rfl, ?_⟩
  intro wlib tol he
  rw [hind _ 0] at he
  have h0 := congrFun he (fun i => ⟨0, by have := (h i).1; omega⟩)
  simp [Obj.val] at h0

/-- A new object and a library without wisdom meet the hypotheses. -/
example : ∃ w : Obj square, w.isK = false ∧ ∀ wlib tol,
    (writer.restore { estimating with flag := chooseFlag true false } (w.reduce wlib tol).1).val ≠
      w.val :=
  (C290_violated { estimating with flag := chooseFlag true false } false rfl (Or.inl rfl) writer
    (Or.inl rfl)).2 square_ok

/-- **C290.**  The flag with which nothing is destroyed is chosen only without a file with wisdom and
with the optimisation switched off. -/
theorem C290_flag (optimize wisdomFile : Bool) :
    chooseFlag optimize wisdomFile = .estimate ↔ optimize = false ∧ wisdomFile = false := by
  cases optimize <;> cases wisdomFile <;> decide

/-! ### C291 -/

/-- **C291** (for a wave function in the coordinate representation).  Preparing the data for a
compressed file does not change the wave function, whatever the library does. -/
theorem C291_partial {s : Space} (lib : Lib s) (tol : ℝ) (w : Obj s) (hw : w.isK = false) :
    (w.reduce lib tol).2.val = w.val ∧ (w.reduce lib tol).2.isK = w.isK := by
  unfold Obj.reduce Obj.setK Obj.val
  simp only [Bool.false_eq_true, if_false, hw, checkFFT_x]
  exact ⟨trivial, trivial⟩

example : (writer.reduce { estimating with flag := .patient } 1e-6).2.val = writer.val :=
  (C291_partial _ _ writer rfl).1

/-- **C291 is violated**: a wave function in the momentum representation is lost, its data are
overwritten by the transform of the unused array, and the representation changes. -/
theorem C291_violated {s : Space} (lib : Lib s) (tol : ℝ) (w : Obj s) (hw : w.isK = true) :
    (w.reduce lib tol).2.isK ≠ w.isK ∧
    ∀ data, ((w.reduce lib tol).1, (w.reduce lib tol).2.val, (w.reduce lib tol).2.k) =
      (({ w with k := data }.reduce lib tol).1, ({ w with k := data }.reduce lib tol).2.val,
        ({ w with k := data }.reduce lib tol).2.k) := by
  refine ⟨?_, ?_⟩
  · rw [hw]
    unfold Obj.reduce Obj.setK
    simp
  · intro data
    unfold Obj.reduce Obj.setK Obj.val
    simp only [checkFFT_x, if_true, Bool.false_eq_true, if_false]

example : ({ writer with isK := true }.reduce estimating 1e-6).2.isK ≠ true :=
  (C291_violated estimating 1e-6 { writer with isK := true } rfl).1

/-! ### C292 -/

/-- **C292** (for a level wave function with no negative real or imaginary part).  What is read back
has lost only parts that are smaller than tolerance times norm over size; the square of the error is
at most `2 tol^2 / n` of the square of the norm. -/
theorem C292_partial (tol : ℝ) (psi old : List ℂ) (hpos : ∀ a ∈ psi, 0 ≤ a.re ∧ 0 ≤ a.im) :
    let out := levelRestore (levelReduce tol psi) old
    out.length = psi.length ∧
    (∀ i (h : i < psi.length) (h' : i < out.length),
      (out[i]).re = kept (tol * Real.sqrt (listNormSq psi) / psi.length) (psi[i]).re ∧
      (out[i]).im = kept (tol * Real.sqrt (listNormSq psi) / psi.length) (psi[i]).im) ∧
    listNormSq (List.zipWith (· - ·) out psi) ≤ 2 * tol ^ 2 / psi.length * listNormSq psi := by
  intro out
  have hthr : levelNorm psi / (psi.length : ℝ) * tol =
      tol * Real.sqrt (listNormSq psi) / psi.length := by
    rw [levelNorm_eq]
    ring
  have hout : out = psi.map fun a =>
      (⟨levelCut (tol * Real.sqrt (listNormSq psi) / psi.length) a.re,
        levelCut (tol * Real.sqrt (listNormSq psi) / psi.length) a.im⟩ : ℂ) := by
    rw [← hthr]
    rfl
  generalize hT : tol * Real.sqrt (listNormSq psi) / psi.length = T at hout ⊢
  have hlen : out.length = psi.length := by rw [hout, List.length_map]
  refine ⟨hlen, ?_, ?_⟩
  · intro i h h'
    have he : out[i] = ⟨levelCut T (psi[i]).re, levelCut T (psi[i]).im⟩ := by
      simp only [hout, List.getElem_map]
    obtain ⟨h1, h2⟩ := hpos _ (List.getElem_mem h)
    rw [he]
    unfold levelCut kept
    rw [abs_of_nonneg h1, abs_of_nonneg h2]
    exact ⟨rfl, rfl⟩
  · have hz : List.zipWith (· - ·) out psi =
        psi.map (fun a => (⟨levelCut T a.re, levelCut T a.im⟩ : ℂ) - a) := by
      rw [hout, List.zipWith_map_left, List.zipWith_self]
    rw [hz]
    have hb := sum_le_const psi (fun a => (⟨levelCut T a.re, levelCut T a.im⟩ : ℂ) - a) (2 * T ^ 2) ?_
    · refine le_trans hb ?_
      rw [← hT]
      by_cases hn : psi.length = 0
      · rw [List.length_eq_zero_iff.1 hn]
        simp [listNormSq]
      · have hn' : (0 : ℝ) < (psi.length : ℝ) := by exact_mod_cast Nat.pos_of_ne_zero hn
        have hsq := Real.sq_sqrt (listNormSq_nonneg psi)
        rw [div_pow, mul_pow, hsq]
        apply le_of_eq
        field_simp
    · intro a ha
      obtain ⟨h1, h2⟩ := hpos a ha
      have h3 := levelCut_sub (thr := T) h1
      have h4 := levelCut_sub (thr := T) h2
      rw [normSq_complex, Complex.sub_re, Complex.sub_im]
      show (levelCut T a.re - a.re) ^ 2 + (levelCut T a.im - a.im) ^ 2 ≤ _
      linarith

example : listNormSq (List.zipWith (· - ·) (levelRestore (levelReduce 1e-6 [1, 2 + 3 * Complex.I]) [])
    [1, 2 + 3 * Complex.I]) ≤
    2 * (1e-6) ^ 2 / ([1, 2 + 3 * Complex.I] : List ℂ).length * listNormSq [1, 2 + 3 * Complex.I] :=
  (C292_partial 1e-6 [1, 2 + 3 * Complex.I] [] (by
    intro a ha
    rcases List.mem_cons.1 ha with rfl | ha
    · simp
    · rcases List.mem_cons.1 ha with rfl | ha
      · simp
      · exact absurd ha (List.not_mem_nil))).2.2

/-- **C292 is violated**: the threshold is compared with the parts and not with their moduli.  For
each tolerance, also for zero, no negative part survives; a level wave function without positive
parts is read back as zero. -/
theorem C292_violated (tol : ℝ) (ht : 0 ≤ tol) (psi old : List ℂ) :
    (∀ a ∈ levelRestore (levelReduce tol psi) old, 0 ≤ a.re ∧ 0 ≤ a.im) ∧
    ((∀ a ∈ psi, a.re ≤ 0 ∧ a.im ≤ 0) →
      ∀ a ∈ levelRestore (levelReduce tol psi) old, a = 0) := by
  have h0 : 0 ≤ levelNorm psi / (psi.length : ℝ) * tol := by
    unfold levelNorm
    positivity
  have hc : ∀ v, 0 ≤ levelCut (levelNorm psi / (psi.length : ℝ) * tol) v := by
    intro v
    unfold levelCut
    split
    · exact le_refl _
    · next h => linarith
  refine ⟨?_, ?_⟩
  · intro a ha
    obtain ⟨b, _, rfl⟩ := List.mem_map.1 ha
    exact ⟨hc _, hc _⟩
  · intro hneg a ha
    obtain ⟨b, hb, rfl⟩ := List.mem_map.1 ha
    obtain ⟨h1, h2⟩ := hneg b hb
    have hz : ∀ v ≤ (0 : ℝ), levelCut (levelNorm psi / (psi.length : ℝ) * tol) v = 0 := by
      intro v hv
      unfold levelCut
      split
      · rfl
      · next h => linarith
    exact Complex.ext (hz _ h1) (hz _ h2)

example : ∀ a ∈ levelRestore (levelReduce 1e-6 [-1, -2 - Complex.I]) [], a = 0 :=
  (C292_violated 1e-6 (by norm_num) [-1, -2 - Complex.I] []).2 (by
    intro a ha
    rcases List.mem_cons.1 ha with rfl | ha
    · simp
    · rcases List.mem_cons.1 ha with rfl | ha
      · simp
      · exact absurd ha (List.not_mem_nil))

end QDng.Lossy
