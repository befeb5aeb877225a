import Verif.Report.Model
import Mathlib.Tactic.Linarith
import Mathlib.Tactic.FieldSimp
import Mathlib.Tactic.Ring
import Mathlib.Tactic.NormNum
import Mathlib.Analysis.SpecialFunctions.Complex.Log
import Mathlib.RingTheory.RootsOfUnity.Complex

/-
C45, C85, C86, C87: the spectrum file and the autocorrelation reported during a propagation.
-/

namespace QDng.Report

open QDng.Common
open Complex

variable {V : Type} [NormedAddCommGroup V] [InnerProductSpace ℂ V]

/-! ### Specification -/

namespace Spec

/-- The frequency axis as promised: line `i` of `N` lines at sample distance `dt`. -/
noncomputable def axis (dt : ℝ) (N i : Nat) : ℝ :=
  let d := 2 * Real.pi / (N * dt)
  if 2 * i < N then i * d else ((i : ℝ) - N) * d

/-- The Fourier sum of samples `x j` taken at the times `j dt`, at the frequency `w`. -/
noncomputable def fourier (dt : ℝ) (x : List ℂ) (w : ℝ) : ℂ :=
  ∑ j : Fin x.length, x[j] * exp (-(I * w * ((j : ℕ) * dt)))

end Spec

/-! ### The axis -/

theorem freq_eq (dt : ℝ) (N i : Nat) (hdt : dt ≠ 0) (hN : N ≠ 0) :
    freq dt N i = some (if i < N / 2 then i * (2 * Real.pi / (N * dt)) else ((i : ℝ) - N) * (2 * Real.pi / (N * dt))) := by
  have h : dt * N ≠ 0 := mul_ne_zero hdt (by exact_mod_cast hN)
  unfold freq dw
  rw [if_neg h, Option.map_some, mul_comm dt]
  congr 1
  split_ifs <;> ring

/-- **C45** (even numbers of samples): the file has one line for each sample, and line `i` carries the promised
frequency. -/
theorem C45_axis_partial (dt : ℝ) (x : List ℂ) (hdt : dt ≠ 0) (he : x.length % 2 = 0) :
    ∃ l, writeSpectrum true dt x = .lines l ∧ l.length = x.length ∧
      ∀ i (hi : i < l.length), (l[i]).freq = some (Spec.axis dt x.length i) := by
  refine ⟨_, rfl, by simp, ?_⟩
  intro i hi
  simp only [List.length_map, List.length_range] at hi
  simp only [List.getElem_map, List.getElem_range, line, Spec.axis]
  rw [freq_eq dt _ i hdt (by omega)]
  congr 1
  by_cases h : i < x.length / 2
  · rw [if_pos h, if_pos (by omega)]
  · rw [if_neg h, if_neg (by omega)]

example : ∃ l, writeSpectrum true (1 / 2) [1, I, -1, -I] = .lines l ∧ l.length = 4 ∧
    ∀ i (hi : i < l.length), (l[i]).freq = some (Spec.axis (1 / 2) 4 i) :=
  C45_axis_partial _ [1, I, -1, -I] (by norm_num) (by decide)

/-- For every odd number of samples from three on the line in the middle does not carry the promised
frequency `(N-1)/2 dw`; it carries `-(N+1)/2 dw`, which lies outside the range the samples resolve. -/
theorem C45_violated_odd (dt : ℝ) (x : List ℂ) (hdt : dt ≠ 0) (ho : x.length % 2 = 1) :
    ∃ l, writeSpectrum true dt x = .lines l ∧ ∃ hi : x.length / 2 < l.length,
      (l[x.length / 2]).freq = some (-(((x.length : ℝ) + 1) / 2) * (2 * Real.pi / (x.length * dt))) ∧
      Spec.axis dt x.length (x.length / 2) = (((x.length : ℝ) - 1) / 2) * (2 * Real.pi / (x.length * dt)) ∧
      (l[x.length / 2]).freq ≠ some (Spec.axis dt x.length (x.length / 2)) := by
  have hc : ((x.length / 2 : Nat) : ℝ) = ((x.length : ℝ) - 1) / 2 := by
    have h2 : x.length = 2 * (x.length / 2) + 1 := by omega
    have h3 : ((x.length : Nat) : ℝ) = 2 * ((x.length / 2 : Nat) : ℝ) + 1 := by
      conv_lhs => rw [h2]
      push_cast
      rfl
    linarith
  have hx : (x.length : ℝ) ≠ 0 := by
    have : x.length ≠ 0 := by omega
    exact_mod_cast this
  have h1 : Spec.axis dt x.length (x.length / 2) = (((x.length : ℝ) - 1) / 2) * (2 * Real.pi / (x.length * dt)) := by
    simp only [Spec.axis]
    rw [if_pos (by omega), hc]
  refine ⟨_, rfl, by simp; omega, ?_, h1, ?_⟩
  · simp only [List.getElem_map, List.getElem_range, line]
    rw [freq_eq dt _ _ hdt (by omega), if_neg (by omega), hc]
    congr 1
    ring
  · simp only [List.getElem_map, List.getElem_range, line]
    rw [freq_eq dt _ _ hdt (by omega), if_neg (by omega), hc, h1]
    intro h
    injection h with h
    have hd : (2 * Real.pi / (x.length * dt)) ≠ 0 :=
      div_ne_zero (mul_ne_zero two_ne_zero Real.pi_ne_zero) (mul_ne_zero hx hdt)
    have := mul_right_cancel₀ hd h
    linarith

example : ∃ l, writeSpectrum true 1 [1, 2, 3] = .lines l ∧ ∃ hi : 1 < l.length,
    (l[1]).freq ≠ some (Spec.axis 1 3 1) := by
  obtain ⟨l, h1, h2, _, _, h5⟩ := C45_violated_odd 1 [1, 2, 3] one_ne_zero rfl
  exact ⟨l, h1, h2, h5⟩

/-- **C45**, order (any number of samples): the frequencies grow strictly from line to line within the first `N/2` lines
and within the remaining ones. -/
theorem C45_increasing (dt : ℝ) (x : List ℂ) (hdt : 0 < dt) (i j : Nat) (hij : i < j) (hj : j < x.length)
    (hhalf : j < x.length / 2 ∨ x.length / 2 ≤ i) :
    ∃ l, writeSpectrum true dt x = .lines l ∧ ∃ (hi : i < l.length) (hj : j < l.length) (a b : ℝ),
      (l[i]).freq = some a ∧ (l[j]).freq = some b ∧ a < b := by
  have hx : (0 : ℝ) < x.length := by exact_mod_cast (by omega : 0 < x.length)
  have hd : 0 < (2 * Real.pi / (x.length * dt)) :=
    div_pos (mul_pos two_pos Real.pi_pos) (mul_pos hx hdt)
  have hij' : (i : ℝ) < j := by exact_mod_cast hij
  refine ⟨_, rfl, by simp; omega, by simp; omega, ?_⟩
  simp only [List.getElem_map, List.getElem_range, line]
  rw [freq_eq dt _ _ (ne_of_gt hdt) (by omega), freq_eq dt _ _ (ne_of_gt hdt) (by omega)]
  refine ⟨_, _, rfl, rfl, ?_⟩
  rcases hhalf with h | h
  · rw [if_pos h, if_pos (by omega)]
    exact mul_lt_mul_of_pos_right hij' hd
  · rw [if_neg (by omega), if_neg (by omega)]
    exact mul_lt_mul_of_pos_right (by linarith) hd

example : ∃ l, writeSpectrum true 2 [1, 2, 3, 4, 5] = .lines l ∧ ∃ (h3 : 3 < l.length) (h4 : 4 < l.length) (a b : ℝ),
    (l[3]).freq = some a ∧ (l[4]).freq = some b ∧ a < b :=
  C45_increasing 2 [1, 2, 3, 4, 5] two_pos 3 4 (by norm_num) (by simp) (Or.inr (by simp))

/-- **C45**, uniqueness (any number of samples, also for backward propagation): no frequency occurs twice. -/
theorem C45_once (dt : ℝ) (x : List ℂ) (hdt : dt ≠ 0) (i j : Nat) (hi : i < x.length) (hj : j < x.length)
    (l : List Line) (hl : writeSpectrum true dt x = .lines l) (h1 : i < l.length) (h2 : j < l.length)
    (he : (l[i]).freq = (l[j]).freq) : i = j := by
  simp only [writeSpectrum, if_true] at hl
  injection hl with hl
  subst hl
  simp only [List.getElem_map, List.getElem_range, line] at he
  rw [freq_eq dt _ _ hdt (by omega), freq_eq dt _ _ hdt (by omega)] at he
  injection he with he
  have hx : (x.length : ℝ) ≠ 0 := by
    have : x.length ≠ 0 := by omega
    exact_mod_cast this
  have hd : (2 * Real.pi / (x.length * dt)) ≠ 0 :=
    div_ne_zero (mul_ne_zero two_ne_zero Real.pi_ne_zero) (mul_ne_zero hx hdt)
  have hil : (i : ℝ) < x.length := by exact_mod_cast hi
  have hjl : (j : ℝ) < x.length := by exact_mod_cast hj
  have hi0 : (0 : ℝ) ≤ i := Nat.cast_nonneg i
  have hj0 : (0 : ℝ) ≤ j := Nat.cast_nonneg j
  split_ifs at he with a b b
  · exact_mod_cast mul_right_cancel₀ hd he
  · have := mul_right_cancel₀ hd he
    linarith
  · have := mul_right_cancel₀ hd he
    linarith
  · have := mul_right_cancel₀ hd he
    have h3 : (i : ℝ) = j := by linarith
    exact_mod_cast h3

example : ∃ l, writeSpectrum true (-1) [1, 2, 3] = .lines l ∧ ∃ (h0 : 0 < l.length) (h2 : 2 < l.length),
    (l[0]).freq ≠ (l[2]).freq := by
  refine ⟨_, rfl, by simp, by simp, ?_⟩
  intro h
  have := C45_once (-1) [1, 2, 3] (by norm_num) 0 2 (by simp) (by simp) _ rfl (by simp) (by simp) h
  omega

/-! ### The values -/

theorem exp_alias (N j : Nat) (i : Nat) (dt : ℝ) (hdt : dt ≠ 0) (hN : N ≠ 0) (w : ℝ) (hw : freq dt N i = some w) :
    exp (-(2 * Real.pi * I * j * i / N)) = exp (-(I * w * (j * dt))) := by
  have hN' : (N : ℂ) ≠ 0 := by exact_mod_cast hN
  have hdt' : (dt : ℂ) ≠ 0 := by exact_mod_cast hdt
  rw [freq_eq dt N i hdt hN] at hw
  injection hw with hw
  subst hw
  split_ifs with h
  · congr 1
    push_cast
    field_simp
  · rw [Complex.exp_eq_exp_iff_exists_int]
    refine ⟨-(j : ℤ), ?_⟩
    push_cast
    field_simp
    ring

/-- **C45**, values: the numbers of a line are the Fourier sum of the samples, taken at the frequency written in that
line, divided by `N/2` (rounded down).  This holds for even and for odd `N`: the frequency of the middle line for odd
`N` is an alias of the promised one. -/
theorem C45_values (dt : ℝ) (x : List ℂ) (hdt : dt ≠ 0) (hN : 2 ≤ x.length) :
    ∃ l, writeSpectrum true dt x = .lines l ∧ l.length = x.length ∧
      ∀ i (hi : i < l.length), ∃ w : ℝ, (l[i]).freq = some w ∧
        (l[i]).abs = some (‖Spec.fourier dt x w‖ / ((x.length / 2 : Nat) : ℝ)) ∧
        (l[i]).re = some ((Spec.fourier dt x w).re / ((x.length / 2 : Nat) : ℝ)) ∧
        (l[i]).im = some ((Spec.fourier dt x w).im / ((x.length / 2 : Nat) : ℝ)) := by
  refine ⟨_, rfl, by simp, ?_⟩
  intro i hi
  simp only [List.getElem_map, List.getElem_range, line, half]
  obtain ⟨w, hw⟩ : ∃ w, freq dt x.length i = some w := ⟨_, freq_eq dt _ i hdt (by omega)⟩
  have hd : dft x i = Spec.fourier dt x w := by
    unfold dft Spec.fourier
    refine Finset.sum_congr rfl fun j _ => ?_
    rw [exp_alias x.length j i dt hdt (by omega) w hw]
  have h2 : ¬ x.length / 2 = 0 := by omega
  refine ⟨w, hw, ?_, ?_, ?_⟩ <;> rw [if_neg h2, hd]

example : ∃ l, writeSpectrum true 1 [1, I, 2] = .lines l ∧ l.length = 3 := by
  obtain ⟨l, h1, h2, _⟩ := C45_values 1 [1, I, 2] one_ne_zero (by simp)
  exact ⟨l, h1, h2⟩

/-- With a single sample the spectrum file contains no numbers: the values are divided by zero. -/
theorem C45_violated_single (dt : ℝ) (z : ℂ) :
    ∃ f, writeSpectrum true dt [z] = .lines [⟨f, none, none, none⟩] := by
  refine ⟨freq dt 1 0, ?_⟩
  simp [writeSpectrum, line, half]

/-! ### Bookkeeping of the samples -/

theorem analyze_ok (bad : V → Bool) (steps : Nat) (r : Reporter V) (psi psi0 : V) (hp : r.psi0 = some psi0)
    (h0 : r.proj0 = true) (hs : r.spectrum = true) (hb : bad psi = false)
    (hbuf : r.step ≠ 0 → r.buf.length = steps) (hlt : r.step < steps) :
    r.analyze bad (steps : Int) psi = .ok { r with
      step := r.step + 1
      table := r.table ++ [r.projection psi psi0]
      buf := (if r.step = 0 then List.replicate steps none else r.buf).set r.step (some (r.projection psi psi0)) } := by
  unfold Reporter.analyze
  rw [if_neg (by omega)]
  simp only [hb, h0, hp, Reporter.store, hs, if_true, Bool.false_eq_true, if_false, Nat.add_sub_cancel, Int.toNat_natCast]
  rw [if_pos]
  · rfl
  · split_ifs with h
    · simp; omega
    · rw [hbuf h]; exact hlt

/-- The samples reported for wave functions `l`, as the flags ask for. -/
noncomputable def samples (r : Reporter V) (psi0 : V) (l : List V) : List ℂ := l.map fun psi => r.projection psi psi0

theorem analyzeAll_ok (bad : V → Bool) (steps : Nat) (psi0 : V) :
    ∀ (l : List V) (r : Reporter V) (pre : List ℂ), r.psi0 = some psi0 → r.proj0 = true → r.spectrum = true →
      (∀ psi ∈ l, bad psi = false) → r.step = pre.length →
      (r.step ≠ 0 → r.buf = pre.map some ++ List.replicate (steps - pre.length) none) →
      pre.length + l.length ≤ steps → l ≠ [] →
      ∃ r', Reporter.analyzeAll bad (steps : Int) l r = .ok r' ∧
        r'.buf = (pre ++ samples r psi0 l).map some ++ List.replicate (steps - (pre.length + l.length)) none ∧
        r'.table = r.table ++ samples r psi0 l ∧ r'.step = pre.length + l.length ∧
        r'.spectrum = true ∧ r'.window = r.window ∧ r'.proj0 = true ∧ r'.psi0 = some psi0 := by
  intro l
  induction l with
  | nil => intro _ _ _ _ _ _ _ _ _ h; exact absurd rfl h
  | cons psi l ih =>
    intro r pre hp h0 hs hb hst hbuf hlen _
    simp only [List.length_cons] at hlen
    have hbl : r.step ≠ 0 → r.buf.length = steps := by
      intro h
      rw [hbuf h]
      simp only [List.length_append, List.length_map, List.length_replicate]
      omega
    have ha := analyze_ok bad steps r psi psi0 hp h0 hs (hb psi (by simp)) hbl (by omega)
    unfold Reporter.analyzeAll
    rw [ha]
    have hset : (if r.step = 0 then List.replicate steps none else r.buf).set r.step (some (r.projection psi psi0))
        = (pre ++ [r.projection psi psi0]).map some
          ++ List.replicate (steps - (pre.length + 1)) none := by
      have hb' : (if r.step = 0 then List.replicate steps none else r.buf)
          = pre.map some ++ List.replicate (steps - pre.length) none := by
        split_ifs with h
        · have : pre = [] := List.length_eq_zero_iff.mp (by omega)
          subst this
          simp
        · exact hbuf h
      rw [hb', hst]
      obtain ⟨m, hm⟩ : ∃ m, steps - pre.length = m + 1 := ⟨steps - pre.length - 1, by omega⟩
      rw [hm, List.replicate_succ, List.set_append_right _ _ (by simp)]
      simp only [List.length_map, Nat.sub_self, List.set_cons_zero, List.map_append, List.map_cons, List.map_nil,
        List.append_assoc, List.singleton_append]
      congr 3
      omega
    show ∃ r', Reporter.analyzeAll bad (steps : Int) l _ = .ok r' ∧ _
    rw [hset]
    by_cases hl : l = []
    · subst hl
      refine ⟨_, rfl, ?_, ?_, ?_, hs, rfl, h0, hp⟩
      · simp [samples]
      · simp [samples]
      · simp [hst]
    · obtain ⟨r', h1, h2, h3, h4, h5, h6⟩ := ih (pre := pre ++ [r.projection psi psi0])
        (r := { r with
          step := r.step + 1
          table := r.table ++ [r.projection psi psi0]
          buf := (pre ++ [r.projection psi psi0]).map some ++ List.replicate (steps - (pre.length + 1)) none })
        hp h0 hs (fun q hq => hb q (by simp [hq])) (by simp [hst]) (by intro _; simp)
        (by simp only [List.length_append, List.length_cons, List.length_nil]; omega) hl
      refine ⟨r', h1, ?_, ?_, ?_, h5, h6⟩
      · rw [h2]
        simp only [samples, Reporter.projection, List.map_cons, List.append_assoc, List.singleton_append,
          List.length_append, List.length_cons, List.length_nil]
        congr 2
        omega
      · rw [h3]
        simp [samples, Reporter.projection]
      · rw [h4]
        simp only [List.length_append, List.length_cons, List.length_nil]
        omega

theorem mapM_id_some {A : Type} (x : List A) : (x.map some).mapM id = some x := by
  induction x with
  | nil => rfl
  | cons a x ih => simp [List.mapM_cons, ih]

/-- A reporter set up for a spectrum as by src/ProgPropa.cpp:118-131, 238. -/
noncomputable def fresh (psi0 : V) (sq win : Bool) : Reporter V :=
  ((((Reporter.new V).setProj0Sq sq).setSpectrum).setWindow win).psiInitial psi0

/-- **C85** (as many calls as steps): every reported wave function contributes exactly one sample, in order; the spectrum
written at the end is that of all the samples and nothing else.  The sample is `⟨Ψ(t)|Ψ(0)⟩`. -/
theorem C85_samples_partial (bad : V → Bool) (psi0 : V) (l : List V) (dt : ℝ) (hl : l ≠ [])
    (hb : ∀ psi ∈ l, bad psi = false) :
    ∃ r, Reporter.analyzeAll bad (l.length : Int) l (fresh psi0 false false) = .ok r ∧
      r.table = l.map (fun psi => inner ℂ psi psi0) ∧
      r.finalize true dt = writeSpectrum true dt (l.map fun psi => inner ℂ psi psi0) := by
  obtain ⟨r, h1, h2, h3, _, h5, h6, _, _⟩ := analyzeAll_ok bad l.length psi0 l (fresh psi0 false false) [] rfl rfl rfl hb rfl
    (by intro h; exact absurd rfl h) (by simp) hl
  have hsamp : samples (fresh psi0 false false) psi0 l = l.map fun psi => inner ℂ psi psi0 := by
    simp [samples, Reporter.projection, fresh, Reporter.psiInitial, Reporter.setWindow, Reporter.setSpectrum,
      Reporter.setProj0Sq, Reporter.new]
  refine ⟨r, h1, ?_, ?_⟩
  · rw [h3, hsamp]; rfl
  · rw [hsamp] at h2
    have hw : r.window = false := h6
    unfold Reporter.finalize
    rw [h5, if_pos rfl, h2]
    simp only [List.nil_append, List.length_nil, Nat.zero_add, Nat.sub_self, List.replicate_zero, List.append_nil,
      mapM_id_some, hw]
    simp

/-- **C85** (square of the modulus requested). -/
theorem C85_square_partial (bad : V → Bool) (psi0 : V) (l : List V) (dt : ℝ) (hl : l ≠ [])
    (hb : ∀ psi ∈ l, bad psi = false) :
    ∃ r, Reporter.analyzeAll bad (l.length : Int) l (fresh psi0 true false) = .ok r ∧
      r.table = l.map (fun psi => ((‖(inner ℂ psi0 psi : ℂ)‖ ^ 2 : ℝ) : ℂ)) ∧
      r.finalize true dt = writeSpectrum true dt (l.map fun psi => ((‖(inner ℂ psi0 psi : ℂ)‖ ^ 2 : ℝ) : ℂ)) := by
  obtain ⟨r, h1, h2, h3, _, h5, h6, _, _⟩ := analyzeAll_ok bad l.length psi0 l (fresh psi0 true false) [] rfl rfl rfl hb rfl
    (by intro h; exact absurd rfl h) (by simp) hl
  have hsamp : samples (fresh psi0 true false) psi0 l
      = l.map fun psi => ((‖(inner ℂ psi0 psi : ℂ)‖ ^ 2 : ℝ) : ℂ) := by
    simp only [samples, Reporter.projection, fresh, Reporter.psiInitial, Reporter.setWindow, Reporter.setSpectrum,
      Reporter.setProj0Sq, Reporter.new, if_true]
    refine List.map_congr_left fun psi _ => ?_
    rw [norm_inner_symm, sq]
  refine ⟨r, h1, ?_, ?_⟩
  · rw [h3, hsamp]; rfl
  · rw [hsamp] at h2
    have hw : r.window = false := h6
    unfold Reporter.finalize
    rw [h5, if_pos rfl, h2]
    simp only [List.nil_append, List.length_nil, Nat.zero_add, Nat.sub_self, List.replicate_zero, List.append_nil,
      mapM_id_some, hw]
    simp

example : ∃ r, Reporter.analyzeAll (fun _ => false) 2 [(1 : ℂ), I] (fresh 1 false false) = .ok r ∧
    r.table = [1, -I] := by
  obtain ⟨r, h1, h2, _⟩ := C85_samples_partial (fun _ => false) (1 : ℂ) [1, I] 1 (by simp) (by simp)
  refine ⟨r, h1, ?_⟩
  rw [h2]
  simp

/-- The Hann window `(1 - cos(2πn/(N-1)))/2`. -/
noncomputable def Spec.hann (N n : Nat) : ℝ := (1 - Real.cos (2 * Real.pi * n / (N - 1))) / 2

/-- **C85** (default setting, with window; at least two samples): the spectrum is the one of the samples weighted with
the Hann window. -/
theorem C85_window_partial (bad : V → Bool) (psi0 : V) (l : List V) (dt : ℝ) (hl : 2 ≤ l.length)
    (hb : ∀ psi ∈ l, bad psi = false) :
    ∃ r, Reporter.analyzeAll bad (l.length : Int) l (fresh psi0 false true) = .ok r ∧
      r.finalize true dt = writeSpectrum true dt
        (l.mapIdx fun n psi => inner ℂ psi psi0 * ((Spec.hann l.length n : ℝ) : ℂ)) := by
  have hne : l ≠ [] := by
    intro h
    rw [h] at hl
    simp at hl
  obtain ⟨r, h1, h2, h3, _, h5, h6, _, _⟩ := analyzeAll_ok bad l.length psi0 l (fresh psi0 false true) [] rfl rfl rfl hb rfl
    (by intro h; exact absurd rfl h) (by simp) hne
  have hsamp : samples (fresh psi0 false true) psi0 l = l.map fun psi => inner ℂ psi psi0 := by
    simp [samples, Reporter.projection, fresh, Reporter.psiInitial, Reporter.setWindow, Reporter.setSpectrum,
      Reporter.setProj0Sq, Reporter.new]
  refine ⟨r, h1, ?_⟩
  rw [hsamp] at h2
  have hw : r.window = true := h6
  have hwin : windowed (l.map fun psi => (inner ℂ psi psi0 : ℂ))
      = some (l.mapIdx fun n psi => inner ℂ psi psi0 * ((Spec.hann l.length n : ℝ) : ℂ)) := by
    unfold windowed
    rw [← mapM_id_some]
    congr 1
    refine List.ext_getElem (by simp) fun n _ _ => ?_
    simp only [hann, List.length_map, Spec.hann, List.getElem_mapIdx, List.getElem_map]
    rw [if_neg (by omega)]
    congr 3
    norm_num
    ring
  unfold Reporter.finalize
  rw [h5, if_pos rfl, h2]
  simp only [List.nil_append, List.length_nil, Nat.zero_add, Nat.sub_self, List.replicate_zero, List.append_nil,
    mapM_id_some, hw, if_true, hwin]

/-- With the window a run of a single step gives no numbers at all. -/
theorem C85_violated_window_single (bad : V → Bool) (psi0 psi : V) (dt : ℝ) (hb : bad psi = false) :
    ∃ r f, Reporter.analyzeAll bad 1 [psi] (fresh psi0 false true) = .ok r ∧
      r.finalize true dt = .lines [⟨f, none, none, none⟩] := by
  obtain ⟨r, h1, h2, h3, _, h5, h6, _, _⟩ := analyzeAll_ok bad 1 psi0 [psi] (fresh psi0 false true) [] rfl rfl rfl
    (by simpa using hb) rfl (by intro h; exact absurd rfl h) (by simp) (by simp)
  have hw : r.window = true := h6
  refine ⟨r, freq dt 1 0, h1, ?_⟩
  unfold Reporter.finalize
  rw [h5, if_pos rfl, h2]
  simp only [List.nil_append, List.length_nil, List.length_cons, Nat.zero_add, Nat.sub_self, List.replicate_zero,
    List.append_nil, mapM_id_some, hw, if_true]
  simp [windowed, samples, hann]

example : ∃ r, Reporter.analyzeAll (fun _ => false) 2 [(1 : ℂ), I] (fresh 1 false true) = .ok r ∧
    r.finalize true 1 = writeSpectrum true 1
      ([(1 : ℂ), I].mapIdx fun n psi => inner ℂ psi (1 : ℂ) * ((Spec.hann 2 n : ℝ) : ℂ)) :=
  C85_window_partial _ _ [1, I] 1 (by simp) (by simp)

/-- The column headed `<Psi0|PsiT>` does not show `⟨Ψ(0)|Ψ(t)⟩` but its complex conjugate: for `Ψ(t) = i`, `Ψ(0) = 1`
the file says `-i`. -/
theorem C85_violated_conjugate : ∃ (psi0 psi : ℂ) (r : Reporter ℂ),
    Reporter.analyzeAll (fun _ => false) 1 [psi] (fresh psi0 false false) = .ok r ∧
    r.table ≠ [inner ℂ psi0 psi] := by
  obtain ⟨r, h1, h2, _⟩ := C85_samples_partial (fun _ => false) (1 : ℂ) [I] 1 (by simp) (by simp)
  refine ⟨1, I, r, h1, ?_⟩
  rw [h2]
  simp
  intro h
  have := congrArg Complex.im h
  norm_num at this

/-- Fewer calls than steps (a run that was continued or that failed): the rest of the samples was never written, yet
the spectrum is computed from them. -/
theorem C85_violated_short (bad : V → Bool) (psi0 : V) (l : List V) (n : Nat) (dt : ℝ) (opens : Bool) (hl : l ≠ [])
    (hb : ∀ psi ∈ l, bad psi = false) (hn : l.length < n) :
    ∃ r, Reporter.analyzeAll bad (n : Int) l (fresh psi0 false true) = .ok r ∧ r.finalize opens dt = .ub := by
  obtain ⟨r, h1, h2, h3, _, h5, h6, _, _⟩ := analyzeAll_ok bad n psi0 l (fresh psi0 false true) [] rfl rfl rfl hb rfl
    (by intro h; exact absurd rfl h) (by simp; omega) hl
  refine ⟨r, h1, ?_⟩
  unfold Reporter.finalize
  rw [h5, if_pos rfl, h2]
  obtain ⟨m, hm⟩ : ∃ m, n - (([] : List ℂ).length + l.length) = m + 1 := ⟨n - l.length - 1, by simp; omega⟩
  rw [hm]
  have : ((([] ++ samples (fresh psi0 false true) psi0 l).map some) ++ List.replicate (m + 1) none).mapM id
      = (none : Option (List ℂ)) := by
    generalize ([] ++ samples (fresh psi0 false true) psi0 l) = y
    induction y with
    | nil => simp [List.replicate_succ]
    | cons a y ih => simp only [List.map_cons, List.cons_append, List.mapM_cons, id, ih]; rfl
  rw [this]

example : ∃ r, Reporter.analyzeAll (fun _ => false) 3 [(1 : ℂ)] (fresh 1 false true) = .ok r ∧
    r.finalize true 1 = .ub :=
  C85_violated_short _ _ [1] 3 1 true (by simp) (by simp) (by simp)

/-- One call more than steps leaves the buffer. -/
theorem C85_violated_long (bad : V → Bool) (psi0 psi : V) (l : List V) (hl : l ≠ [])
    (hb : ∀ q ∈ l, bad q = false) (hp : bad psi = false) :
    Reporter.analyzeAll bad (l.length : Int) (l ++ [psi]) (fresh psi0 false true) = .ub := by
  obtain ⟨r, h1, h2, h3, h4, h5, h6, k1, k2⟩ := analyzeAll_ok bad l.length psi0 l (fresh psi0 false true) [] rfl rfl rfl hb rfl
    (by intro h; exact absurd rfl h) (by simp) hl
  have happ : ∀ (a b : List V) (q : Reporter V), Reporter.analyzeAll bad (l.length : Int) (a ++ b) q
      = (Reporter.analyzeAll bad (l.length : Int) a q).bind (Reporter.analyzeAll bad (l.length : Int) b) := by
    intro a b
    induction a with
    | nil => intro q; rfl
    | cons x a ih =>
      intro q
      simp only [List.cons_append, Reporter.analyzeAll]
      cases q.analyze bad (l.length : Int) x with
      | ok s => exact ih s
      | threw s => rfl
      | ub => rfl
  rw [happ, h1]
  have hl0 : l.length ≠ 0 := by
    intro h
    exact hl (List.length_eq_zero_iff.mp h)
  simp only [Out.bind, Reporter.analyzeAll, Reporter.analyze]
  rw [if_neg (by omega)]
  have hbl : r.buf.length = l.length := by rw [h2]; simp [samples]
  simp only [hp, Bool.false_eq_true, if_false, k1, k2, if_true, Reporter.store, h5, h4,
    List.length_nil, Nat.zero_add, Nat.add_sub_cancel]
  simp [hl, hbl]

example : Reporter.analyzeAll (fun _ => false) 1 ([(1 : ℂ)] ++ [I]) (fresh 1 false true) = .ub :=
  C85_violated_long _ _ _ [1] (by simp) (by simp) rfl

/-- Without a spectrum the projections are reported for any number of calls, and nothing is written at the end. -/
theorem C85_report_only_partial (bad : V → Bool) (psi0 : V) (steps : Nat) (opens : Bool) (dt : ℝ) :
    ∀ (l : List V), (∀ psi ∈ l, bad psi = false) →
      ∃ r, Reporter.analyzeAll bad (steps : Int) l (((Reporter.new V).setProj0 true).psiInitial psi0) = .ok r ∧
        r.table = l.map (fun psi => inner ℂ psi psi0) ∧ r.finalize opens dt = .nothing := by
  have key : ∀ (l : List V) (r : Reporter V), r.psi0 = some psi0 → r.proj0 = true → r.spectrum = false →
      r.proj0Sq = false → (∀ psi ∈ l, bad psi = false) →
      ∃ r', Reporter.analyzeAll bad (steps : Int) l r = .ok r' ∧
        r'.table = r.table ++ l.map (fun psi => inner ℂ psi psi0) ∧ r'.spectrum = false := by
    intro l
    induction l with
    | nil => intro r _ _ hs _ _; exact ⟨r, rfl, by simp, hs⟩
    | cons psi l ih =>
      intro r hp h0 hs hq hb
      have hbp : bad psi = false := hb psi (by simp)
      have ha : r.analyze bad (steps : Int) psi = .ok { r with
          step := r.step + 1
          table := r.table ++ [inner ℂ psi psi0]
          buf := if r.step = 0 then List.replicate steps none else r.buf } := by
        unfold Reporter.analyze
        rw [if_neg (by omega)]
        simp only [hbp, h0, hp, Reporter.store, hs, if_true, Bool.false_eq_true, if_false, Int.toNat_natCast,
          Reporter.projection, hq]
      obtain ⟨r', h1, h2, h3⟩ := ih { r with
          step := r.step + 1
          table := r.table ++ [inner ℂ psi psi0]
          buf := if r.step = 0 then List.replicate steps none else r.buf } hp h0 hs hq
          (fun q hm => hb q (by simp [hm]))
      refine ⟨r', ?_, by rw [h2]; simp, h3⟩
      unfold Reporter.analyzeAll
      rw [ha]
      exact h1
  intro l hb
  obtain ⟨r, h1, h2, h3⟩ := key l (((Reporter.new V).setProj0 true).psiInitial psi0) rfl rfl rfl rfl hb
  refine ⟨r, h1, ?_, ?_⟩
  · rw [h2]
    rfl
  · unfold Reporter.finalize
    rw [h3]
    simp

example : ∃ r, Reporter.analyzeAll (fun _ => false) 1 [(1 : ℂ), I, 2]
      (((Reporter.new ℂ).setProj0 true).psiInitial 1) = .ok r ∧ r.finalize false 1 = .nothing := by
  obtain ⟨r, h1, _, h2⟩ := C85_report_only_partial (fun _ => false) (1 : ℂ) 1 false 1 [1, I, 2] (by simp)
  exact ⟨r, h1, h2⟩

/-! ### A stationary state -/

theorem sum_roots (N : Nat) (hN : N ≠ 0) (m : Int) :
    (∑ j : Fin N, exp (2 * Real.pi * I * (j : ℕ) * m / N)) = if (N : Int) ∣ m then (N : ℂ) else 0 := by
  have hN' : (N : ℂ) ≠ 0 := by exact_mod_cast hN
  have hz : ∀ j : Fin N, exp (2 * Real.pi * I * (j : ℕ) * m / N) = (exp (2 * Real.pi * I * m / N)) ^ (j : ℕ) := by
    intro j
    rw [← Complex.exp_nat_mul]
    congr 1
    ring
  simp only [hz]
  rw [Fin.sum_univ_eq_sum_range (fun j => (exp (2 * Real.pi * I * m / N)) ^ j) N]
  by_cases h : (N : Int) ∣ m
  · rw [if_pos h]
    obtain ⟨c, rfl⟩ := h
    have : exp (2 * Real.pi * I * ((N * c : Int) : ℂ) / N) = 1 := by
      rw [Complex.exp_eq_one_iff]
      refine ⟨c, ?_⟩
      push_cast
      field_simp
    rw [this]
    simp
  · rw [if_neg h]
    have hne : exp (2 * Real.pi * I * m / N) ≠ 1 := by
      intro he
      rw [Complex.exp_eq_one_iff] at he
      obtain ⟨c, hc⟩ := he
      apply h
      refine ⟨c, ?_⟩
      have h2 : (2 * Real.pi * I : ℂ) ≠ 0 := Complex.two_pi_I_ne_zero
      have h3 : (m : ℂ) = N * c := by
        field_simp at hc
        rw [mul_comm] at hc
        linear_combination hc
      exact_mod_cast h3
    rw [geom_sum_eq hne, ← Complex.exp_nat_mul]
    have : exp ((N : ℂ) * (2 * Real.pi * I * m / N)) = 1 := by
      rw [Complex.exp_eq_one_iff]
      exact ⟨m, by field_simp⟩
    rw [this]
    simp

/-- **C86**: the spectrum of a propagated eigenstate.  If a state whose energy `E` is any frequency of the axis
is propagated over `N` steps (`N` even), the line whose frequency is `E` carries twice the squared norm, and all other
lines carry zero.  In particular positive energies are found at positive and negative ones at negative frequencies. -/
theorem C86_eigenstate (bad : V → Bool) (psi0 : V) (N : Nat) (dt : ℝ) (hdt : dt ≠ 0) (hN : 2 ≤ N)
    (he : N % 2 = 0) (k : Nat) (hk : k < N) (hb : ∀ psi, bad psi = false) :
    let E : ℝ := Spec.axis dt N k
    let l := (List.range N).map fun j : Nat => exp (-(I * E * (j * dt))) • psi0
    ∃ r out, Reporter.analyzeAll bad (N : Int) l (fresh psi0 false false) = .ok r ∧
      r.finalize true dt = .lines out ∧ out.length = N ∧
      (∃ h : k < out.length, (out[k]).freq = some E ∧ (out[k]).abs = some (2 * ‖psi0‖ ^ 2)) ∧
      ∀ i (h : i < out.length), i ≠ k → (out[i]).abs = some 0 := by
  intro E l
  have hll : l.length = N := by simp [l]
  have hN0 : (N : ℂ) ≠ 0 := by exact_mod_cast (by omega : N ≠ 0)
  obtain ⟨kz, hE, hkz⟩ : ∃ kz : Int, E = kz * (2 * Real.pi / (N * dt)) ∧ (kz = k ∨ kz = (k : Int) - N) := by
    simp only [E, Spec.axis]
    by_cases h2 : 2 * k < N
    · exact ⟨k, by rw [if_pos h2]; push_cast; rfl, Or.inl rfl⟩
    · exact ⟨(k : Int) - N, by rw [if_neg h2]; push_cast; rfl, Or.inr rfl⟩
  obtain ⟨r, h1, _, h3⟩ := C85_samples_partial bad psi0 l dt
    (by intro h; rw [h] at hll; simp at hll; omega) (fun q _ => hb q)
  rw [hll] at h1
  obtain ⟨out, ho, hlen, hline⟩ := C45_axis_partial dt (l.map fun psi => inner ℂ psi psi0) hdt
    (by rw [List.length_map, hll]; exact he)
  have ho' := ho
  simp only [writeSpectrum, if_true] at ho'
  injection ho' with ho'
  rw [List.length_map, hll] at hlen
  refine ⟨r, out, h1, h3.trans ho, hlen, ?_⟩
  -- the transform
  have hdft : ∀ i : Nat, i < N → dft (l.map fun psi => inner ℂ psi psi0) i
      = if i = k then (N : ℂ) * ((‖psi0‖ ^ 2 : ℝ) : ℂ) else 0 := by
    intro i hi
    have hdt' : (dt : ℂ) ≠ 0 := by exact_mod_cast hdt
    have hterm : dft (l.map fun psi => inner ℂ psi psi0) i
        = ∑ j : Fin N, ((‖psi0‖ ^ 2 : ℝ) : ℂ) * exp (2 * Real.pi * I * (j : ℕ) * (kz - (i : Int) : Int) / N) := by
      unfold dft
      have hlen2 : (l.map fun psi => (inner ℂ psi psi0 : ℂ)).length = N := by simp [l]
      rw [← Equiv.sum_comp (finCongr hlen2.symm)]
      refine Finset.sum_congr rfl fun j _ => ?_
      simp only [finCongr_apply, Fin.getElem_fin, Fin.val_cast, List.getElem_map, l, List.getElem_range,
        inner_smul_left, List.length_map, List.length_range]
      rw [inner_self_eq_norm_sq_to_K, mul_comm (starRingEnd ℂ _), mul_assoc, ← Complex.exp_conj, ← Complex.exp_add]
      congr 1
      · push_cast; rfl
      · congr 1
        simp only [map_neg, map_mul, Complex.conj_I, Complex.conj_ofReal, Complex.conj_natCast, hE]
        push_cast
        field_simp
        ring
    rw [hterm, ← Finset.mul_sum, sum_roots N (by omega)]
    by_cases hik : i = k
    · subst hik
      rw [if_pos, if_pos rfl, mul_comm]
      rcases hkz with h | h
      · exact ⟨0, by omega⟩
      · exact ⟨-1, by omega⟩
    · rw [if_neg, if_neg hik, mul_zero]
      rintro ⟨c, hc⟩
      rcases hkz with h | h
      · have hc0 : c = 0 := by
          by_contra h
          rcases lt_or_gt_of_ne h with h | h
          · nlinarith
          · nlinarith
        rw [hc0] at hc
        omega
      · have hc0 : c + 1 = 0 := by
          by_contra h
          rcases lt_or_gt_of_ne h with h | h
          · nlinarith
          · nlinarith
        have : c = -1 := by omega
        rw [this] at hc
        omega
  have hl2 : (l.map fun psi => (inner ℂ psi psi0 : ℂ)).length = N := by simp [l]
  have habs : ∀ i (h : i < out.length), (out[i]).abs = half N ‖dft (l.map fun psi => inner ℂ psi psi0) i‖ := by
    intro i h
    simp only [← ho', List.getElem_map, List.getElem_range, line, hl2]
  have hNR : (N : ℝ) ≠ 0 := by exact_mod_cast (by omega : N ≠ 0)
  have hhalf : ((N / 2 : Nat) : ℝ) = (N : ℝ) / 2 := by
    have h2 : N = 2 * (N / 2) := by omega
    have h3 : (N : ℝ) = 2 * ((N / 2 : Nat) : ℝ) := by
      conv_lhs => rw [h2]
      push_cast
      rfl
    linarith
  constructor
  · refine ⟨by omega, ?_, ?_⟩
    · rw [hline k (by omega), List.length_map, hll]
    · rw [habs k (by omega), hdft k (by omega), if_pos rfl]
      unfold half
      rw [if_neg (by omega), hhalf]
      congr 1
      rw [norm_mul, Complex.norm_natCast, Complex.norm_real, Real.norm_eq_abs, abs_of_nonneg (by positivity)]
      field_simp
  · intro i h hik
    rw [habs i h, hdft i (by omega), if_neg hik]
    unfold half
    rw [if_neg (by omega)]
    simp

example : ∃ (r : Reporter ℂ) (out : List Line), Reporter.analyzeAll (fun _ => false) 4
      ((List.range 4).map fun j : Nat => exp (-(I * (Spec.axis 1 4 3 : ℝ) * (j * (1 : ℝ)))) • (1 : ℂ))
      (fresh 1 false false) = .ok r ∧ r.finalize true 1 = .lines out ∧ out.length = 4 ∧
      ∃ h : 3 < out.length, (out[3]).freq = some (-(Real.pi / 2)) := by
  obtain ⟨r, out, h1, h2, h3, ⟨h4, h5, _⟩, _⟩ := C86_eigenstate (fun _ => false) (1 : ℂ) 4 1 one_ne_zero (by norm_num) rfl 3
    (by norm_num) (fun _ => rfl)
  refine ⟨r, out, h1, h2, h3, h4, ?_⟩
  rw [h5]
  simp only [Spec.axis]
  norm_num
  ring

/-! ### A spectrum file that cannot be opened -/

/-- A spectrum file that cannot be opened ends the whole program, whatever was propagated: the message prepared for
this case is never printed. -/
theorem C87_violated_unwritable (psi0 : V) (bad : V → Bool) (l : List V) (dt : ℝ) (hl : l ≠ [])
    (hb : ∀ psi ∈ l, bad psi = false) :
    ∃ r, Reporter.analyzeAll bad (l.length : Int) l (fresh psi0 false false) = .ok r ∧ r.finalize false dt = .terminated := by
  obtain ⟨r, h1, h2, h3, _, h5, h6, _, _⟩ := analyzeAll_ok bad l.length psi0 l (fresh psi0 false false) [] rfl rfl rfl hb rfl
    (by intro h; exact absurd rfl h) (by simp) hl
  refine ⟨r, h1, ?_⟩
  have hw : r.window = false := h6
  unfold Reporter.finalize
  rw [h5, if_pos rfl, h2]
  simp only [List.nil_append, List.length_nil, Nat.zero_add, Nat.sub_self, List.replicate_zero, List.append_nil,
    mapM_id_some, hw]
  simp [writeSpectrum]

/-- Without a spectrum nothing is written and an unwritable name does no harm. -/
theorem C87_unused_partial (r : Reporter V) (opens : Bool) (dt : ℝ) (h : r.spectrum = false) :
    r.finalize opens dt = .nothing := by
  unfold Reporter.finalize
  rw [h]
  simp

example : ∃ r, Reporter.analyzeAll (fun _ => false) 1 [(1 : ℂ)] (fresh 1 false false) = .ok r ∧
    r.finalize false 1 = .terminated :=
  C87_violated_unwritable 1 _ [1] 1 (by simp) (by simp)

end QDng.Report
