import Verif.Scal.Model
import Mathlib.Tactic.Linarith
import Mathlib.Tactic.NormNum
import Mathlib.Tactic.FieldSimp

/- The properties of the operators Scalar and Normalize.  The specification is written with the
elements of the wave functions; `inner` is the scalar product. -/

namespace QDng.Scal

open QDng.Common

/-- The scalar product of two lists of elements with the weight `w`. -/
noncomputable def inner (w : ℝ) : List ℂ → List ℂ → ℂ
  | x :: a, y :: b => (starRingEnd ℂ) x * y * w + inner w a b
  | _, _ => 0

theorem dot_eq (w : ℝ) (a b : List ℂ) : dot w a b = inner w a b := by
  induction a generalizing b with
  | nil => simp [dot, inner]
  | cons x a ih =>
    cases b with
    | nil => simp [dot, inner]
    | cons y b =>
      have h := ih b
      unfold dot at h ⊢
      rw [List.zipWith_cons_cons, List.sum_cons, add_mul, h]
      rfl

theorem inner_mul (w : ℝ) (a b : List ℂ) (c : ℂ) :
    inner w a (b.map fun x => x * c) = c * inner w a b := by
  induction a generalizing b with
  | nil => simp [inner]
  | cons x a ih =>
    cases b with
    | nil => simp [inner]
    | cons y b =>
      rw [List.map_cons]
      show (starRingEnd ℂ) x * (y * c) * w + inner w a (b.map fun x => x * c) =
        c * ((starRingEnd ℂ) x * y * w + inner w a b)
      rw [ih b]
      ring

theorem inner_mul_left (w : ℝ) (a b : List ℂ) (c : ℂ) :
    inner w (a.map fun x => x * c) b = (starRingEnd ℂ) c * inner w a b := by
  induction a generalizing b with
  | nil => simp [inner]
  | cons x a ih =>
    cases b with
    | nil => simp [inner]
    | cons y b =>
      rw [List.map_cons]
      show (starRingEnd ℂ) (x * c) * y * w + inner w (a.map fun x => x * c) b =
        (starRingEnd ℂ) c * ((starRingEnd ℂ) x * y * w + inner w a b)
      rw [ih b, map_mul]
      ring

/-- The square of the norm of a wave function. -/
noncomputable def normSq (w : ℝ) (psi : List ℂ) : ℝ := (psi.map fun a => ‖a‖ ^ 2 * w).sum

theorem inner_self (w : ℝ) (psi : List ℂ) : inner w psi psi = (normSq w psi : ℂ) := by
  induction psi with
  | nil => simp [inner, normSq]
  | cons a l ih =>
    show (starRingEnd ℂ) a * a * w + inner w l l = _
    rw [ih, Complex.conj_mul']
    unfold normSq
    rw [List.map_cons, List.sum_cons]
    push_cast
    rfl

theorem normSq_nonneg {w : ℝ} (hw : 0 ≤ w) (psi : List ℂ) : 0 ≤ normSq w psi := by
  unfold normSq
  refine List.sum_nonneg ?_
  intro x hx
  obtain ⟨a, _, rfl⟩ := List.mem_map.1 hx
  positivity

theorem norm_eq (w : ℝ) (psi : List ℂ) : norm w psi = Real.sqrt (normSq w psi) := by
  unfold norm
  rw [dot_eq, inner_self, Complex.ofReal_re]

theorem normSq_smul (w : ℝ) (psi : List ℂ) (r : ℝ) :
    normSq w (psi.map fun a => a * (r : ℂ)) = r ^ 2 * normSq w psi := by
  have h := inner_self w (psi.map fun a => a * (r : ℂ))
  rw [inner_mul, inner_mul_left, inner_self, Complex.conj_ofReal] at h
  have h2 : ((normSq w (psi.map fun a => a * (r : ℂ)) : ℝ) : ℂ) = ((r ^ 2 * normSq w psi : ℝ) : ℂ) := by
    rw [← h]
    push_cast
    ring
  exact_mod_cast h2

/-! ### C296 -/

/-- **C296** (if `value` is given as a number).  The operator Scalar multiplies the wave function with
`value + i im`, `im` being zero if it is not given, in place and out of place. -/
theorem C296_partial (parse : String → Option ℝ) (t : String) (v : ℝ) (hv : parse t = some v)
    (im : Option String) (b : ℝ) (him : match im with | some u => parse u = some b | none => b = 0) :
    let o := Scal.create.initParams parse (some t) im
    (∀ psi, o.apply psi = psi.map fun a => ((v : ℂ) + b * Complex.I) * a) ∧
    (∀ dest psi : List ℂ, dest.length = psi.length →
      o.applyTo dest psi = .val (psi.map fun a => ((v : ℂ) + b * Complex.I) * a)) := by
  intro o
  have hval : o.value = (v : ℂ) + b * Complex.I := by
    show (⟨_, _⟩ : ℂ) = _
    apply Complex.ext
    · show getDouble parse (some t) _ = _
      simp only [getDouble]
      rw [hv]
      simp
    · cases im with
      | none =>
        simp only at him
        subst him
        simp [Scal.create]
      | some u =>
        simp only at him
        show getDouble parse (some u) _ = _
        simp only [getDouble]
        rw [him]
        simp
  refine ⟨?_, ?_⟩
  · intro psi
    unfold Scal.apply
    rw [hval]
    exact List.map_congr_left (fun a _ => mul_comm _ _)
  · intro dest psi hl
    unfold Scal.applyTo
    rw [if_neg (by omega), hl, List.take_length, hval]
    congr 1
    exact List.map_congr_left (fun a _ => mul_comm _ _)

/-- The example of the handbook: the imaginary unit with the wrong sign. -/
example : (Scal.create.initParams (fun t => if t = "0" then some 0 else some (-1)) (some "0")
    (some "-1")).apply [1, 2] = [1, 2].map fun a => (((0 : ℝ) : ℂ) + ((-1 : ℝ) : ℂ) * Complex.I) * a :=
  (C296_partial _ "0" 0 rfl (some "-1") (-1) rfl).1 [1, 2]

/-- **C296 is violated**: the documented default for `value` is one.  Without the parameter the real
part is zero: all wave functions become zero if `im` is not given either. -/
theorem C296_violated (parse : String → Option ℝ) (psi : List ℂ) :
    (∀ a ∈ (Scal.create.initParams parse none none).apply psi, a = 0) ∧
    (Scal.create.initParams parse none none).apply [1] ≠ [1] := by
  have h0 : (Scal.create.initParams parse none none).value = 0 := by
    apply Complex.ext
    · rfl
    · simp [Scal.initParams, Scal.create]
  refine ⟨?_, ?_⟩
  · intro a ha
    obtain ⟨b, _, rfl⟩ := List.mem_map.1 ha
    rw [h0, mul_zero]
  · unfold Scal.apply
    rw [h0]
    simp

/-- **C296 is violated**: a text that is no number is not refused, the constant stays one; after a
second set of parameters without `im` the old imaginary part is still there. -/
theorem C296_violated_text (parse : String → Option ℝ) (t : String) (ht : parse t = none)
    (u : String) (b : ℝ) (hu : parse u = some b) (hb : b ≠ 0) (psi : List ℂ) :
    (Scal.create.initParams parse (some t) none).apply psi = psi ∧
    ((Scal.create.initParams parse (some u) (some u)).initParams parse (some u) none).value.im ≠ 0 := by
  refine ⟨?_, ?_⟩
  · have h1 : (Scal.create.initParams parse (some t) none).value = 1 := by
      apply Complex.ext
      · show getDouble parse (some t) _ = _
        simp only [getDouble]
        rw [ht]
        simp [Scal.create]
      · simp [Scal.initParams, Scal.create]
    unfold Scal.apply
    rw [h1]
    simp
  · show getDouble parse (some u) _ ≠ 0
    simp only [getDouble]
    rw [hu]
    exact hb

example : (Scal.create.initParams (fun t => if t = "2" then some 2 else none) (some "two") none).apply
    [1, Complex.I] = [1, Complex.I] :=
  (C296_violated_text _ "two" (by decide) "2" 2 rfl (by norm_num) _).1

/-! ### C297 -/

/-- **C297** (for an operator that was initialised with a wave function).  The matrix element is the
constant times the scalar product; wave functions of different size are refused; the operator calls
wave functions of the size of the first one valid, and copies agree. -/
theorem C297_partial (w : ℝ) (fresh : Nat → List ℂ) (hf : ∀ n, (fresh n).length = n) (o o' : Scal)
    (psi : List ℂ) (hn : o.buf = none) (h : o.initWf fresh (some psi) = .ok o') (bra ket : List ℂ)
    (other : Scal) :
    o'.matrixElement w bra ket =
      (if bra.length = ket.length then .val (o.value * inner w bra ket) else .threw) ∧
    o'.valid (some bra) = .val (bra.length == psi.length) ∧
    (o'.copy fresh other).matrixElement w bra ket = o'.matrixElement w bra ket ∧
    (o'.copy fresh other).valid (some bra) = o'.valid (some bra) := by
  have ho' : o' = { o with buf := some (fresh psi.length) } := by
    unfold Scal.initWf at h
    rw [hn] at h
    exact (Out.ok.inj h).symm
  subst ho'
  refine ⟨?_, ?_, rfl, ?_⟩
  · unfold Scal.matrixElement scalarProduct
    simp only [List.length_map, ne_eq, ite_not]
    by_cases hl : bra.length = ket.length
    · rw [if_pos hl, if_pos hl, dot_eq, inner_mul]
    · rw [if_neg hl, if_neg hl]
  · unfold Scal.valid
    simp only [hf]
  · unfold Scal.valid Scal.copy
    simp only [hf]

example : ∃ o', Scal.create.initWf (fun n => List.replicate n 0) (some [1, 2]) = .ok o' ∧
    o'.matrixElement 1 [1, 0] [Complex.I, 1] = .val (1 * inner 1 [1, 0] [Complex.I, 1]) :=
  ⟨_, rfl, (C297_partial 1 (fun n => List.replicate n 0) (fun n => List.length_replicate) Scal.create _
    [1, 2] rfl rfl [1, 0] [Complex.I, 1] Scal.create).1⟩

/-- **C297 is violated**: without a wave function the operator dereferences a null pointer when it is
asked for a matrix element or whether a wave function is valid; so does a copy of it. -/
theorem C297_violated (w : ℝ) (fresh : Nat → List ℂ) (parse : String → Option ℝ) (value im : Option String)
    (bra ket : List ℂ) :
    let o := Scal.create.initParams parse value im
    o.matrixElement w bra ket = .ub ∧ o.valid (some ket) = .ub ∧
    (o.copy fresh Scal.create).matrixElement w bra ket = .ub := ⟨rfl, rfl, rfl⟩

/-! ### C298 -/

/-- **C298** (for a real constant that is not negative).  The energy range of the operator contains its
expectation value in all normalised wave functions. -/
theorem C298_partial (w : ℝ) (o : Scal) (v : ℝ) (hv : 0 ≤ v) (ho : o.value = v) (psi : List ℂ)
    (hn : normSq w psi = 1) :
    inner w psi (o.apply psi) = v ∧ o.emin.re ≤ v ∧ v ≤ o.emax.re ∧ o.emin.im = 0 ∧ o.emax.im = 0 := by
  refine ⟨?_, hv, ?_, rfl, ?_⟩
  · unfold Scal.apply
    rw [inner_mul, inner_self, hn, ho]
    simp
  · unfold Scal.emax
    rw [ho, Complex.ofReal_re]
  · unfold Scal.emax
    rw [ho, Complex.ofReal_im]

example : inner 1 [Complex.I] (({ value := (2 : ℝ), buf := none } : Scal).apply [Complex.I]) = (2 : ℝ) :=
  (C298_partial 1 { value := (2 : ℝ), buf := none } 2 (by norm_num) rfl [Complex.I]
    (by simp [normSq])).1

/-- **C298 is violated**: the lower end of the range is always zero, so that for a negative constant it
is above the upper end and above every expectation value. -/
theorem C298_violated (w : ℝ) (o : Scal) (v : ℝ) (hv : v < 0) (ho : o.value = v) (psi : List ℂ)
    (hn : normSq w psi = 1) :
    (inner w psi (o.apply psi)).re < o.emin.re ∧ o.emax.re < o.emin.re := by
  have h1 : inner w psi (o.apply psi) = v := by
    unfold Scal.apply
    rw [inner_mul, inner_self, hn, ho]
    simp
  refine ⟨?_, ?_⟩
  · rw [h1, Complex.ofReal_re]
    exact hv
  · unfold Scal.emax
    rw [ho, Complex.ofReal_re]
    exact hv

example : (({ value := (-2 : ℝ), buf := none } : Scal)).emax.re < (0 : ℂ).re :=
  (C298_violated 1 { value := (-2 : ℝ), buf := none } (-2) (by norm_num) rfl [1]
    (by simp [normSq])).2

/-! ### C299 -/

/-- **C299** (for wave functions that are not zero).  The operator Normalize gives the positive
multiple of the wave function that has the norm one, in place and out of place; applied to a
normalised wave function it changes nothing. -/
theorem C299_partial (w : ℝ) (hw : 0 < w) (psi dest : List ℂ) (hn : ∃ a ∈ psi, a ≠ 0) :
    ∃ out r, normalize w psi = some out ∧ normalizeTo w dest psi = some out ∧ 0 < r ∧
      out = psi.map (fun a => a * ((r : ℝ) : ℂ)) ∧ normSq w out = 1 ∧ normalize w out = some out := by
  obtain ⟨a, ha, h0⟩ := hn
  have hpos : 0 < normSq w psi := by
    unfold normSq
    have hle : ‖a‖ ^ 2 * w ≤ (psi.map fun a => ‖a‖ ^ 2 * w).sum :=
      List.single_le_sum (by
        intro x hx
        obtain ⟨b, _, rfl⟩ := List.mem_map.1 hx
        positivity) _ (List.mem_map_of_mem ha)
    have : 0 < ‖a‖ ^ 2 * w := by
      have := norm_pos_iff.2 h0
      positivity
    linarith
  have hs : 0 < Real.sqrt (normSq w psi) := Real.sqrt_pos.2 hpos
  have hne : norm w psi ≠ 0 := by rw [norm_eq]; exact hs.ne'
  have h1 : normalize w psi = some (psi.map fun a => a * ((1 / norm w psi : ℝ) : ℂ)) := by
    unfold normalize
    rw [if_neg hne]
  have hnorm : normSq w (psi.map fun a => a * ((1 / norm w psi : ℝ) : ℂ)) = 1 := by
    rw [normSq_smul, norm_eq, div_pow, one_pow, Real.sq_sqrt hpos.le]
    field_simp
  refine ⟨_, 1 / norm w psi, h1, h1, ?_, rfl, hnorm, ?_⟩
  · rw [norm_eq]
    positivity
  · generalize psi.map (fun a => a * ((1 / norm w psi : ℝ) : ℂ)) = out at hnorm
    unfold normalize
    rw [norm_eq, hnorm, Real.sqrt_one, if_neg one_ne_zero]
    simp

example : ∃ out, normalize 1 [3, 4 * Complex.I] = some out ∧ normSq 1 out = 1 := by
  obtain ⟨out, r, h1, _, _, _, h2, _⟩ := C299_partial 1 one_pos [3, 4 * Complex.I] []
    ⟨3, List.mem_cons_self, by norm_num⟩
  exact ⟨out, h1, h2⟩

/-- **C299 is violated**: the wave function zero is not refused, its elements become "not a
number". -/
theorem C299_violated (w : ℝ) (n : Nat) (dest : List ℂ) :
    normalize w (List.replicate n 0) = none ∧ normalizeTo w dest (List.replicate n 0) = none := by
  have h : norm w (List.replicate n 0) = 0 := by
    rw [norm_eq]
    unfold normSq
    simp
  have h1 : normalize w (List.replicate n 0) = none := by
    unfold normalize
    rw [if_pos h]
  exact ⟨h1, h1⟩

end QDng.Scal
