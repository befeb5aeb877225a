import Verif.Lossy.Model
import Verif.Lossy.Spec
import Verif.Deriv.Lemmas
import Mathlib.Tactic.Linarith
import Mathlib.Tactic.Positivity

/- Lemmas about the lossy compression. -/

namespace QDng.Lossy

open QDng.Deriv Spec

theorem amplitude_eq (s : Space) (ψ : s.Wf) (q : s.Pt) : amplitude s ψ q = forward s ψ q := by
  unfold amplitude forward
  refine Finset.sum_congr rfl (fun x _ => ?_)
  congr 1
  unfold root
  rw [← Complex.exp_sum]
  congr 1
  rw [Finset.mul_sum, ← Finset.sum_neg_distrib]
  refine Finset.sum_congr rfl (fun i _ => ?_)
  push_cast
  ring

theorem backward_eq (s : Space) (φ : s.Wf) : backward s φ = ∑ q, φ q • E s q := by
  funext x
  rw [Finset.sum_apply]
  rfl

theorem forward_backward (s : Space) (φ : s.Wf) (p : s.Pt) :
    forward s (backward s φ) p = φ p * (s.size : ℂ) := by
  rw [backward_eq, (lin_forward s).map_sum, Finset.sum_apply, Finset.sum_eq_single p]
  · rw [Pi.smul_apply, forward_E, if_pos rfl, smul_eq_mul]
  · intro q _ hq
    rw [Pi.smul_apply, forward_E, if_neg (Ne.symm hq), smul_zero]
  · intro hp
    exact absurd (Finset.mem_univ p) hp

theorem backward_forward {s : Space} (h : s.Ok) (ψ : s.Wf) :
    backward s (fun q => forward s ψ q / (s.size : ℂ)) = ψ := by
  rw [backward_eq]
  exact (expand h ψ).symm

theorem normSq_forward {s : Space} (h : s.Ok) (ψ : s.Wf) :
    normSq s ψ = (∑ q, ‖forward s ψ q‖ ^ 2) / (s.size : ℝ) := by
  have h1 := norm_expec h ψ
  have h2 : ip s ψ ψ = ((normSq s ψ : ℝ) : ℂ) := by
    unfold ip normSq
    rw [Complex.ofReal_sum]
    refine Finset.sum_congr rfl (fun x _ => ?_)
    rw [Complex.conj_mul', Complex.ofReal_pow]
  rw [h2] at h1
  exact_mod_cast h1

theorem forward_sub (s : Space) (φ ψ : s.Wf) (q : s.Pt) :
    forward s (φ - ψ) q = forward s φ q - forward s ψ q := by
  have h1 := congrFun (lin_forward s (-1) ψ φ) q
  have h2 : (-1 : ℂ) • ψ + φ = φ - ψ := by
    rw [neg_one_smul]
    exact neg_add_eq_sub ψ φ
  rw [h2] at h1
  rw [h1, Pi.add_apply, Pi.smul_apply, smul_eq_mul]
  ring

theorem card_pt (s : Space) : Fintype.card s.Pt = s.size := by
  rw [Fintype.card_pi]
  unfold Space.size
  exact Finset.prod_congr rfl (fun i _ => Fintype.card_fin _)

theorem normSq_complex (a : ℂ) : ‖a‖ ^ 2 = a.re ^ 2 + a.im ^ 2 := by
  rw [Complex.sq_norm, Complex.normSq_apply]
  ring

/-! ### The maximum -/

theorem foldl_max (l : List ℂ) (d : ℝ) :
    let m := l.foldl (fun d v => if ‖v‖ > d then ‖v‖ else d) d
    d ≤ m ∧ (∀ v ∈ l, ‖v‖ ≤ m) ∧ (m = d ∨ ∃ v ∈ l, ‖v‖ = m) := by
  induction l generalizing d with
  | nil => exact ⟨le_refl _, fun v hv => absurd hv (List.not_mem_nil), Or.inl rfl⟩
  | cons a l ih =>
    have h1 := ih (if ‖a‖ > d then ‖a‖ else d)
    simp only [List.foldl_cons] at h1 ⊢
    generalize l.foldl (fun d v => if ‖v‖ > d then ‖v‖ else d) (if ‖a‖ > d then ‖a‖ else d) = m at *
    obtain ⟨h2, h3, h4⟩ := h1
    by_cases h : ‖a‖ > d
    · rw [if_pos h] at h2 h4
      refine ⟨by linarith, ?_, ?_⟩
      · intro v hv
        rcases List.mem_cons.1 hv with rfl | hv
        · exact h2
        · exact h3 v hv
      · rcases h4 with h4 | ⟨v, hv, hm⟩
        · exact Or.inr ⟨a, List.mem_cons_self, h4.symm⟩
        · exact Or.inr ⟨v, List.mem_cons_of_mem _ hv, hm⟩
    · rw [if_neg h] at h2 h4
      push Not at h
      refine ⟨h2, ?_, ?_⟩
      · intro v hv
        rcases List.mem_cons.1 hv with rfl | hv
        · linarith
        · exact h3 v hv
      · rcases h4 with h4 | ⟨v, hv, hm⟩
        · exact Or.inl h4
        · exact Or.inr ⟨v, List.mem_cons_of_mem _ hv, hm⟩

theorem vecMax_eq {s : Space} {ψ : s.Wf} {M : ℝ} (hM : Largest s ψ M) :
    vecMax ((points s).map (forward s ψ)) = M := by
  obtain ⟨⟨q, hq⟩, hle⟩ := hM
  have hmem : ∀ q : s.Pt, forward s ψ q ∈ (points s).map (forward s ψ) := fun q =>
    List.mem_map_of_mem (Finset.mem_toList.2 (Finset.mem_univ q))
  have hval : ∀ v ∈ (points s).map (forward s ψ), ∃ p, forward s ψ p = v := fun v hv => by
    obtain ⟨p, _, hp⟩ := List.mem_map.1 hv
    exact ⟨p, hp⟩
  generalize (points s).map (forward s ψ) = l at *
  cases l with
  | nil => exact absurd (hmem q) (List.not_mem_nil)
  | cons a l =>
    obtain ⟨h1, h2, h3⟩ := foldl_max l ‖a‖
    have hup : ∀ v ∈ a :: l, ‖v‖ ≤ vecMax (a :: l) := by
      intro v hv
      rcases List.mem_cons.1 hv with rfl | hv
      · exact h1
      · exact h2 v hv
    refine le_antisymm ?_ ?_
    · have : ∃ v ∈ a :: l, ‖v‖ = vecMax (a :: l) := by
        rcases h3 with h3 | ⟨v, hv, hm⟩
        · exact ⟨a, List.mem_cons_self, h3.symm⟩
        · exact ⟨v, List.mem_cons_of_mem _ hv, hm⟩
      obtain ⟨v, hv, hm⟩ := this
      obtain ⟨p, rfl⟩ := hval v hv
      rw [← hm, ← amplitude_eq]
      exact hle p
    · rw [← hq, amplitude_eq]
      exact hup _ (hmem q)

/-- There is a largest amplitude. -/
theorem exists_largest {s : Space} (h : s.Ok) (ψ : s.Wf) : ∃ M, Largest s ψ M := by
  haveI : Nonempty s.Pt := ⟨fun i => ⟨0, by have := (h i).1; omega⟩⟩
  obtain ⟨q, hq⟩ := Finite.exists_max (fun q => ‖amplitude s ψ q‖)
  exact ⟨_, ⟨q, rfl⟩, hq⟩

/-! ### The cut -/

/-- The restored wave function in terms of the amplitudes that were kept. -/
noncomputable def cutAmp (thr : ℝ) (a : ℂ) : ℂ := ⟨kept thr a.re, kept thr a.im⟩

theorem cut_mul {thr n v : ℝ} (hn : n ≠ 0) : cutPart thr n v * n = kept thr v := by
  unfold cutPart kept
  split
  · rw [zero_mul]
  · rw [div_mul_cancel₀ _ hn]

theorem kept_sub_sq (thr v : ℝ) : (kept thr v - v) ^ 2 ≤ thr ^ 2 := by
  unfold kept
  split
  · next h =>
    have := abs_nonneg v
    have h2 : |v| ^ 2 ≤ thr ^ 2 := by nlinarith
    rw [sq_abs] at h2
    nlinarith
  · rw [sub_self]
    nlinarith [sq_nonneg thr]

theorem kept_sq (thr v : ℝ) : kept thr v ^ 2 ≤ v ^ 2 := by
  unfold kept
  split
  · nlinarith [sq_nonneg v]
  · exact le_refl _

theorem cutAmp_sub (thr : ℝ) (a : ℂ) : ‖cutAmp thr a - a‖ ^ 2 ≤ 2 * thr ^ 2 := by
  rw [normSq_complex]
  have h1 := kept_sub_sq thr a.re
  have h2 := kept_sub_sq thr a.im
  rw [Complex.sub_re, Complex.sub_im]
  show (kept thr a.re - a.re) ^ 2 + (kept thr a.im - a.im) ^ 2 ≤ _
  linarith

theorem cutAmp_le (thr : ℝ) (a : ℂ) : ‖cutAmp thr a‖ ^ 2 ≤ ‖a‖ ^ 2 := by
  rw [normSq_complex, normSq_complex]
  exact add_le_add (kept_sq thr a.re) (kept_sq thr a.im)

/-! ### The objects -/

theorem checkFFT_x {s : Space} (lib : Lib s) (o : Obj s) : (o.checkFFT lib).x = o.x := by
  obtain ⟨x, k, isK, fft, sized⟩ := o
  unfold Obj.checkFFT Obj.plan
  cases sized <;> cases fft <;> simp

theorem checkFFT_k {s : Space} (lib : Lib s) (o : Obj s)
    (h : (o.fft = true ∧ o.sized = true) ∨ lib.flag = .estimate ∨
      (lib.knowsForward = true ∧ lib.knowsBackward = true)) : (o.checkFFT lib).k = o.k := by
  obtain ⟨x, k, isK, fft, sized⟩ := o
  unfold Obj.checkFFT Obj.plan searched
  rcases h with ⟨h1, h2⟩ | h | ⟨h1, h2⟩
  · simp only at h1 h2
    subst h1 h2
    simp
  · cases sized <;> cases fft <;> simp [h]
  · cases sized <;> cases fft <;> simp [h1, h2]

theorem checkFFT_lost {s : Space} (lib : Lib s) (o : Obj s) (data : s.Wf)
    (h : o.fft = false ∨ o.sized = false) (hf : lib.flag ≠ .estimate)
    (hk : lib.knowsForward = false ∨ lib.knowsBackward = false) :
    (o.checkFFT lib).k = ({ o with k := data }.checkFFT lib).k := by
  obtain ⟨x, k, isK, fft, sized⟩ := o
  unfold Obj.checkFFT Obj.plan searched
  simp only at h
  rcases hk with hk | hk <;> cases sized <;> cases fft <;> simp_all

theorem reduce_fst {s : Space} (lib : Lib s) (tol : ℝ) (o : Obj s) {M : ℝ} (hM : Largest s o.x M)
    (q : s.Pt) :
    (o.reduce lib tol).1 q = ⟨cutPart (M * tol) (s.size : ℝ) (forward s o.x q).re,
      cutPart (M * tol) (s.size : ℝ) (forward s o.x q).im⟩ := by
  have hm := vecMax_eq hM
  unfold Obj.reduce Obj.setK Obj.val
  simp only [if_true, checkFFT_x]
  rw [hm]

theorem restored {s : Space} (h : s.Ok) (wlib rlib : Lib s) (tol : ℝ) (w r : Obj s) {M : ℝ}
    (hM : Largest s w.x M)
    (hr : (r.fft = true ∧ r.sized = true) ∨ rlib.flag = .estimate ∨
      (rlib.knowsForward = true ∧ rlib.knowsBackward = true)) (q : s.Pt) :
    forward s (r.restore rlib (w.reduce wlib tol).1).val q = cutAmp (tol * M) (forward s w.x q) := by
  have h1 : (r.restore rlib (w.reduce wlib tol).1).val = backward s (w.reduce wlib tol).1 := by
    unfold Obj.restore
    simp only [Obj.setK, Obj.val, Bool.false_eq_true, if_false]
    rw [checkFFT_k]
    exact hr
  rw [h1, forward_backward, reduce_fst wlib tol w hM]
  have hn : (s.size : ℝ) ≠ 0 := by have := size_pos h; exact_mod_cast this.ne'
  unfold cutAmp
  rw [mul_comm tol M]
  apply Complex.ext
  · rw [Complex.mul_re, Complex.natCast_re, Complex.natCast_im, mul_zero, sub_zero]
    exact cut_mul hn
  · rw [Complex.mul_im, Complex.natCast_re, Complex.natCast_im, mul_zero, zero_add]
    exact cut_mul hn

/-! ### Level wave functions -/

theorem levelDot_aux (psi : List ℂ) (c : ℂ) :
    psi.foldl (fun c a => c + (starRingEnd ℂ) a * a) c = c + ((listNormSq psi : ℝ) : ℂ) := by
  induction psi generalizing c with
  | nil => simp [listNormSq]
  | cons a l ih =>
    rw [List.foldl_cons, ih]
    unfold listNormSq
    rw [List.map_cons, List.sum_cons, Complex.conj_mul']
    push_cast
    ring

theorem levelNorm_eq (psi : List ℂ) : levelNorm psi = Real.sqrt (listNormSq psi) := by
  unfold levelNorm levelDot
  rw [levelDot_aux, zero_add, Complex.ofReal_re]

theorem listNormSq_nonneg (l : List ℂ) : 0 ≤ listNormSq l := by
  unfold listNormSq
  refine List.sum_nonneg ?_
  intro x hx
  obtain ⟨a, _, rfl⟩ := List.mem_map.1 hx
  positivity

theorem sum_le_const (l : List ℂ) (f : ℂ → ℂ) (c : ℝ) (h : ∀ a ∈ l, ‖f a‖ ^ 2 ≤ c) :
    listNormSq (l.map f) ≤ l.length * c := by
  induction l with
  | nil => simp [listNormSq]
  | cons a l ih =>
    have h1 := ih (fun b hb => h b (List.mem_cons_of_mem _ hb))
    have h2 := h a List.mem_cons_self
    unfold listNormSq at h1 ⊢
    simp only [List.map_cons, List.sum_cons, List.length_cons, Nat.cast_add, Nat.cast_one]
    linarith

theorem levelCut_sub {thr v : ℝ} (hv : 0 ≤ v) : (levelCut thr v - v) ^ 2 ≤ thr ^ 2 := by
  unfold levelCut
  split
  · nlinarith
  · rw [sub_self]
    nlinarith [sq_nonneg thr]

end QDng.Lossy
