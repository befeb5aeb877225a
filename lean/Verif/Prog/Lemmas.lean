import Verif.Prog.Model
import Verif.FileSeq.Props
import Mathlib.Tactic.Linarith
import Mathlib.Data.Nat.ModEq
import Mathlib.Tactic.Ring

/-! Lemmas about the propagation loop. -/

namespace QDng.Prog

open QDng QDng.Common QDng.FileSeq

namespace Spec

/-- One step of a propagation at step number `t`: filters, a wave function with a proper norm, propagator, filters. -/
def oneStep {Ψ : Type} (e : Env Ψ) (t : Int) (psi : Ψ) : Option Ψ := do
  let a ← e.pre t psi
  if e.good a = false then none
  let b ← e.prop t a
  e.post (t + 1) b

/-- The wave function after `n` steps, beginning at step number `t`. -/
def after {Ψ : Type} (e : Env Ψ) (t : Int) (psi : Ψ) : Nat → Option Ψ
  | 0 => some psi
  | n + 1 => (after e t psi n).bind (oneStep e (t + n))

/-- Name of the file with snapshot `k`. -/
def snapName (dir fname : Str) (k : Nat) : Str := dir ++ fname ++ '_' :: (showNat k ++ ".wf".toList)

end Spec

variable {Ψ : Type}

theorem loop_snoc (e : Env Ψ) (c : Conf) : ∀ (n : Nat) (i : Int) (w : World Ψ),
    loop e c (n + 1) i w = (loop e c n i w).bind (iter e c (i + n)) := by
  intro n
  induction n with
  | zero =>
    intro i w
    have : ((0 : Nat) : Int) = 0 := rfl
    rw [this, Int.add_zero]
    simp only [loop, Out.bind]
    cases iter e c i w <;> rfl
  | succ n ih =>
    intro i w
    rw [loop]
    conv_rhs => rw [loop]
    cases h : iter e c i w with
    | ok w' =>
      show loop e c (n + 1) (i + 1) w' = (loop e c n (i + 1) w').bind _
      rw [ih]
      congr 2
      push_cast
      ring
    | threw w' => rfl
    | ub => rfl

/-- The state just before the writing in a pass, if no exception occurs. -/
theorem iter_of_oneStep (e : Env Ψ) (c : Conf) (i : Int) (w : World Ψ) (q : Ψ)
    (h : Spec.oneStep e w.step w.psi = some q) :
    ∃ p, e.pre w.step w.psi = some p ∧
      iter e c i w = maybeWrite c i { w with psi := q, step := w.step + 1, reports := w.reports ++ [(w.step, p)] } := by
  unfold Spec.oneStep at h
  simp only [bind, Option.bind] at h
  cases h1 : e.pre w.step w.psi with
  | none => rw [h1] at h; simp at h
  | some p =>
    rw [h1] at h
    dsimp only at h
    cases h2 : e.good p with
    | false => rw [h2] at h; simp at h
    | true =>
      rw [h2] at h
      simp only [Bool.true_eq_false, if_false] at h
      cases h3 : e.prop w.step p with
      | none => rw [h3] at h; simp at h
      | some b =>
        rw [h3] at h
        dsimp only at h
        refine ⟨p, rfl, ?_⟩
        unfold iter
        rw [h1]
        dsimp only
        rw [h2, if_pos rfl, h3]
        dsimp only
        rw [h]

/-- A step that fails ends the loop with an exception and writes nothing. -/
theorem iter_of_fail (e : Env Ψ) (c : Conf) (i : Int) (w : World Ψ)
    (h : Spec.oneStep e w.step w.psi = none) :
    ∃ w', iter e c i w = .threw w' ∧ w'.disk = w.disk := by
  unfold Spec.oneStep at h
  simp only [bind, Option.bind] at h
  unfold iter
  cases h1 : e.pre w.step w.psi with
  | none => exact ⟨w, rfl, rfl⟩
  | some p =>
    rw [h1] at h
    dsimp only at h ⊢
    cases h2 : e.good p with
    | false => exact ⟨{ w with psi := p }, by simp, rfl⟩
    | true =>
      rw [h2] at h
      simp only [Bool.true_eq_false, if_false] at h
      rw [if_pos rfl]
      cases h3 : e.prop w.step p with
      | none => exact ⟨_, rfl, rfl⟩
      | some b =>
        rw [h3] at h
        dsimp only at h ⊢
        rw [h]
        exact ⟨_, rfl, rfl⟩

/-- Number of multiples of `w` from `i` on among `m` consecutive numbers. -/
def cnt (w i m : Nat) : Nat := (i + m - 1) / w - (i - 1) / w

theorem cnt_zero (w i : Nat) : cnt w i 0 = 0 := by simp [cnt]

theorem div_step (w a : Nat) (hw : 0 < w) :
    (a + 1) / w = if w ∣ a + 1 then a / w + 1 else a / w := by
  rw [Nat.succ_div]
  split_ifs <;> rfl

theorem cnt_succ (w i m : Nat) (hw : 0 < w) (hi : 0 < i) :
    cnt w i (m + 1) = if w ∣ i + m then cnt w i m + 1 else cnt w i m := by
  unfold cnt
  obtain ⟨a, rfl⟩ : ∃ a, i = a + 1 := ⟨i - 1, by omega⟩
  have h1 : a + 1 + (m + 1) - 1 = (a + m) + 1 := by omega
  have h2 : a + 1 + m - 1 = a + m := by omega
  have h3 : a + 1 - 1 = a := by omega
  have h4 : a + 1 + m = (a + m) + 1 := by omega
  rw [h1, h2, h3, h4, div_step w (a + m) hw]
  have h5 : a / w ≤ (a + m) / w := Nat.div_le_div_right (by omega)
  split_ifs <;> omega

/-- The step after which file number `k` (counted from the first one of the loop) is written. -/
def when (w i k : Nat) : Nat := ((i - 1) / w + k + 1) * w - (i - 1)

theorem when_cnt (w i m : Nat) (hw : 0 < w) (hi : 0 < i) (hd : w ∣ i + m) : when w i (cnt w i m) = m + 1 := by
  obtain ⟨q, hq⟩ := hd
  unfold when cnt
  have h1 : (i - 1) / w ≤ (i + m - 1) / w := Nat.div_le_div_right (by omega)
  have hq0 : 0 < q := by
    rcases Nat.eq_zero_or_pos q with h | h
    · subst h; omega
    · exact h
  have h2 : (i + m - 1) / w = q - 1 := by
    rw [hq, Nat.div_eq_iff hw]
    obtain ⟨r, rfl⟩ : ∃ r, q = r + 1 := ⟨q - 1, by omega⟩
    have : w * (r + 1) = r * w + w := by ring
    constructor
    · simp only [Nat.add_sub_cancel]; omega
    · simp only [Nat.add_sub_cancel]; omega
  have h3 : (i - 1) / w + ((i + m - 1) / w - (i - 1) / w) + 1 = q := by omega
  rw [h3, Nat.mul_comm, ← hq]
  omega

/-- What the loop has done after `m` passes. -/
structure Inv (e : Env Ψ) (c : Conf) (w i : Nat) (w0 : World Ψ) (m : Nat) (W : World Ψ) : Prop where
  psi : Spec.after e w0.step w0.psi m = some W.psi
  step : W.step = w0.step + m
  seq : W.seq = w0.seq.setCounter (w0.seq.counter + cnt w i m)
  mem : ∀ k, k < cnt w i m → W.disk.files (w0.seq.setCounter (w0.seq.counter + k)).fileName
    = Spec.after e w0.step w0.psi (when w i k)
  other : ∀ n, (∀ k, k < cnt w i m → n ≠ (w0.seq.setCounter (w0.seq.counter + k)).fileName) →
    W.disk.files n = w0.disk.files n
  nreports : W.reports.length = w0.reports.length + m
  pars : W.disk.pars = if cnt w i m = 0 then w0.disk.pars
    else (writeMeta c (((i + m - 1) / w * w : Nat) : Int) w0.disk).pars

theorem writeMeta_files (c : Conf) (n : Int) (d : Disk Ψ) : (writeMeta c n d).files = d.files := rfl

theorem writeMeta_writeMeta (c : Conf) (n m : Int) (d d' : Disk Ψ) (h : d'.pars = (writeMeta c n d).pars) :
    (writeMeta c m d').pars = (writeMeta c m d).pars := by
  unfold writeMeta at *
  dsimp only at *
  funext x
  rw [h]
  by_cases hx : x = metaName c.dir
  · rw [if_pos hx, if_pos hx]
  · rw [if_neg hx, if_neg hx]
    show (if x = metaName c.dir then _ else _) = _
    rw [if_neg hx]

theorem after_le (e : Env Ψ) (t : Int) (psi : Ψ) (n : Nat) (h : (Spec.after e t psi n).isSome) :
    ∀ m, m ≤ n → (Spec.after e t psi m).isSome := by
  induction n with
  | zero => intro m hm; rw [Nat.le_zero.mp hm]; exact h
  | succ n ih =>
    intro m hm
    rcases Nat.lt_or_ge m (n + 1) with hlt | hge
    · refine ih ?_ m (by omega)
      rw [Spec.after] at h
      cases hx : Spec.after e t psi n with
      | none => rw [hx] at h; simp at h
      | some x => simp
    · rw [Nat.le_antisymm hm hge]; exact h

theorem fileName_inj (s : Seq) (hs : s.sequence = true) {a b : Int}
    (h : (s.setCounter a).fileName = (s.setCounter b).fileName) : a = b :=
  Classical.byContradiction fun hne => by
    have := C17_names s hs a b
    tauto

/-- The loop does what it should as long as the steps succeed. -/
theorem loop_inv (e : Env Ψ) (c : Conf) (w i : Nat) (w0 : World Ψ) (hw : 0 < w) (hi : 0 < i) (hc : c.wcycle = (w : Int))
    (hseq : w0.seq.sequence = true) (hinc : w0.seq.increment = 1) (m : Nat)
    (h : (Spec.after e w0.step w0.psi m).isSome) :
    ∃ W, loop e c m (i : Int) w0 = .ok W ∧ Inv e c w i w0 m W := by
  induction m with
  | zero =>
    refine ⟨w0, rfl, ⟨rfl, by simp, ?_, ?_, fun _ _ => rfl, rfl, ?_⟩⟩
    · rw [cnt_zero]; simp [Seq.setCounter]
    · intro k hk; rw [cnt_zero] at hk; omega
    · rw [cnt_zero, if_pos rfl]
  | succ m ih =>
    obtain ⟨W, hW, I⟩ := ih (after_le e _ _ _ h m (by omega))
    have hstep : ∃ q, Spec.oneStep e W.step W.psi = some q := by
      rw [Spec.after, I.psi] at h
      rw [I.step]
      exact Option.isSome_iff_exists.mp h
    obtain ⟨q, hq⟩ := hstep
    have hnext : Spec.after e w0.step w0.psi (m + 1) = some q := by
      rw [Spec.after, I.psi, ← I.step]
      exact hq
    obtain ⟨p, _, hiter⟩ := iter_of_oneStep e c ((i : Int) + m) W q hq
    rw [loop_snoc, hW]
    show ∃ W', iter e c ((i : Int) + m) W = .ok W' ∧ _
    rw [hiter]
    unfold maybeWrite
    rw [if_neg (by rw [hc]; omega)]
    have hmod : (((i : Int) + m).tmod c.wcycle = 0) ↔ w ∣ i + m := by
      rw [hc]
      have : ((i : Int) + m) = ((i + m : Nat) : Int) := by push_cast; rfl
      rw [this]
      rw [← Int.dvd_iff_tmod_eq_zero]
      exact Int.natCast_dvd_natCast
    by_cases hd : w ∣ i + m
    · rw [if_pos (hmod.mpr hd)]
      have hcs : cnt w i (m + 1) = cnt w i m + 1 := by rw [cnt_succ w i m hw hi, if_pos hd]
      refine ⟨_, rfl, ⟨hnext, ?_, ?_, ?_, ?_, ?_, ?_⟩⟩
      · show W.step + 1 = _
        rw [I.step]; push_cast; ring
      · show W.seq.advance = _
        rw [I.seq, advance_seq _ (by exact hseq), hcs]
        simp only [Seq.setCounter, hinc]
        congr 1
        push_cast; ring
      · intro k hk
        show (if _ = W.seq.fileName then some q else W.disk.files _) = _
        by_cases hkm : k = cnt w i m
        · subst hkm
          rw [if_pos (by rw [I.seq]), when_cnt w i m hw hi hd, hnext]
        · rw [if_neg, I.mem k (by omega)]
          rw [I.seq]
          intro hn
          have := fileName_inj _ hseq hn
          omega
      · intro n hn
        show (if n = W.seq.fileName then some q else W.disk.files n) = _
        rw [if_neg, I.other n (fun k hk => hn k (by omega))]
        rw [I.seq]
        exact hn _ (by omega)
      · show (W.reports ++ [_]).length = _
        rw [List.length_append, I.nreports]
        simp; omega
      · rw [hcs, if_neg (by omega)]
        have hval : ((i + (m + 1) - 1) / w * w : Nat) = i + m := by
          have : i + (m + 1) - 1 = i + m := by omega
          rw [this]
          exact Nat.div_mul_cancel hd
        rw [hval]
        show (writeMeta c ((i : Int) + m) _).pars = _
        have hcast : ((i + m : Nat) : Int) = (i : Int) + m := by push_cast; rfl
        rw [hcast]
        have hp := I.pars
        by_cases h0 : cnt w i m = 0
        · rw [if_pos h0] at hp
          unfold writeMeta
          dsimp only [snapshot]
          rw [hp]
        · rw [if_neg h0] at hp
          exact writeMeta_writeMeta c _ _ _ _ hp
    · rw [if_neg (fun hx => hd (hmod.mp hx))]
      have hcs : cnt w i (m + 1) = cnt w i m := by rw [cnt_succ w i m hw hi, if_neg hd]
      refine ⟨_, rfl, ⟨hnext, ?_, ?_, ?_, ?_, ?_, ?_⟩⟩
      · show W.step + 1 = _
        rw [I.step]; push_cast; ring
      · rw [hcs]; exact I.seq
      · rw [hcs]; exact I.mem
      · rw [hcs]; exact I.other
      · show (W.reports ++ [_]).length = _
        rw [List.length_append, I.nreports]
        simp; omega
      · rw [hcs]
        have hval : (i + (m + 1) - 1) / w = (i + m - 1) / w := by
          have h1 : i + (m + 1) - 1 = (i + m - 1) + 1 := by omega
          rw [h1, div_step w _ hw, if_neg]
          have : i + m - 1 + 1 = i + m := by omega
          rw [this]
          exact hd
        rw [hval]
        exact I.pars

/-- The loop stops with an exception at the first step that fails. -/
theorem loop_fail (e : Env Ψ) (c : Conf) (w i : Nat) (w0 : World Ψ) (hw : 0 < w) (hi : 0 < i) (hc : c.wcycle = (w : Int))
    (hseq : w0.seq.sequence = true) (hinc : w0.seq.increment = 1) (m : Nat)
    (h : (Spec.after e w0.step w0.psi m).isSome) (hf : Spec.after e w0.step w0.psi (m + 1) = none) (n : Nat)
    (hn : m < n) :
    ∃ W W', loop e c n (i : Int) w0 = .threw W' ∧ Inv e c w i w0 m W ∧ W'.disk = W.disk := by
  obtain ⟨W, hW, I⟩ := loop_inv e c w i w0 hw hi hc hseq hinc m h
  have hq : Spec.oneStep e W.step W.psi = none := by
    rw [Spec.after, I.psi] at hf
    rw [I.step]
    exact hf
  obtain ⟨W', h1, h2⟩ := iter_of_fail e c ((i : Int) + m) W hq
  have hm1 : loop e c (m + 1) (i : Int) w0 = .threw W' := by
    rw [loop_snoc, hW]
    exact h1
  refine ⟨W, W', ?_, I, h2⟩
  obtain ⟨k, rfl⟩ : ∃ k, n = m + 1 + k := ⟨n - (m + 1), by omega⟩
  induction k with
  | zero => exact hm1
  | succ k ih =>
    rw [← Nat.add_assoc, loop_snoc, ih (by omega)]
    rfl

end QDng.Prog
