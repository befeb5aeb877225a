import Verif.Prog.Lemmas

/-
C36, C37, C88: propagation runs, their continuation, and the filter program working on their files.
-/

namespace QDng.Prog

open QDng QDng.Common QDng.FileSeq

variable {Ψ : Type}

theorem initParams_ok (preset : Str) (a : Attr) (dir : Str) (hdt : a.dt ≠ 0) (hn : 1 ≤ a.steps)
    (hdir : chooseDir preset a.dir = .val dir) (hs : 0 ≤ a.start.getD 0) :
    initParams preset a = .val (conf a dir) := by
  unfold initParams
  rw [if_neg hdt, if_neg (by omega), if_neg (by rintro ⟨_, h⟩; omega), hdir]
  dsimp only
  rw [if_neg (by omega)]

theorem fileName_nat (dir fname : Str) (s : Seq) (hn : s.name = dir ++ fname) (hsu : s.suffix = ".wf".toList)
    (hs : s.sequence = true) (k : Nat) : (s.setCounter (k : Int)).fileName = Spec.snapName dir fname k := by
  unfold Seq.fileName Seq.setCounter Spec.snapName showInt
  rw [hs, if_pos rfl, if_neg (by simp), hn, hsu]
  simp

theorem snapName_inj (dir fname : Str) {a b : Nat} (h : Spec.snapName dir fname a = Spec.snapName dir fname b) :
    a = b := by
  unfold Spec.snapName at h
  have h1 := List.append_cancel_left h
  injection h1 with _ h1
  exact showNat_inj (List.append_cancel_right h1)

/-- Everything about an uninterrupted run that succeeds. -/
theorem run_ok (e : Env Ψ) (preset : Str) (a : Attr) (psi fin : Ψ) (d : Disk Ψ) (n w : Nat) (dir : Str)
    (hdt : a.dt ≠ 0) (hn : a.steps = (n : Int)) (hn0 : 0 < n) (hw : a.wcycle.getD 10 = (w : Int)) (hw0 : 0 < w)
    (hdir : chooseDir preset a.dir = .val dir) (hs : a.start.getD 0 = 0) (hfin : Spec.after e 0 psi n = some fin) :
    ∃ W, propagate e preset a psi d = .done W ∧ W.psi = fin ∧ W.step = n ∧ W.reports.length = n ∧
      (∀ k, k ≤ n / w → W.disk.files (Spec.snapName dir (a.fname.getD ['W', 'F']) k) = Spec.after e 0 psi (k * w)) ∧
      (∀ name, (∀ k, k ≤ n / w → name ≠ Spec.snapName dir (a.fname.getD ['W', 'F']) k) →
        W.disk.files name = d.files name) ∧
      W.disk.pars (metaName dir) = some [("CLASS".toList, .str "Propagation".toList), ("Nt".toList, .int n),
        ("dt".toList, .real a.dt), ("WFBaseName".toList, .str (a.fname.getD ['W', 'F'])), ("Wcycle".toList, .int w)] := by
  have hinit := initParams_ok preset a dir hdt (by omega) hdir (by omega)
  obtain ⟨c, hcdef⟩ : ∃ c : Conf, c = conf a dir := ⟨_, rfl⟩
  rw [← hcdef] at hinit
  have hcs : c.start = 0 := by rw [hcdef]; exact hs
  have hcw : c.wcycle = (w : Int) := by rw [hcdef]; exact hw
  have hcn : c.steps = (n : Int) := by rw [hcdef]; exact hn
  have hcd : c.dir = dir := by rw [hcdef]; rfl
  have hcf : c.fname = a.fname.getD ['W', 'F'] := by rw [hcdef]; rfl
  have hct : c.dt = a.dt := by rw [hcdef]; rfl
  generalize hfn : a.fname.getD ['W', 'F'] = fname at *
  have hfirst : firstStep c = ((1 : Nat) : Int) := by simp [firstStep, hcs]
  have hpass : passes c = n := by simp [passes, hfirst, hcn]
  obtain ⟨w0, hw0def⟩ : ∃ w0, w0 = initial c psi d := ⟨_, rfl⟩
  have h0psi : w0.psi = psi := by rw [hw0def]; simp [initial, hcs, snapshot]
  have h0step : w0.step = 0 := by rw [hw0def]; simp [initial, hcs, snapshot]
  have h0rep : w0.reports = [] := by rw [hw0def]; simp [initial, hcs, snapshot]
  have h0seq : w0.seq = { name := dir ++ fname, suffix := ".wf".toList, sequence := true, counter := 1, increment := 1 } := by
    rw [hw0def]; simp [initial, hcs, snapshot, FileSeq.write, Seq.advance, hcd, hcf]
  have h0files : ∀ x, w0.disk.files x = if x = Spec.snapName dir fname 0 then some psi else d.files x := by
    intro x
    have : Spec.snapName dir fname 0
        = ({ name := dir ++ fname, suffix := ".wf".toList, sequence := true, counter := 0, increment := 1 } : Seq).fileName := by
      rw [← fileName_nat dir fname { name := dir ++ fname, suffix := ".wf".toList, sequence := true, counter := 0, increment := 1 } rfl rfl rfl 0]
      rfl
    rw [this, hw0def]
    simp [initial, hcs, snapshot, FileSeq.write, hcd, hcf]
  obtain ⟨W, hW, I⟩ := loop_inv e c w 1 w0 hw0 (by omega) hcw (by rw [h0seq]) (by rw [h0seq]) n
    (by rw [h0psi, h0step, hfin]; rfl)
  have hcnt : cnt w 1 n = n / w := by simp [cnt]
  have hname : ∀ k : Nat, (w0.seq.setCounter (w0.seq.counter + k)).fileName = Spec.snapName dir fname (k + 1) := by
    intro k
    have : w0.seq.counter + (k : Int) = ((k + 1 : Nat) : Int) := by rw [h0seq]; push_cast; ring
    rw [this]
    exact fileName_nat dir fname w0.seq (by rw [h0seq]) (by rw [h0seq]) (by rw [h0seq]) (k + 1)
  refine ⟨finalize c W, ?_, ?_, ?_, ?_, ?_, ?_, ?_⟩
  · unfold propagate body
    rw [hinit]
    dsimp only
    rw [hpass, hfirst, ← hw0def, hW]
  · have := I.psi
    rw [h0psi, h0step, hfin] at this
    injection this with this
    exact this.symm
  · show W.step = n
    rw [I.step, h0step]
    simp
  · show W.reports.length = n
    rw [I.nreports, h0rep]
    simp
  · intro k hk
    show W.disk.files _ = _
    rcases k with _ | k
    · rw [I.other, h0files, if_pos rfl]
      · simp [Spec.after]
      · intro j _ hj
        rw [hname j] at hj
        have := snapName_inj _ _ hj
        omega
    · have := I.mem k (by rw [hcnt]; omega)
      rw [hname k, h0psi, h0step] at this
      rw [this]
      congr 1
      simp [when]
  · intro x hx
    show W.disk.files _ = _
    rw [I.other, h0files, if_neg (hx 0 (by omega))]
    intro j hj
    rw [hname j]
    rw [hcnt] at hj
    exact hx (j + 1) (by omega)
  · show (writeMeta c c.steps W.disk).pars _ = _
    unfold writeMeta
    dsimp only
    rw [hcd, if_pos rfl, hcf, hcn, hcw, hct]

/-! ### C36 -/

/-- **C36**, uninterrupted runs: exactly `n` steps are applied (and reported), the wave functions after `0, w, 2w, …`
steps are in the files with the numbers `0, 1, 2, …`, and no other file is touched. -/
theorem C36_run_partial (e : Env Ψ) (preset : Str) (a : Attr) (psi fin : Ψ) (d : Disk Ψ) (n w : Nat) (dir : Str)
    (hdt : a.dt ≠ 0) (hn : a.steps = (n : Int)) (hn0 : 0 < n) (hw : a.wcycle.getD 10 = (w : Int)) (hw0 : 0 < w)
    (hdir : chooseDir preset a.dir = .val dir) (hs : a.start.getD 0 = 0) (hfin : Spec.after e 0 psi n = some fin) :
    ∃ W, propagate e preset a psi d = .done W ∧ W.psi = fin ∧ W.step = n ∧ W.reports.length = n ∧
      (∀ k, k ≤ n / w → W.disk.files (Spec.snapName dir (a.fname.getD ['W', 'F']) k) = Spec.after e 0 psi (k * w)) ∧
      (∀ name, (∀ k, k ≤ n / w → name ≠ Spec.snapName dir (a.fname.getD ['W', 'F']) k) →
        W.disk.files name = d.files name) := by
  obtain ⟨W, h1, h2, h3, h4, h5, h6, _⟩ := run_ok e preset a psi fin d n w dir hdt hn hn0 hw hw0 hdir hs hfin
  exact ⟨W, h1, h2, h3, h4, h5, h6⟩

/-- A propagation of numbers: every step adds one. -/
def count : Env Nat := { pre := fun _ x => some x, good := fun _ => true, prop := fun _ x => some (x + 1), post := fun _ x => some x }

/-- A disk without files. -/
def blank (Ψ : Type) : Disk Ψ := { files := fun _ => none, pars := fun _ => none }

theorem count_after (t : Int) (x n : Nat) : Spec.after count t x n = some (x + n) := by
  induction n with
  | zero => rfl
  | succ n ih => rw [Spec.after, ih]; rfl

/-- The input of a run with `n` steps and write cycle `w`. -/
noncomputable def input (n : Nat) (w : Option Int) (s : Option Int) : Attr :=
  { dt := 1, steps := n, wcycle := w, dir := some ['p', '/'], fname := none, start := s }

example : ∃ W, propagate count [] (input 5 (some 2) none) 0 (blank Nat) = .done W ∧ W.psi = 5 ∧
    W.disk.files (Spec.snapName ['p', '/'] ['W', 'F'] 2) = some 4 ∧
    W.disk.files (Spec.snapName ['p', '/'] ['W', 'F'] 3) = none := by
  obtain ⟨W, h1, h2, _, _, h5, h6⟩ := C36_run_partial count [] (input 5 (some 2) none) 0 5 (blank Nat) 5 2 ['p', '/']
    (by simp [input]) rfl (by norm_num) rfl (by norm_num) rfl rfl (by rw [count_after])
  refine ⟨W, h1, h2, ?_, ?_⟩
  · have := h5 2 (by norm_num)
    rw [count_after] at this
    exact this
  · rw [h6]
    · rfl
    · intro k hk h
      have := snapName_inj _ _ h
      omega

/-- **C36**, where the snapshots go: with the directory `d` or `d/` in the input the files are `d/WF_0.wf`, … -/
theorem C36_directory_partial (e : Env Ψ) (a : Attr) (psi fin : Ψ) (D : Disk Ψ) (n w : Nat) (d : Str) (last : Char)
    (hdt : a.dt ≠ 0) (hn : a.steps = (n : Int)) (hn0 : 0 < n) (hw : a.wcycle.getD 10 = (w : Int)) (hw0 : 0 < w)
    (hlast : d.getLast? = some last) (hl : last ≠ '/') (hdir : a.dir = some d ∨ a.dir = some (d ++ ['/'])) (hf : a.fname = none)
    (hs : a.start.getD 0 = 0) (hfin : Spec.after e 0 psi n = some fin) :
    ∃ W, propagate e [] a psi D = .done W ∧
      ∀ k, k ≤ n / w → W.disk.files (d ++ "/WF_".toList ++ showNat k ++ ".wf".toList) = Spec.after e 0 psi (k * w) := by
  have hc : chooseDir [] a.dir = .val (d ++ ['/']) := by
    unfold chooseDir
    rcases hdir with h | h <;> rw [h] <;> dsimp only <;> rw [if_pos rfl] <;> unfold addSlash
    · rw [hlast]
      dsimp only
      rw [if_pos hl]
    · rw [List.getLast?_concat]
      dsimp only
      rw [if_neg (by simp)]
  obtain ⟨W, h1, _, _, _, h5, _⟩ := C36_run_partial e [] a psi fin D n w _ hdt hn hn0 hw hw0 hc hs hfin
  refine ⟨W, h1, fun k hk => ?_⟩
  rw [← h5 k hk, hf]
  congr 1
  simp [Spec.snapName]

example : ∃ W, propagate count [] { input 5 (some 2) none with dir := some ['p'] } 0 (blank Nat) = .done W ∧
    W.disk.files (['p'] ++ "/WF_".toList ++ showNat 1 ++ ".wf".toList) = some 2 := by
  obtain ⟨W, h1, h2⟩ := C36_directory_partial count { input 5 (some 2) none with dir := some ['p'] } 0 5 (blank Nat) 5 2 ['p'] 'p'
    (by simp [input]) rfl (by norm_num) rfl (by norm_num) rfl (by decide) (Or.inl rfl) rfl rfl (by rw [count_after])
  have := h2 1 (by norm_num)
  rw [count_after] at this
  exact ⟨W, h1, this⟩

/-- A write cycle of zero is not rejected: the first step divides by it. -/
theorem C36_violated_zero (e : Env Ψ) (preset : Str) (a : Attr) (psi q : Ψ) (d : Disk Ψ) (dir : Str) (hdt : a.dt ≠ 0)
    (hn : 1 ≤ a.steps) (hw : a.wcycle = some 0) (hdir : chooseDir preset a.dir = .val dir) (hs : a.start = none)
    (hq : Spec.oneStep e 0 psi = some q) : propagate e preset a psi d = .ub := by
  have hinit := initParams_ok preset a dir hdt hn hdir (by rw [hs]; simp)
  unfold propagate
  rw [hinit]
  dsimp only
  obtain ⟨c, hc⟩ : ∃ c : Conf, c = conf a dir := ⟨_, rfl⟩
  rw [← hc]
  have hc0 : c.wcycle = 0 := by rw [hc]; simp [conf, hw]
  have hcs : c.start = 0 := by rw [hc]; simp [conf, hs]
  have hcn : c.steps = a.steps := by rw [hc]; rfl
  have hbody : body e c psi d = .ub := by
    unfold body
    obtain ⟨m, hm⟩ : ∃ m, passes c = m + 1 := by
      refine ⟨passes c - 1, ?_⟩
      unfold passes firstStep
      rw [hcs, hcn]
      simp only [if_true]
      omega
    rw [hm, loop]
    obtain ⟨p, _, h2⟩ := iter_of_oneStep e c (firstStep c) (initial c psi d) q (by
      simpa [initial, hcs, snapshot] using hq)
    rw [h2]
    unfold maybeWrite
    rw [if_pos hc0]
    rfl
  rw [hbody]

example : propagate count [] (input 3 (some 0) none) 0 (blank Nat) = .ub :=
  C36_violated_zero count [] _ 0 1 _ ['p', '/'] (by simp [input]) (by simp [input]) rfl rfl rfl rfl

/-- A negative write cycle is not rejected either. -/
theorem C36_violated_negative (e : Env Ψ) (preset : Str) (a : Attr) (psi : Ψ) (d : Disk Ψ) (dir : Str) (hdt : a.dt ≠ 0)
    (hn : 1 ≤ a.steps) (hdir : chooseDir preset a.dir = .val dir) (hs : a.start = none) (w : Int) (_hw : w < 0)
    (_hwc : a.wcycle = some w) : propagate e preset a psi d ≠ .rejected := by
  have hinit := initParams_ok preset a dir hdt hn hdir (by rw [hs]; simp)
  unfold propagate
  rw [hinit]
  dsimp only
  split <;> simp

/-- What is rejected: no time step, no steps, a negative start number. -/
theorem C36_reject_partial (e : Env Ψ) (preset : Str) (a : Attr) (psi : Ψ) (d : Disk Ψ) (hdir : a.dir = none)
    (h : a.dt = 0 ∨ a.steps = 0 ∨ a.start.getD 0 < 0) : propagate e preset a psi d = .rejected := by
  have : initParams preset a = .threw := by
    unfold initParams chooseDir
    rw [hdir]
    by_cases h1 : a.dt = 0
    · rw [if_pos h1]
    · rw [if_neg h1]
      by_cases h2 : a.steps = 0
      · rw [if_pos h2]
      · rw [if_neg h2]
        by_cases h3 : a.wcycle.isSome = true ∧ a.steps < 1
        · rw [if_pos h3]
        · rw [if_neg h3]
          dsimp only
          rw [if_pos (by tauto)]
  unfold propagate
  rw [this]

example : propagate count [] { input 3 none (some (-1)) with dir := none } 0 (blank Nat) = .rejected :=
  C36_reject_partial _ _ _ _ _ rfl (Or.inr (Or.inr (by simp [input])))

/-- An empty directory name reads before the beginning of a string. -/
theorem C36_violated_empty_dir (e : Env Ψ) (a : Attr) (psi : Ψ) (d : Disk Ψ) (hdt : a.dt ≠ 0) (hn : 1 ≤ a.steps)
    (hdir : a.dir = some []) : propagate e [] a psi d = .ub := by
  unfold propagate initParams
  rw [if_neg hdt, if_neg (by omega), if_neg (by rintro ⟨_, h⟩; omega), hdir]
  rfl

/-! ### Continuing a run -/

/-- The steps do not depend on the time. -/
def Timeless (e : Env Ψ) : Prop := ∀ t t' : Int, e.pre t = e.pre t' ∧ e.prop t = e.prop t' ∧ e.post t = e.post t'

theorem oneStep_timeless (e : Env Ψ) (h : Timeless e) (t t' : Int) : Spec.oneStep e t = Spec.oneStep e t' := by
  funext psi
  unfold Spec.oneStep
  rw [(h t t').1, (h t t').2.1, (h (t + 1) (t' + 1)).2.2]

theorem after_add (e : Env Ψ) (h : Timeless e) (t t' : Int) (psi p : Ψ) (s : Nat) (hs : Spec.after e t psi s = some p)
    (m : Nat) : Spec.after e t' p m = Spec.after e t psi (s + m) := by
  induction m with
  | zero => simp [Spec.after, hs]
  | succ m ih =>
    rw [Spec.after, ih, ← Nat.add_assoc, Spec.after]
    congr 1
    exact oneStep_timeless e h _ _

/-- **C36**, continuation (write cycle one, time independent propagator, start number one above the number of the snapshot):
a run continued from snapshot `s` of a complete or broken off run ends in the same state and leaves the same files as
the uninterrupted run. -/
theorem C36_restart_partial (e : Env Ψ) (he : Timeless e) (preset : Str) (a b : Attr) (psi fin p : Ψ) (d d' : Disk Ψ)
    (n s : Nat) (dir : Str) (hdt : a.dt ≠ 0) (hn : a.steps = (n : Int)) (hn0 : 0 < n) (hw : a.wcycle = some 1)
    (hdir : chooseDir preset a.dir = .val dir) (hst : a.start = none) (hfin : Spec.after e 0 psi n = some fin)
    (hb : b = { a with start := some ((s : Int) + 1) }) (hsn : s ≤ n) (hp : Spec.after e 0 psi s = some p)
    (hd' : ∀ k, k ≤ s → d'.files (Spec.snapName dir (a.fname.getD ['W', 'F']) k) = Spec.after e 0 psi k)
    (hd'' : ∀ name, (∀ k, k ≤ n → name ≠ Spec.snapName dir (a.fname.getD ['W', 'F']) k) → d'.files name = d.files name) :
    ∃ W V, propagate e preset a psi d = .done W ∧ propagate e preset b p d' = .done V ∧ V.psi = W.psi ∧
      V.disk.files = W.disk.files := by
  obtain ⟨W, h1, h2, _, _, h5, h6, _⟩ := run_ok e preset a psi fin d n 1 dir hdt hn hn0 (by rw [hw]; rfl) (by norm_num) hdir
    (by rw [hst]; rfl) hfin
  have hbd : chooseDir preset b.dir = .val dir := by rw [hb]; exact hdir
  have hinit := initParams_ok preset b dir (by rw [hb]; exact hdt) (by rw [hb]; show 1 ≤ a.steps; omega) hbd
    (by rw [hb]; simp; omega)
  obtain ⟨c, hc⟩ : ∃ c : Conf, c = conf b dir := ⟨_, rfl⟩
  rw [← hc] at hinit
  have hcs : c.start = ((s + 1 : Nat) : Int) := by rw [hc, hb]; simp [conf]
  have hcw : c.wcycle = ((1 : Nat) : Int) := by rw [hc, hb]; simp [conf, hw]
  have hcn : c.steps = (n : Int) := by rw [hc, hb]; exact hn
  have hcd : c.dir = dir := by rw [hc]; rfl
  have hcf : c.fname = a.fname.getD ['W', 'F'] := by rw [hc, hb]; rfl
  generalize a.fname.getD ['W', 'F'] = fname at *
  have hfirst : firstStep c = ((s + 1 : Nat) : Int) := by
    unfold firstStep
    rw [if_neg (by rw [hcs]; omega), hcs]
  have hpass : passes c = n - s := by
    unfold passes
    rw [hfirst, hcn]
    omega
  obtain ⟨w0, hw0⟩ : ∃ w0, w0 = initial c p d' := ⟨_, rfl⟩
  have hne : c.start ≠ 0 := by rw [hcs]; omega
  have h0psi : w0.psi = p := by rw [hw0]; simp [initial, hne]
  have h0disk : w0.disk = d' := by rw [hw0]; simp [initial, hne]
  have h0seq : w0.seq = { name := dir ++ fname, suffix := ".wf".toList, sequence := true, counter := ((s + 1 : Nat) : Int), increment := 1 } := by
    rw [hw0]; unfold initial; rw [if_pos hne]; simp [hcd, hcf, Seq.setCounter, hcs]
  have hrest : ∀ m, Spec.after e w0.step p m = Spec.after e 0 psi (s + m) := fun m => after_add e he 0 _ psi p s hp m
  obtain ⟨V, hV, I⟩ := loop_inv e c 1 (s + 1) w0 (by norm_num) (by omega) hcw (by rw [h0seq]) (by rw [h0seq]) (n - s)
    (by
      rw [h0psi, hrest]
      have : s + (n - s) = n := by omega
      rw [this, hfin]; rfl)
  have hcnt : cnt 1 (s + 1) (n - s) = n - s := by simp [cnt]
  have hwhen : ∀ k, when 1 (s + 1) k = k + 1 := by intro k; simp [when]; omega
  have hname : ∀ k : Nat, (w0.seq.setCounter (w0.seq.counter + k)).fileName = Spec.snapName dir fname (s + 1 + k) := by
    intro k
    have : w0.seq.counter + (k : Int) = ((s + 1 + k : Nat) : Int) := by rw [h0seq]; push_cast; ring
    rw [this]
    exact fileName_nat dir fname w0.seq (by rw [h0seq]) (by rw [h0seq]) (by rw [h0seq]) _
  refine ⟨W, finalize c V, h1, ?_, ?_, ?_⟩
  · unfold propagate body
    rw [hinit]
    dsimp only
    rw [hpass, hfirst, ← hw0, hV]
  · show V.psi = W.psi
    have := I.psi
    rw [h0psi, hrest] at this
    have h3 : s + (n - s) = n := by omega
    rw [h3, hfin] at this
    injection this with this
    rw [h2, this]
  · show V.disk.files = W.disk.files
    funext x
    by_cases hx : ∃ k, k ≤ n ∧ x = Spec.snapName dir fname k
    · obtain ⟨k, hk, rfl⟩ := hx
      have hWk := h5 k (by simpa using hk)
      rw [Nat.mul_one] at hWk
      rw [hWk]
      by_cases hks : k ≤ s
      · rw [I.other, h0disk, hd' k hks]
        intro j _ h
        rw [hname] at h
        have := snapName_inj _ _ h
        omega
      · have := I.mem (k - s - 1) (by rw [hcnt]; omega)
        rw [hname, h0psi, hrest, hwhen] at this
        have e1 : s + 1 + (k - s - 1) = k := by omega
        have e2 : s + (k - s - 1 + 1) = k := by omega
        rw [e1, e2] at this
        exact this
    · have hx' : ∀ k, k ≤ n → x ≠ Spec.snapName dir fname k := fun k hk h => hx ⟨k, hk, h⟩
      rw [I.other, h0disk, hd'' x hx', h6]
      · intro k hk; exact hx' k (by simpa using hk)
      · intro j hj
        rw [hname, ]
        rw [hcnt] at hj
        exact hx' _ (by omega)

theorem count_timeless : Timeless count := fun _ _ => ⟨rfl, rfl, rfl⟩

example : ∃ W V d', propagate count [] (input 5 (some 1) none) 0 (blank Nat) = .done W ∧
    propagate count [] (input 5 (some 1) (some (2 + 1))) 2 d' = .done V ∧ V.psi = W.psi ∧
    V.disk.files = W.disk.files := by
  obtain ⟨D, hD, _, _, _, h5, h6⟩ := C36_run_partial count [] (input 2 (some 1) none) 0 2 (blank Nat) 2 1 ['p', '/']
    (by simp [input]) rfl (by norm_num) rfl (by norm_num) rfl rfl (by rw [count_after])
  obtain ⟨W, V, h1, h2, h3, h4⟩ := C36_restart_partial count count_timeless [] (input 5 (some 1) none)
    { input 5 (some 1) none with start := some ((2 : Nat) + 1) } 0 5 2 (blank Nat) D.disk 5 2 ['p', '/'] (by simp [input]) rfl (by norm_num)
    rfl rfl rfl (by rw [count_after]) rfl (by norm_num) (by rw [count_after])
    (by
      intro k hk
      have := h5 k (by simpa using hk)
      rw [Nat.mul_one] at this
      exact this)
    (by
      intro x hx
      exact h6 x (fun k hk => hx k (by have : k ≤ 2 := by simpa using hk
                                       omega)))
  exact ⟨W, V, D.disk, h1, h2, h3, h4⟩

/-- A complete continuation of the counting propagation. -/
theorem count_restart (n w s x : Nat) (hn : 0 < n) (hw : 0 < w) (hs : 0 < s) (d : Disk Nat) :
    ∃ V, propagate count [] (input n (some w) (some s)) x d = .done V ∧ V.psi = x + (n + 1 - s) ∧
      (∀ k, k < n / w - (s - 1) / w →
        V.disk.files (Spec.snapName ['p', '/'] ['W', 'F'] (s + k)) = some (x + when w s k)) ∧
      (∀ name, (∀ k, k < n / w - (s - 1) / w → name ≠ Spec.snapName ['p', '/'] ['W', 'F'] (s + k)) →
        V.disk.files name = d.files name) := by
  have hinit := initParams_ok [] (input n (some w) (some s)) ['p', '/'] (by simp [input])
    (by simp [input]; omega) rfl (by simp [input])
  obtain ⟨c, hc⟩ : ∃ c : Conf, c = conf (input n (some w) (some s)) ['p', '/'] := ⟨_, rfl⟩
  rw [← hc] at hinit
  have hcs : c.start = (s : Int) := by rw [hc]; rfl
  have hcw : c.wcycle = (w : Int) := by rw [hc]; rfl
  have hcn : c.steps = (n : Int) := by rw [hc]; rfl
  have hcd : c.dir = ['p', '/'] := by rw [hc]; rfl
  have hcf : c.fname = ['W', 'F'] := by rw [hc]; rfl
  have hne : c.start ≠ 0 := by rw [hcs]; omega
  have hfirst : firstStep c = (s : Int) := by
    unfold firstStep
    rw [if_neg hne, hcs]
  have hpass : passes c = n + 1 - s := by
    unfold passes
    rw [hfirst, hcn]
    omega
  obtain ⟨w0, hw0⟩ : ∃ w0, w0 = initial c x d := ⟨_, rfl⟩
  have h0psi : w0.psi = x := by rw [hw0]; simp [initial, hne]
  have h0disk : w0.disk = d := by rw [hw0]; simp [initial, hne]
  have h0seq : w0.seq = { name := ['p', '/'] ++ ['W', 'F'], suffix := ".wf".toList, sequence := true, counter := (s : Int), increment := 1 } := by
    rw [hw0]; unfold initial; rw [if_pos hne]; simp [hcd, hcf, Seq.setCounter, hcs]
  obtain ⟨V, hV, I⟩ := loop_inv count c w s w0 hw hs hcw (by rw [h0seq]) (by rw [h0seq]) (n + 1 - s)
    (by rw [count_after]; rfl)
  have hname : ∀ k : Nat, (w0.seq.setCounter (w0.seq.counter + k)).fileName = Spec.snapName ['p', '/'] ['W', 'F'] (s + k) := by
    intro k
    have : w0.seq.counter + (k : Int) = ((s + k : Nat) : Int) := by rw [h0seq]; push_cast; ring
    rw [this]
    exact fileName_nat _ _ w0.seq (by rw [h0seq]) (by rw [h0seq]) (by rw [h0seq]) _
  have hcnt : ∀ k, k < cnt w s (n + 1 - s) ↔ k < n / w - (s - 1) / w := by
    intro k
    unfold cnt
    rcases Nat.lt_or_ge n s with h | h
    · have e1 : s + (n + 1 - s) - 1 = s - 1 := by omega
      have e2 : n / w ≤ (s - 1) / w := Nat.div_le_div_right (by omega)
      rw [e1]
      omega
    · have e1 : s + (n + 1 - s) - 1 = n := by omega
      rw [e1]
  refine ⟨finalize c V, ?_, ?_, ?_, ?_⟩
  · unfold propagate body
    rw [hinit]
    dsimp only
    rw [hpass, hfirst, ← hw0, hV]
  · have := I.psi
    rw [count_after, h0psi] at this
    injection this with this
    exact this.symm
  · intro k hk
    have := I.mem k ((hcnt k).mpr hk)
    rw [hname, count_after, h0psi] at this
    exact this
  · intro y hy
    have := I.other y (fun k hk => by rw [hname]; exact hy k ((hcnt k).mp hk))
    rw [h0disk] at this
    exact this

/-- Continuing from snapshot `s` with `start = s`, the number of that snapshot, takes one step too many and stores a later
wave function under the number of the snapshot: for every run of more than `s` steps. -/
theorem C36_violated_restart (n s : Nat) (hs : 0 < s) (hsn : s < n) :
    ∃ W V, propagate count [] (input n (some 1) none) 0 (blank Nat) = .done W ∧
      W.disk.files (Spec.snapName ['p', '/'] ['W', 'F'] s) = some s ∧
      propagate count [] (input n (some 1) (some s)) s W.disk = .done V ∧ V.psi ≠ W.psi ∧
      V.disk.files (Spec.snapName ['p', '/'] ['W', 'F'] s) = some (s + 1) := by
  obtain ⟨W, h1, h2, _, _, h5, _⟩ := C36_run_partial count [] (input n (some 1) none) 0 n (blank Nat) n 1 ['p', '/']
    (by simp [input]) rfl (by omega) rfl (by norm_num) rfl rfl (by rw [count_after]; simp)
  obtain ⟨V, g1, g2, g3, _⟩ := count_restart n 1 s s (by omega) (by norm_num) hs W.disk
  refine ⟨W, V, h1, ?_, g1, ?_, ?_⟩
  · have := h5 s (by simp; omega)
    rw [count_after] at this
    rw [Nat.mul_one, Nat.zero_add] at this
    exact this
  · rw [g2, h2]; omega
  · have := g3 0 (by simp; omega)
    rw [Nat.add_zero] at this
    rw [this]
    congr 1
    simp [when]

/-- With a write cycle of two no start number at all continues the run seamlessly. -/
theorem C36_violated_cycle : ∃ W : World Nat, propagate count [] (input 4 (some 2) none) 0 (blank Nat) = .done W ∧
    W.disk.files (Spec.snapName ['p', '/'] ['W', 'F'] 1) = some 2 ∧
    W.disk.files (Spec.snapName ['p', '/'] ['W', 'F'] 2) = some 4 ∧ W.psi = 4 ∧
    ∀ (s : Nat), 0 < s → ∀ d : Disk Nat, d.files (Spec.snapName ['p', '/'] ['W', 'F'] 2) = none →
      ∃ V, propagate count [] (input 4 (some 2) (some s)) 2 d = .done V ∧
        ¬ (V.psi = W.psi ∧ V.disk.files (Spec.snapName ['p', '/'] ['W', 'F'] 2)
            = W.disk.files (Spec.snapName ['p', '/'] ['W', 'F'] 2)) := by
  obtain ⟨W, h1, h2, _, _, h5, _⟩ := C36_run_partial count [] (input 4 (some 2) none) 0 4 (blank Nat) 4 2 ['p', '/']
    (by simp [input]) rfl (by norm_num) rfl (by norm_num) rfl rfl (by rw [count_after])
  have f1 := h5 1 (by norm_num)
  have f2 := h5 2 (by norm_num)
  rw [count_after] at f1 f2
  refine ⟨W, h1, f1, f2, h2, ?_⟩
  intro s hs d hd
  obtain ⟨V, g1, g2, g3, g4⟩ := count_restart 4 2 s 2 (by norm_num) (by norm_num) hs d
  refine ⟨V, g1, ?_⟩
  rintro ⟨e1, e2⟩
  rw [g2, h2] at e1
  have hs3 : s = 3 := by omega
  subst hs3
  have e3 : W.disk.files (Spec.snapName ['p', '/'] ['W', 'F'] 2) = some 4 := f2
  rw [e3, g4, hd] at e2
  · exact absurd e2 (by simp)
  · intro k hk h
    have := snapName_inj _ _ h
    omega

/-- A propagation that depends on the time: step `t` adds `t`. -/
def countTime : Env Int := { pre := fun _ x => some x, good := fun _ => true, prop := fun t x => some (x + t), post := fun _ x => some x }

/-- The clock of a continued run is one step ahead, also with the start number that fits the files: a time dependent
propagation of two steps continued after the first one ends in a different state. -/
theorem C36_violated_clock : ∃ W V : World Int,
    propagate countTime [] { dt := 1, steps := 2, wcycle := some 1, dir := none, fname := none, start := none } 0 (blank Int) = .done W ∧
    W.disk.files (Spec.snapName [] ['W', 'F'] 1) = some 0 ∧
    propagate countTime [] { dt := 1, steps := 2, wcycle := some 1, dir := none, fname := none, start := some 2 } 0 W.disk = .done V ∧
    W.psi = 1 ∧ V.psi = 2 := by
  obtain ⟨W, h1, h2, _, _, h5, _⟩ := C36_run_partial countTime []
    { dt := 1, steps := 2, wcycle := some 1, dir := none, fname := none, start := none } 0 1 (blank Int) 2 1 []
    (by simp) rfl (by norm_num) rfl (by norm_num) rfl rfl (by rfl)
  have f1 := h5 1 (by norm_num)
  obtain ⟨r, hr⟩ : ∃ r, propagate countTime []
    { dt := 1, steps := 2, wcycle := some 1, dir := none, fname := none, start := some 2 } 0 W.disk = r := ⟨_, rfl⟩
  have hr' := hr
  unfold propagate at hr'
  rw [initParams_ok [] _ [] (by simp) (by simp) rfl (by simp)] at hr'
  dsimp only at hr'
  subst hr'
  exact ⟨W, _, h1, f1, hr, h2, rfl⟩

end QDng.Prog
