import Verif.Prog.Props

/-
C37, C38, C88: the programs that read the files of a propagation.
-/

namespace QDng.Prog

open QDng QDng.Common QDng.FileSeq

variable {Ψ : Type}

/-- The entries of the parameter file of a propagation (what `writeMeta` stores). -/
def entries (nt : Int) (dt : ℝ) (base : Str) (wc : Int) : Meta :=
  [("CLASS".toList, .str "Propagation".toList), ("Nt".toList, .int nt), ("dt".toList, .real dt),
    ("WFBaseName".toList, .str base), ("Wcycle".toList, .int wc)]

theorem entries_cls (nt : Int) (dt : ℝ) (b : Str) (wc : Int) :
    (entries nt dt b wc).getStr "CLASS".toList = some "Propagation".toList := rfl

theorem entries_nt (nt : Int) (dt : ℝ) (b : Str) (wc : Int) : (entries nt dt b wc).getInt "Nt".toList = some nt := rfl

theorem entries_dt (nt : Int) (dt : ℝ) (b : Str) (wc : Int) : (entries nt dt b wc).getReal "dt".toList = some dt := rfl

theorem entries_base (nt : Int) (dt : ℝ) (b : Str) (wc : Int) :
    (entries nt dt b wc).getStr "WFBaseName".toList = some b := rfl

theorem entries_wc (nt : Int) (dt : ℝ) (b : Str) (wc : Int) :
    (entries nt dt b wc).getInt "Wcycle".toList = some wc := rfl

/-- There is no entry `wcycle`. -/
theorem entries_lower (nt : Int) (dt : ℝ) (b : Str) (wc : Int) :
    (entries nt dt b wc).getInt "wcycle".toList = some 0 := rfl

theorem writeMeta_entries (c : Conf) (n : Int) (d : Disk Ψ) :
    (writeMeta c n d).pars (metaName c.dir) = some (entries n c.dt c.fname c.wcycle) := by
  unfold writeMeta
  dsimp only
  rw [if_pos rfl]
  rfl

theorem filterLoop_ok (ok : Ψ → Bool) (dt : ℝ) (fs : FS Ψ) (x : Nat → Ψ) (hok : ∀ k, ok (x k) = true) (path base : Str) :
    ∀ (m : Nat) (F : FWorld Ψ) (j : Nat),
      F.seq = { name := path ++ '/' :: base, suffix := ".wf".toList, sequence := true, counter := (j : Int), increment := 1 } →
      F.step = (j : Int) → (∀ k, k < m → fs (Spec.snapName (path ++ ['/']) base (j + k)) = some (x (j + k))) →
      ∃ F', filterLoop ok dt fs m F = .ok F' ∧
        F'.seen = F.seen ++ (List.range m).map (fun k => (((j + k : Nat) : ℝ) * dt, x (j + k))) := by
  intro m
  induction m with
  | zero => intro F j _ _ _; exact ⟨F, rfl, by simp⟩
  | succ m ih =>
    intro F j hs hst hf
    have hname : F.seq.fileName = Spec.snapName (path ++ ['/']) base j := by
      have h := fileName_nat (path ++ ['/']) base F.seq (by rw [hs]; simp) (by rw [hs]) (by rw [hs]) j
      rw [← h, hs]
      rfl
    have hread : FileSeq.read F.seq fs = some (x j, F.seq.advance) := by
      unfold FileSeq.read
      have := hf 0 (by omega)
      rw [Nat.add_zero] at this
      rw [hname, this]
      rfl
    have hnext : filterNext ok dt fs F = .ok { F with seen := F.seen ++ [((j : ℝ) * dt, x j)], step := F.step + 1, seq := F.seq.advance } := by
      unfold filterNext filterOne
      rw [hread]
      dsimp only
      rw [hok j, if_pos rfl, hst]
      push_cast
      rfl
    obtain ⟨F', h1, h2⟩ := ih { F with seen := F.seen ++ [((j : ℝ) * dt, x j)], step := F.step + 1, seq := F.seq.advance } (j + 1)
      (by
        show F.seq.advance = _
        rw [hs]
        simp [Seq.advance])
      (by show F.step + 1 = _; rw [hst]; push_cast; rfl)
      (by
        intro k hk
        have := hf (k + 1) (by omega)
        have e1 : j + 1 + k = j + (k + 1) := by omega
        rw [e1]
        exact this)
    refine ⟨F', ?_, ?_⟩
    · unfold filterLoop
      rw [hnext]
      exact h1
    · rw [h2, List.range_succ_eq_map, List.map_cons, List.map_map, List.append_assoc]
      congr 1
      rw [List.singleton_append]
      congr 1
      refine List.map_congr_left fun k _ => ?_
      simp only [Function.comp_apply, Nat.succ_eq_add_one]
      have e1 : j + 1 + k = j + (k + 1) := by omega
      rw [e1]

theorem filterLoop_missing (ok : Ψ → Bool) (dt : ℝ) (fs : FS Ψ) (path base : Str) :
    ∀ (m : Nat) (F : FWorld Ψ) (j q : Nat), q < m →
      F.seq = { name := path ++ '/' :: base, suffix := ".wf".toList, sequence := true, counter := (j : Int), increment := 1 } →
      fs (Spec.snapName (path ++ ['/']) base (j + q)) = none →
      ∃ F', filterLoop ok dt fs m F = .threw F' := by
  intro m
  induction m with
  | zero => intro F j q hq; omega
  | succ m ih =>
    intro F j q hq hs hf
    have hname : F.seq.fileName = Spec.snapName (path ++ ['/']) base j := by
      have h := fileName_nat (path ++ ['/']) base F.seq (by rw [hs]; simp) (by rw [hs]) (by rw [hs]) j
      rw [← h, hs]
      rfl
    unfold filterLoop
    unfold filterNext FileSeq.read
    rw [hname]
    cases hfj : fs (Spec.snapName (path ++ ['/']) base j) with
    | none => exact ⟨_, rfl⟩
    | some x =>
      have hq0 : q ≠ 0 := by
        rintro rfl
        rw [Nat.add_zero, hfj] at hf
        exact absurd hf (by simp)
      dsimp only [Option.map]
      unfold filterOne
      by_cases hx : ok x = true
      · rw [if_pos hx]
        refine ih _ (j + 1) (q - 1) (by omega) ?_ (by rw [show j + 1 + (q - 1) = j + q by omega]; exact hf)
        show F.seq.advance = _
        rw [hs]
        simp [Seq.advance]
      · rw [if_neg hx]
        exact ⟨_, rfl⟩

theorem readPropagation_ok (path base : Str) (d : Disk Ψ) (dt : ℝ) (n w : Nat) (hw : 0 < w)
    (h : d.pars (metaName (path ++ ['/'])) = some (entries n dt base w)) :
    readPropagation path d = .val (dt * w, ((n / w : Nat) : Int), base) := by
  have hm : path ++ "/Propagation.meta".toList = metaName (path ++ ['/']) := by
    unfold metaName
    rw [List.append_assoc]
    rfl
  unfold readPropagation
  rw [hm, h]
  dsimp only
  rw [entries_cls, entries_nt, entries_dt, entries_wc, entries_base]
  dsimp only
  rw [if_neg (by simp), if_neg (by omega)]
  rw [show ((n : Int).tdiv (w : Int)) = ((n / w : Nat) : Int) from rfl]
  push_cast
  rfl

/-- **C37**, uninterrupted runs: after a completed propagation the filter program gives every snapshot to the filters
exactly once, in order, together with the time at which it was written (`k w dt` for snapshot `k`). -/
theorem C37_snapshots_partial (e : Env Ψ) (preset : Str) (a : Attr) (psi fin : Ψ) (d : Disk Ψ) (n w : Nat) (path : Str)
    (hdt : a.dt ≠ 0) (hn : a.steps = (n : Int)) (hn0 : 0 < n) (hw : a.wcycle.getD 10 = (w : Int)) (hw0 : 0 < w)
    (hdir : chooseDir preset a.dir = .val (path ++ ['/'])) (hs : a.start.getD 0 = 0)
    (hfin : Spec.after e 0 psi n = some fin) (ok : Ψ → Bool) (hok : ∀ x, ok x = true) :
    ∃ W F, propagate e preset a psi d = .done W ∧ runFilter ok path W.disk = .done F ∧ F.seen.length = n / w + 1 ∧
      ∀ k (hk : k < F.seen.length), F.seen[k].1 = (((k * w : Nat) : ℝ) * a.dt) ∧
        some F.seen[k].2 = Spec.after e 0 psi (k * w) := by
  obtain ⟨W, h1, _, _, _, h5, _, h7⟩ := run_ok e preset a psi fin d n w _ hdt hn hn0 hw hw0 hdir hs hfin
  have hsome : ∀ k, k ≤ n / w → (Spec.after e 0 psi (k * w)).isSome := by
    intro k hk
    refine after_le e 0 psi n (by rw [hfin]; rfl) _ ?_
    calc k * w ≤ n / w * w := Nat.mul_le_mul_right w hk
      _ ≤ n := Nat.div_mul_le_self n w
  obtain ⟨x, hx⟩ : ∃ x : Nat → Ψ, ∀ k, k ≤ n / w → Spec.after e 0 psi (k * w) = some (x k) := by
    refine ⟨fun k => (Spec.after e 0 psi (k * w)).getD fin, ?_⟩
    intro k hk
    obtain ⟨y, hy⟩ := Option.isSome_iff_exists.mp (hsome k hk)
    dsimp only
    rw [hy]
    rfl
  have hread := readPropagation_ok path _ W.disk a.dt n w hw0 h7
  generalize a.fname.getD ['W', 'F'] = fname at *
  obtain ⟨F, hF1, hF2⟩ := filterLoop_ok ok (a.dt * w) W.disk.files x (fun k => hok _) path fname (n / w + 1)
    { step := 0, seen := [], seq := { name := path ++ '/' :: fname, suffix := ".wf".toList, sequence := true, counter := 0, increment := 1 } }
    0 rfl rfl (by
      intro k hk
      rw [Nat.zero_add, h5 k (by omega), hx k (by omega)])
  have hlen : F.seen.length = n / w + 1 := by rw [hF2]; simp
  refine ⟨W, F, h1, ?_, hlen, ?_⟩
  · unfold runFilter
    rw [hread]
    dsimp only
    rw [Int.toNat_natCast]
    rw [filterLoop] at hF1
    rw [hF1]
  · intro k hk
    have hk' : k ≤ n / w := by omega
    simp only [hF2, List.nil_append, List.getElem_map, List.getElem_range, Nat.zero_add]
    refine ⟨?_, (hx k hk').symm⟩
    push_cast
    ring

example : ∃ W F, propagate count [] { input 5 (some 2) none with dir := some ['p'] } 0 (blank Nat) = .done W ∧
    runFilter (fun _ => true) ['p'] W.disk = .done F ∧ F.seen = [(0, 0), (2, 2), (4, 4)] := by
  obtain ⟨W, F, h1, h2, h3, h4⟩ := C37_snapshots_partial count [] { input 5 (some 2) none with dir := some ['p'] } 0 5 (blank Nat) 5 2
    ['p'] (by simp [input]) rfl (by norm_num) rfl (by norm_num) rfl rfl (by rw [count_after]) (fun _ => true) (fun _ => rfl)
  refine ⟨W, F, h1, h2, ?_⟩
  have hl : F.seen.length = 3 := h3
  refine List.ext_getElem (by rw [hl]; rfl) fun k hk hk' => ?_
  obtain ⟨g1, g2⟩ := h4 k hk
  rw [count_after] at g2
  injection g2 with g2
  have hk3 : k < 3 := by rw [← hl]; exact hk
  have : k = 0 ∨ k = 1 ∨ k = 2 := by omega
  rcases this with rfl | rfl | rfl
  · exact Prod.ext (by rw [g1]; simp) (by rw [g2]; rfl)
  · exact Prod.ext (by rw [g1]; simp [input]) (by rw [g2]; rfl)
  · exact Prod.ext (by rw [g1]; simp [input]) (by rw [g2]; rfl)

/-- A run with a start number above zero that completes in an empty directory cannot be read by the filter program: it
looks for snapshot 0. -/
theorem C37_violated_start (n s : Nat) (hn : 0 < n) (hs : 0 < s) (ok : Nat → Bool) :
    ∃ W F, propagate count [] (input n (some 1) (some s)) 0 (blank Nat) = .done W ∧
      runFilter ok ['p'] W.disk = .failed F ∧ F.seen = [] := by
  obtain ⟨V, g1, _, _, g4⟩ := count_restart n 1 s 0 hn (by norm_num) hs (blank Nat)
  have hpars : V.disk.pars (metaName (['p'] ++ ['/'])) = some (entries n 1 ['W', 'F'] ((1 : Nat) : Int)) := by
    have hinit := initParams_ok [] (input n (some 1) (some s)) ['p', '/'] (by simp [input])
      (by simp [input]; omega) rfl (by simp [input])
    unfold propagate at g1
    rw [show ((1 : Nat) : Int) = 1 from rfl] at g1
    rw [hinit] at g1
    dsimp only at g1
    unfold body at g1
    cases hl : loop count (conf (input n (some 1) (some s)) ['p', '/'])
      (passes (conf (input n (some 1) (some s)) ['p', '/'])) (firstStep (conf (input n (some 1) (some s)) ['p', '/']))
      (initial (conf (input n (some 1) (some s)) ['p', '/']) 0 (blank Nat)) with
    | ok W =>
      rw [hl] at g1
      dsimp only at g1
      injection g1 with g1
      rw [← g1]
      exact writeMeta_entries (conf (input n (some 1) (some s)) ['p', '/']) _ _
    | threw W => rw [hl] at g1; dsimp only at g1; exact absurd g1 (by simp)
    | ub => rw [hl] at g1; dsimp only at g1; exact absurd g1 (by simp)
  have hread := readPropagation_ok ['p'] ['W', 'F'] V.disk 1 n 1 (by norm_num) hpars
  have hmiss : V.disk.files (Spec.snapName ['p', '/'] ['W', 'F'] 0) = none := by
    rw [g4]
    · rfl
    · intro k _ h
      have := snapName_inj _ _ h
      omega
  refine ⟨V, { step := 0, seen := [], seq := { name := ['p'] ++ '/' :: ['W', 'F'], suffix := ".wf".toList, sequence := true, counter := 0, increment := 1 } }, g1, ?_, rfl⟩
  unfold runFilter
  rw [hread]
  dsimp only
  have hname : ({ name := ['p'] ++ '/' :: ['W', 'F'], suffix := ".wf".toList, sequence := true, counter := 0, increment := 1 } : Seq).fileName
      = Spec.snapName ['p', '/'] ['W', 'F'] 0 := by
    have := fileName_nat ['p', '/'] ['W', 'F'] { name := ['p'] ++ '/' :: ['W', 'F'], suffix := ".wf".toList, sequence := true, counter := 0, increment := 1 } rfl rfl rfl 0
    rw [← this]
    rfl
  unfold filterNext FileSeq.read
  rw [hname, hmiss]
  rfl

/-! ### C88: the parameter file and the files on the disk -/

/-- **C88**, while the run goes on (and thus after it was killed): at the end of every pass the parameter file, if this run
wrote it, promises only snapshots that are on the disk. -/
theorem C88_running_partial (e : Env Ψ) (c : Conf) (psi : Ψ) (d : Disk Ψ) (w m : Nat) (hw : 0 < w) (hc : c.wcycle = (w : Int))
    (hs : c.start = 0) (hm : (Spec.after e 0 psi m).isSome) (hnew : d.pars (metaName c.dir) = none) :
    ∃ W, loop e c m (firstStep c) (initial c psi d) = .ok W ∧
      ∀ p, W.disk.pars (metaName c.dir) = some p →
        ∃ N : Nat, p.getInt "Nt".toList = some (N : Int) ∧ p.getInt "Wcycle".toList = some (w : Int) ∧
          ∀ k, k ≤ N / w → W.disk.files (Spec.snapName c.dir c.fname k) = Spec.after e 0 psi (k * w) ∧
            (Spec.after e 0 psi (k * w)).isSome := by
  have hfirst : firstStep c = ((1 : Nat) : Int) := by simp [firstStep, hs]
  obtain ⟨w0, hw0def⟩ : ∃ w0, w0 = initial c psi d := ⟨_, rfl⟩
  have h0psi : w0.psi = psi := by rw [hw0def]; simp [initial, hs, snapshot]
  have h0step : w0.step = 0 := by rw [hw0def]; simp [initial, hs, snapshot]
  have h0seq : w0.seq = { name := c.dir ++ c.fname, suffix := ".wf".toList, sequence := true, counter := 1, increment := 1 } := by
    rw [hw0def]; simp [initial, hs, snapshot, FileSeq.write, Seq.advance]
  have h0pars : w0.disk.pars = d.pars := by rw [hw0def]; simp [initial, hs, snapshot]
  have h0file : w0.disk.files (Spec.snapName c.dir c.fname 0) = some psi := by
    have : Spec.snapName c.dir c.fname 0
        = ({ name := c.dir ++ c.fname, suffix := ".wf".toList, sequence := true, counter := 0, increment := 1 } : Seq).fileName := by
      rw [← fileName_nat c.dir c.fname { name := c.dir ++ c.fname, suffix := ".wf".toList, sequence := true, counter := 0, increment := 1 } rfl rfl rfl 0]
      rfl
    rw [this, hw0def]
    simp [initial, hs, snapshot, FileSeq.write]
  obtain ⟨W, hW, I⟩ := loop_inv e c w 1 w0 hw (by omega) hc (by rw [h0seq]) (by rw [h0seq]) m (by rw [h0psi, h0step]; exact hm)
  have hname : ∀ k : Nat, (w0.seq.setCounter (w0.seq.counter + k)).fileName = Spec.snapName c.dir c.fname (k + 1) := by
    intro k
    have : w0.seq.counter + (k : Int) = ((k + 1 : Nat) : Int) := by rw [h0seq]; push_cast; ring
    rw [this]
    exact fileName_nat c.dir c.fname w0.seq (by rw [h0seq]) (by rw [h0seq]) (by rw [h0seq]) (k + 1)
  have hcnt : cnt w 1 m = m / w := by simp [cnt]
  refine ⟨W, by rw [hfirst, ← hw0def]; exact hW, ?_⟩
  intro p hp
  rw [I.pars, hcnt, h0pars] at hp
  by_cases h0 : m / w = 0
  · rw [if_pos h0, hnew] at hp
    exact absurd hp (by simp)
  · rw [if_neg h0] at hp
    rw [writeMeta_entries] at hp
    injection hp with hp
    have e1 : (1 + m - 1) / w * w = m / w * w := by rw [Nat.add_sub_cancel_left]
    rw [e1] at hp
    refine ⟨m / w * w, ?_, ?_, ?_⟩
    · rw [← hp, entries_nt]
    · rw [← hp, entries_wc, hc]
    · intro k hk
      rw [Nat.mul_div_cancel _ hw] at hk
      have hle : k * w ≤ m := le_trans (Nat.mul_le_mul_right w hk) (Nat.div_mul_le_self m w)
      refine ⟨?_, after_le e 0 psi m hm _ hle⟩
      rcases k with _ | k
      · rw [I.other, h0file]
        · simp [Spec.after]
        · intro j _ hj
          rw [hname j] at hj
          have := snapName_inj _ _ hj
          omega
      · have := I.mem k (by rw [hcnt]; omega)
        rw [hname k, h0psi, h0step] at this
        rw [this]
        congr 1
        simp [when]

example : ∃ W, loop count (conf (input 5 (some 2) none) ['p', '/']) 3 1
      (initial (conf (input 5 (some 2) none) ['p', '/']) 0 (blank Nat)) = .ok W ∧
      W.disk.files (Spec.snapName ['p', '/'] ['W', 'F'] 1) = some 2 := by
  obtain ⟨W, h1, h2⟩ := C88_running_partial count (conf (input 5 (some 2) none) ['p', '/']) 0 (blank Nat) 2 3 (by norm_num) rfl rfl
    (by rw [count_after]; rfl) rfl
  refine ⟨W, h1, ?_⟩
  have hp : ∃ p, W.disk.pars (metaName (conf (input 5 (some 2) none) ['p', '/']).dir) = some p ∧ p.getInt "Nt".toList = some 2 := by
    have h1' := h1
    simp only [firstStep, conf, input] at h1'
    have : Out.ok W = loop count (conf (input 5 (some 2) none) ['p', '/']) 3 1
      (initial (conf (input 5 (some 2) none) ['p', '/']) 0 (blank Nat)) := h1.symm
    injection this with this
    rw [this]
    exact ⟨_, rfl, rfl⟩
  obtain ⟨p, hp, hp2⟩ := hp
  obtain ⟨N, g1, _, g3⟩ := h2 p hp
  rw [hp2] at g1
  injection g1 with g1
  have hN : N = 2 := by exact_mod_cast g1.symm
  have := (g3 1 (by rw [hN])).1
  rw [count_after] at this
  exact this

/-- After a failure the parameter file promises all snapshots of the complete run: for every run that fails before its last
snapshot.  The filter program then fails as well. -/
theorem C88_violated_failure (e : Env Ψ) (preset : Str) (a : Attr) (psi : Ψ) (n m w : Nat) (path : Str)
    (hdt : a.dt ≠ 0) (hn : a.steps = (n : Int)) (hm : m < n) (hw : a.wcycle.getD 10 = (w : Int)) (hw0 : 0 < w)
    (hdir : chooseDir preset a.dir = .val (path ++ ['/'])) (hs : a.start.getD 0 = 0)
    (hok : (Spec.after e 0 psi m).isSome) (hfail : Spec.after e 0 psi (m + 1) = none) (hlast : m / w < n / w) :
    ∃ W p, propagate e preset a psi (blank Ψ) = .failed W ∧
      W.disk.pars (metaName (path ++ ['/'])) = some p ∧ p.getInt "Nt".toList = some (n : Int) ∧
      p.getInt "Wcycle".toList = some (w : Int) ∧
      W.disk.files (Spec.snapName (path ++ ['/']) (a.fname.getD ['W', 'F']) (n / w)) = none ∧
      ∀ ok, ∃ F, runFilter ok path W.disk = .failed F := by
  suffices h : ∃ W, propagate e preset a psi (blank Ψ) = .failed W ∧
      W.disk.pars (metaName (path ++ ['/'])) = some (entries n a.dt (a.fname.getD ['W', 'F']) w) ∧
      W.disk.files (Spec.snapName (path ++ ['/']) (a.fname.getD ['W', 'F']) (n / w)) = none by
    obtain ⟨W, h1, h2, h3⟩ := h
    refine ⟨W, _, h1, h2, entries_nt _ _ _ _, entries_wc _ _ _ _, h3, fun ok => ?_⟩
    have hread := readPropagation_ok path _ W.disk a.dt n w hw0 h2
    obtain ⟨F, hF⟩ := filterLoop_missing ok (a.dt * w) W.disk.files path (a.fname.getD ['W', 'F']) (n / w + 1)
      { step := 0, seen := [], seq := { name := path ++ '/' :: a.fname.getD ['W', 'F'], suffix := ".wf".toList, sequence := true, counter := 0, increment := 1 } }
      0 (n / w) (by omega) rfl (by rw [Nat.zero_add]; exact h3)
    refine ⟨F, ?_⟩
    unfold runFilter
    rw [hread]
    dsimp only
    rw [Int.toNat_natCast]
    rw [filterLoop] at hF
    rw [hF]
  have hcdt : ∀ c : Conf, c = conf a (path ++ ['/']) → c.dt = a.dt := by rintro c rfl; rfl
  have hinit := initParams_ok preset a _ hdt (by omega) hdir (by omega)
  obtain ⟨c, hcdef⟩ : ∃ c : Conf, c = conf a (path ++ ['/']) := ⟨_, rfl⟩
  rw [← hcdef] at hinit
  have hcs : c.start = 0 := by rw [hcdef]; exact hs
  have hcw : c.wcycle = (w : Int) := by rw [hcdef]; exact hw
  have hcn : c.steps = (n : Int) := by rw [hcdef]; exact hn
  have hcd : c.dir = path ++ ['/'] := by rw [hcdef]; rfl
  have hcf : c.fname = a.fname.getD ['W', 'F'] := by rw [hcdef]; rfl
  replace hcdt := hcdt c hcdef
  generalize a.fname.getD ['W', 'F'] = fname at *
  generalize path ++ ['/'] = dir at *
  have hfirst : firstStep c = ((1 : Nat) : Int) := by simp [firstStep, hcs]
  have hpass : passes c = n := by simp [passes, hfirst, hcn]
  obtain ⟨w0, hw0def⟩ : ∃ w0, w0 = initial c psi (blank Ψ) := ⟨_, rfl⟩
  have h0psi : w0.psi = psi := by rw [hw0def]; simp [initial, hcs, snapshot]
  have h0step : w0.step = 0 := by rw [hw0def]; simp [initial, hcs, snapshot]
  have h0seq : w0.seq = { name := dir ++ fname, suffix := ".wf".toList, sequence := true, counter := 1, increment := 1 } := by
    rw [hw0def]; simp [initial, hcs, snapshot, FileSeq.write, Seq.advance, hcd, hcf]
  have h0files : ∀ x, x ≠ Spec.snapName dir fname 0 → w0.disk.files x = none := by
    intro x hx
    have : Spec.snapName dir fname 0
        = ({ name := dir ++ fname, suffix := ".wf".toList, sequence := true, counter := 0, increment := 1 } : Seq).fileName := by
      rw [← fileName_nat dir fname { name := dir ++ fname, suffix := ".wf".toList, sequence := true, counter := 0, increment := 1 } rfl rfl rfl 0]
      rfl
    rw [this] at hx
    rw [hw0def]
    simp [initial, hcs, snapshot, FileSeq.write, hcd, hcf, blank]
    exact hx
  obtain ⟨W, W', hW, I, hdisk⟩ := loop_fail e c w 1 w0 hw0 (by omega) hcw (by rw [h0seq]) (by rw [h0seq]) m
    (by rw [h0psi, h0step]; exact hok) (by rw [h0psi, h0step]; exact hfail) n hm
  have hname : ∀ k : Nat, (w0.seq.setCounter (w0.seq.counter + k)).fileName = Spec.snapName dir fname (k + 1) := by
    intro k
    have : w0.seq.counter + (k : Int) = ((k + 1 : Nat) : Int) := by rw [h0seq]; push_cast; ring
    rw [this]
    exact fileName_nat dir fname w0.seq (by rw [h0seq]) (by rw [h0seq]) (by rw [h0seq]) (k + 1)
  have hcnt : cnt w 1 m = m / w := by simp [cnt]
  refine ⟨finalize c W', ?_, ?_, ?_⟩
  rotate_left
  · rw [← hcd, ← hcn, ← hcdt, ← hcf, ← hcw]
    exact writeMeta_entries c c.steps W'.disk
  · show W'.disk.files _ = none
    rw [hdisk, I.other, h0files]
    · intro h
      have := snapName_inj _ _ h
      omega
    · intro k hk h
      rw [hname] at h
      rw [hcnt] at hk
      have := snapName_inj _ _ h
      omega
  · unfold propagate body
    rw [hinit]
    dsimp only
    rw [hpass, hfirst, ← hw0def, hW]

/-- A propagation whose third step fails. -/
def failing : Env Nat := { count with prop := fun _ x => if x < 2 then some (x + 1) else none }

example : ∃ W p, propagate failing [] (input 4 (some 1) none) 0 (blank Nat) = .failed W ∧
    W.disk.pars (metaName (['p'] ++ ['/'])) = some p ∧ p.getInt "Nt".toList = some 4 ∧
    W.disk.files (Spec.snapName (['p'] ++ ['/']) ['W', 'F'] 4) = none := by
  obtain ⟨W, p, h1, h2, h3, _, h5, _⟩ := C88_violated_failure failing [] (input 4 (some 1) none) 0 4 2 1 ['p'] (by simp [input]) rfl
    (by norm_num) rfl (by norm_num) rfl rfl rfl rfl (by norm_num)
  exact ⟨W, p, h1, h2, h3, h5⟩

/-! ### C38: reading a propagation in the correlation function program -/

/-- Whatever propagation is read by the correlation function program, it is never read successfully: the write cycle is
looked up under a name under which it was not stored and the wave functions under a wrong name. -/
theorem C38_violated_read (e : Env Ψ) (preset : Str) (a : Attr) (psi : Ψ) (d : Disk Ψ) (W : World Ψ) (dir : Str)
    (h : propagate e preset a psi d = .done W) (hdir : chooseDir preset a.dir = .val (dir ++ ['/'])) (fuel : Nat) :
    ∀ r, readBaseline fuel dir W.disk ≠ .val r := by
  intro r hr
  unfold propagate at h
  cases hi : initParams preset a with
  | threw => rw [hi] at h; exact absurd h (by simp)
  | ub => rw [hi] at h; exact absurd h (by simp)
  | val c =>
    rw [hi] at h
    dsimp only at h
    have hcd : c.dir = dir ++ ['/'] := by
      unfold initParams at hi
      rw [hdir] at hi
      dsimp only at hi
      split at hi
      · exact absurd hi (by simp)
      · split at hi
        · exact absurd hi (by simp)
        · split at hi
          · exact absurd hi (by simp)
          · split at hi
            · exact absurd hi (by simp)
            · injection hi with hi
              rw [← hi]
              rfl
    cases hb : body e c psi d with
    | threw w => rw [hb] at h; exact absurd h (by simp)
    | ub => rw [hb] at h; exact absurd h (by simp)
    | ok w =>
      rw [hb] at h
      dsimp only at h
      injection h with h
      subst h
      unfold body at hb
      cases hl : loop e c (passes c) (firstStep c) (initial c psi d) with
      | threw w' => rw [hl] at hb; exact absurd hb (by simp)
      | ub => rw [hl] at hb; exact absurd hb (by simp)
      | ok w' =>
        rw [hl] at hb
        dsimp only at hb
        injection hb with hb
        have hm : dir ++ "/Propagation.meta".toList = metaName (dir ++ ['/']) := by
          unfold metaName
          rw [List.append_assoc]
          rfl
        unfold readBaseline at hr
        rw [hm, ← hb] at hr
        have hp : (finalize c w').disk.pars (metaName (dir ++ ['/'])) = some (entries c.steps c.dt c.fname c.wcycle) := by
          rw [← hcd]
          exact writeMeta_entries c c.steps w'.disk
        rw [hp] at hr
        dsimp only at hr
        rw [entries_nt, entries_lower, entries_dt] at hr
        dsimp only at hr
        split at hr
        · exact absurd hr (by simp)
        · rw [if_pos rfl] at hr
          exact absurd hr (by simp)

/-- In an empty directory the reading program stops with an exception: the first wave function is not found. -/
theorem C38_violated_name (n w : Nat) (hn : 0 < n) (hw : 0 < w) (fuel : Nat) :
    ∃ W, propagate count [] (input n (some w) none) 0 (blank Nat) = .done W ∧ readBaseline fuel ['p'] W.disk = .threw := by
  obtain ⟨W, h1, _, _, _, _, h6, h7⟩ := run_ok count [] (input n (some w) none) 0 n (blank Nat) n w ['p', '/']
    (by simp [input]) rfl hn rfl hw rfl rfl (by rw [count_after]; simp)
  refine ⟨W, h1, ?_⟩
  have hm : ['p'] ++ "/Propagation.meta".toList = metaName ['p', '/'] := rfl
  have hl : readSeries W.disk.files fuel { name := ['p'], suffix := ".wf".toList, sequence := true, counter := 0, increment := 1 } = [] := by
    cases fuel with
    | zero => rfl
    | succ fuel =>
      unfold readSeries FileSeq.read
      rw [h6]
      · rfl
      · intro k _ h
        unfold Seq.fileName Spec.snapName at h
        simp at h
  unfold readBaseline
  rw [hm]
  have h7' : W.disk.pars (metaName ['p', '/']) = some (entries n 1 ['W', 'F'] w) := h7
  rw [h7']
  dsimp only
  rw [entries_nt, entries_lower, entries_dt]
  dsimp only
  rw [if_pos hl]

end QDng.Prog
