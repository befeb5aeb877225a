import Verif.Lap.Runs

/-
# Properties C303 - C305: the calls of LAPACK
-/

namespace QDng.Lap

open QDng QDng.Memory

/-! ## Cases for the hypotheses -/

/-- An operating system that hands out the address after the last one in use. -/
def freshOs (nd : Bool) (s : Pool) (size : Nat) : Option Nat :=
  let a := s.heap.foldr (fun e m => max e.1 m) 0 + 1
  if OMap.find a s.heap = none ∧ OMap.total s.heap + slotBytes nd (numBlocks nd size) < W then some a
  else none

/-- A machine for the examples. -/
def machine (nd : Bool) (lib : Call → Int) : Sys := { nd := nd, os := freshOs nd, lib := lib }

theorem machine_honest (nd : Bool) (lib : Call → Int) : Honest (machine nd lib) := by
  intro s size a ha
  simp only [machine, freshOs] at ha ⊢
  split at ha
  · rename_i h
    cases ha
    exact h
  · cases ha

/-- A pool of a megabyte that is not used yet. -/
def start : World := { pool := Pool.init 1048576, owned := [] }

theorem start_reach (nd : Bool) : Reach nd true start := .init _ (by decide)

/-! ## C303 -/

theorem hasDim_blk {nd : Bool} {size esize dim : Nat} (h : size + 4096 ≤ W) (hd : dim * esize ≤ size) :
    HasDim (blk nd size) esize dim := by
  have := bytes_ge nd h
  unfold HasDim blk
  exact_mod_cast hd.trans this

/-- **C303** (partial: without the complex Hermitian matrices in general): for every size the library
can index, in every state of the memory pool, the real symmetric, the tridiagonal, the Hessenberg and
the general diagonalization and the inversion pass arguments as LAPACK documents them: no array is
shorter than demanded.  For the tridiagonal matrix the size is at least two and the diagonals have the
elements; for the general matrix the vector for the eigenvalues has them before the call.  For complex
Hermitian matrices this holds in a release build up to size 85. -/
theorem C303_partial {sys : Sys} (ho : Honest sys) {w : World} (hr : Reach sys.nd true w) {n : Nat}
    (h1 : 1 ≤ n) (hn : n * n < 2 ^ 31) :
    (∀ c ∈ (fullDiagReal sys n n 1 w).calls, c.Documented) ∧
    (∀ d e, 2 ≤ n → n ≤ d → n ≤ e + 1 → ∀ c ∈ (triDiag sys d e n w).calls, c.Documented) ∧
    (∀ c ∈ (diagHess sys n n 1 [] w).calls, c.Documented) ∧
    (∀ len, n ≤ len + 1 → ∀ c ∈ (diagGeneral sys n n 1 len w).calls, c.Documented) ∧
    (∀ c ∈ (invertGeneral sys n n w).calls, c.Documented) ∧
    (sys.nd = true → n ≤ 85 → ∀ c ∈ (fullDiagCplx sys n n 1 w).calls, c.Documented) := by
  have hle : n ≤ n * n := Nat.le_mul_self n
  have hle' : (n : Int) ≤ n * n := by exact_mod_cast hle
  have hhess : ∀ c ∈ [hseqr sys.nd n, hsein sys.nd n], c.Documented := by
    have hb : HasDim (blk sys.nd (16 * (n * n))) 16 ((n * n : Nat) : Int) :=
      hasDim_blk (by unfold W; omega) (by omega)
    have hb' : HasDim (blk sys.nd (8 * n)) 8 (n : Int) := hasDim_blk (by unfold W; omega) (by omega)
    intro c hc
    simp only [List.mem_cons, List.not_mem_nil, or_false] at hc
    rcases hc with rfl | rfl
    · refine ⟨by omega, by omega, by omega, ?_, ?_, ?_⟩
      · unfold HasDim; push_cast; omega
      · unfold HasDim; push_cast; omega
      · simpa using hb
    · refine ⟨by omega, by omega, by omega, by omega, by omega, ?_, ?_, ?_, ?_, ?_, ?_, hb', ?_, ?_⟩
      all_goals first
        | (unfold HasDim; push_cast; omega)
        | simpa using hb
  have hH : ∀ w, Reach sys.nd true w → ∀ pre : List Call, (∀ c ∈ pre, c.Documented) →
      ∀ c ∈ (diagHess sys n n 1 pre w).calls, c.Documented := by
    intro w hr pre hpre c hc
    rcases diagHess_run ho hr hn pre with h | ⟨w', p, -, h⟩ | ⟨w', -, -, h⟩
    · rw [h] at hc; exact hpre c hc
    · rw [h] at hc
      simp only [List.mem_append, List.mem_singleton] at hc
      rcases hc with hc | rfl
      · exact hpre c hc
      · exact hhess _ (by simp)
    · rw [h] at hc
      rcases List.mem_append.1 hc with hc | hc
      · exact hpre c hc
      · exact hhess c hc
  refine ⟨?_, ?_, hH w hr [] (by simp), ?_, ?_, ?_⟩
  · intro c hc
    rcases fullDiagReal_run ho hr hn with h | ⟨w', -, -, h⟩
    · rw [h] at hc; cases hc
    · rw [h] at hc
      simp only [List.mem_singleton] at hc
      subst hc
      have hb : HasDim (blk sys.nd (24 * n)) 8 ((3 * n : Nat) : Int) :=
        hasDim_blk (by unfold W; omega) (by omega)
      refine ⟨by omega, by omega, by omega, ?_, ?_, ?_⟩
      · unfold HasDim; push_cast; omega
      · unfold HasDim; push_cast; omega
      · rw [max_eq_right (by omega)]; simpa using hb
  · intro d e h2 hd he c hc
    rcases triDiag_run ho hr h1 hn with h | ⟨w', -, -, h⟩
    · rw [h] at hc; cases hc
    · rw [h] at hc
      simp only [List.mem_singleton] at hc
      subst hc
      have hb : HasDim (blk sys.nd (16 * n - 16)) 8 ((2 * n - 2 : Nat) : Int) :=
        hasDim_blk (by unfold W; omega) (by omega)
      refine ⟨by omega, by omega, ?_, ?_, ?_, ?_⟩
      · unfold HasDim; push_cast; omega
      · unfold HasDim; push_cast; omega
      · unfold HasDim; push_cast; omega
      · have : ((2 * n - 2 : Nat) : Int) = max 1 (2 * (n : Int) - 2) := by omega
        rwa [this] at hb
  · intro len hlen
    rcases diagGeneral_run (len := len) ho hr hn with h | ⟨w', hr', -, h⟩
    · rw [h]; intro c hc; cases hc
    · rw [h]
      refine hH w' hr' _ ?_
      intro c hc
      simp only [List.mem_singleton] at hc
      subst hc
      have hb : HasDim (blk sys.nd (16 * (n * n))) 16 ((n * n : Nat) : Int) :=
        hasDim_blk (by unfold W; omega) (by omega)
      refine ⟨by omega, by omega, by omega, ?_, ?_, ?_⟩
      · unfold HasDim; push_cast; omega
      · unfold HasDim; push_cast; omega
      · simpa using hb
  · intro c hc
    have hf : (getrf n n).Documented := by
      refine ⟨by omega, by omega, by omega, ?_, ?_⟩
      · unfold HasDim; push_cast; omega
      · unfold HasDim; push_cast; omega
    rcases invertGeneral_run (m := n) ho hr (n := n) (by omega) with ⟨-, h⟩ | ⟨-, h | ⟨w', p, -, -, -, h⟩⟩
    · rw [h] at hc; simp only [List.mem_singleton] at hc; subst hc; exact hf
    · rw [h] at hc; simp only [List.mem_singleton] at hc; subst hc; exact hf
    · rw [h] at hc
      simp only [List.mem_cons, List.not_mem_nil, or_false] at hc
      rcases hc with rfl | rfl
      · exact hf
      · have hb : HasDim (blk sys.nd (160 * n)) 16 ((10 * n : Nat) : Int) :=
          hasDim_blk (by unfold W; omega) (by omega)
        refine ⟨by omega, by omega, by omega, ?_, ?_, ?_⟩
        · unfold HasDim; push_cast; omega
        · unfold HasDim; push_cast; omega
        · rw [max_eq_right (by omega)]; simpa using hb
  · intro hnd h85 c hc
    rcases fullDiagCplx_run ho hr hn with h | ⟨w', p, -, h⟩ | ⟨w', -, -, h⟩
    · rw [h] at hc; cases hc
    · rw [h] at hc; cases hc
    · rw [h] at hc
      simp only [List.mem_singleton] at hc
      subst hc
      have hb : HasDim (blk sys.nd (48 * n)) 8 ((6 * n : Nat) : Int) :=
        hasDim_blk (by unfold W; omega) (by omega)
      have hc : blk sys.nd (24 * n) = 4096 := by
        rw [hnd]
        unfold blk slotBytes numBlocks blockSize W
        simp only [if_true]
        have : 24 * n / 4096 = 0 := by omega
        rw [this, if_pos (by omega)]
      rw [hc]
      refine ⟨by omega, by omega, by omega, ?_, ?_, ?_, ?_⟩
      · unfold HasDim; push_cast; omega
      · unfold HasDim; push_cast; omega
      · unfold HasDim; push_cast; omega
      · unfold HasDim at hb ⊢; push_cast at hb ⊢; omega

/-- The hypotheses are met, and the calls are made. -/
example : Honest (machine false fun _ => 0) ∧ Reach false true start ∧
    (fullDiagReal (machine false fun _ => 0) 3 3 1 start).calls.length = 1 ∧
    (triDiag (machine false fun _ => 0) 3 2 3 start).calls.length = 1 ∧
    (diagGeneral (machine false fun _ => 0) 3 3 1 3 start).calls.length = 3 ∧
    (invertGeneral (machine false fun _ => 0) 3 3 start).calls.length = 2 ∧
    (fullDiagCplx (machine true fun _ => 0) 3 3 1 start).calls.length = 1 :=
  ⟨machine_honest _ _, start_reach _, by decide +kernel, by decide +kernel, by decide +kernel,
    by decide +kernel, by decide +kernel⟩

/-- **C303** is violated for complex Hermitian matrices: in a debug build for every size, in a release
build from size 86 on, a run that does not end with an exception gives `ZHEEV` a work array of half the
length it is told. -/
theorem C303_violated {sys : Sys} (ho : Honest sys) {w : World} (hr : Reach sys.nd true w) {n : Nat}
    (h1 : 1 ≤ n) (hn : n * n < 2 ^ 31) (hbig : sys.nd = false ∨ 86 ≤ n)
    (hret : (fullDiagCplx sys n n 1 w).fin ≠ .threw) :
    ∃ c ∈ (fullDiagCplx sys n n 1 w).calls, ¬ c.Documented := by
  have hle : n ≤ n * n := Nat.le_mul_self n
  rcases fullDiagCplx_run ho hr hn with h | ⟨w', p, -, h⟩ | ⟨w', -, -, h⟩
  · rw [h] at hret; exact absurd rfl hret
  · rw [h] at hret; exact absurd rfl hret
  · rw [h]
    refine ⟨_, List.mem_singleton.2 rfl, ?_⟩
    rintro ⟨-, -, -, -, -, h6, -⟩
    have hlt := bytes_le sys.nd (24 * n)
    unfold HasDim blk at h6
    have h7 : 48 * n ≤ slotBytes sys.nd (numBlocks sys.nd (24 * n)) := by
      rw [max_eq_right (by omega)] at h6
      push_cast at h6
      omega
    rcases hbig with hb | hb
    · rw [hb] at hlt h7
      simp only [blockSize, Bool.false_eq_true, if_false] at hlt
      omega
    · cases hnd : sys.nd
      · rw [hnd] at hlt h7
        simp only [blockSize, Bool.false_eq_true, if_false] at hlt
        omega
      · rw [hnd] at hlt h7
        by_cases h171 : 171 ≤ n
        · simp only [blockSize, if_true] at hlt
          omega
        · have : slotBytes true (numBlocks true (24 * n)) = 4096 := by
            unfold slotBytes numBlocks blockSize W
            simp only [if_true]
            have : 24 * n / 4096 = 0 := by omega
            rw [this, if_pos (by omega)]
          omega

example : (fullDiagCplx (machine false fun _ => 0) 1 1 1 start).fin ≠ .threw ∧
    (fullDiagCplx (machine true fun _ => 0) 86 86 1 start).fin ≠ .threw := by
  constructor <;> decide +kernel

/-- **C303** is violated for general matrices: the vector for the eigenvalues gets its length only after
the first library call, so with a vector that is too short (an empty one, say) the call writes beyond
it. -/
theorem C303_violated_general {sys : Sys} (ho : Honest sys) {w : World} (hr : Reach sys.nd true w)
    {n len : Nat} (hn : n * n < 2 ^ 31) (hlen : len + 1 < n)
    (hret : (diagGeneral sys n n 1 len w).fin ≠ .threw) :
    ∃ c ∈ (diagGeneral sys n n 1 len w).calls, ¬ c.Documented := by
  rcases diagGeneral_run (len := len) ho hr hn with h | ⟨w', hr', -, h⟩
  · rw [h] at hret; exact absurd rfl hret
  · rw [h]
    refine ⟨gehrd sys.nd n len, ?_, ?_⟩
    · rcases diagHess_run ho hr' hn [gehrd sys.nd n len] with h | ⟨_, _, -, h⟩ | ⟨_, -, -, h⟩ <;>
        rw [h] <;> simp
    · rintro ⟨-, -, -, -, h5, -⟩
      unfold HasDim at h5
      push_cast at h5
      omega

example : (diagGeneral (machine false fun _ => 0) 2 2 1 0 start).fin ≠ .threw := by decide +kernel

/-! ## C304 -/

/-- **C304** (partial: not for the inversion): a diagonalization that returns leaves the caller of the
memory pool with exactly the memory held before. -/
theorem C304_partial {sys : Sys} (ho : Honest sys) {w : World} (hr : Reach sys.nd true w) {n : Nat}
    (h1 : 1 ≤ n) (hn : n * n < 2 ^ 31) (info : Int) :
    (∀ run, run = fullDiagReal sys n n 1 w ∨ run = fullDiagCplx sys n n 1 w ∨
        (∃ d e, run = triDiag sys d e n w) ∨ run = diagHess sys n n 1 [] w ∨
        (∃ len, run = diagGeneral sys n n 1 len w) →
      run.fin = .ret info → run.world.owned = w.owned ∧ held run.world = held w) ∧
    ((invertGeneral sys n n w).fin = .ret info → sys.lib (getrf n n) ≠ 0 →
      (invertGeneral sys n n w).world.owned = w.owned) := by
  have hH : ∀ w, Reach sys.nd true w → ∀ pre, (diagHess sys n n 1 pre w).fin = .ret info →
      (diagHess sys n n 1 pre w).world.owned = w.owned := by
    intro w hr pre hret
    rcases diagHess_run ho hr hn pre with h | ⟨_, _, -, h⟩ | ⟨_, -, h2, h⟩
    · rw [h] at hret; cases hret
    · rw [h] at hret; cases hret
    · rw [h]; exact h2
  constructor
  · intro run hrun hret
    have key : run.world.owned = w.owned := by
      rcases hrun with rfl | rfl | ⟨d, e, rfl⟩ | rfl | ⟨len, rfl⟩
      · rcases fullDiagReal_run ho hr hn with h | ⟨w', -, h2, h⟩
        · rw [h] at hret; cases hret
        · rw [h]; exact h2
      · rcases fullDiagCplx_run ho hr hn with h | ⟨w', p, -, h⟩ | ⟨w', -, h2, h⟩
        · rw [h] at hret; cases hret
        · rw [h] at hret; cases hret
        · rw [h]; exact h2
      · rcases triDiag_run (d := d) (e := e) ho hr h1 hn with h | ⟨w', -, h2, h⟩
        · rw [h] at hret; cases hret
        · rw [h]; exact h2
      · exact hH w hr [] hret
      · rcases diagGeneral_run (len := len) ho hr hn with h | ⟨w', hr', h2, h⟩
        · rw [h] at hret; cases hret
        · rw [h] at hret ⊢
          rw [hH w' hr' _ hret, h2]
    exact ⟨key, by unfold held; rw [key]⟩
  · intro hret hl
    have hle : n ≤ n * n := Nat.le_mul_self n
    rcases invertGeneral_run (m := n) ho hr (n := n) (by omega) with ⟨-, h⟩ | ⟨h, -⟩
    · rw [h]
    · exact absurd h hl

example : (fullDiagReal (machine true fun _ => 7) 3 3 1 start).fin = .ret 7 ∧
    (diagGeneral (machine true fun _ => 7) 3 3 1 3 start).fin = .ret 7 ∧
    (invertGeneral (machine true fun _ => 7) 3 3 start).fin = .ret 7 := by
  refine ⟨?_, ?_, ?_⟩ <;> decide +kernel

/-- **C304** is violated for the inversion: every inversion of a regular matrix keeps its work array of
160 bytes per row for ever. -/
theorem C304_violated {sys : Sys} (ho : Honest sys) {w : World} (hr : Reach sys.nd true w) {n : Nat}
    (hn : n * n < 2 ^ 31) (info : Int) (hl : sys.lib (.zgetrf n n n (16 * (n * n)) (4 * n)) = 0)
    (hret : (invertGeneral sys n n w).fin = .ret info) :
    held (invertGeneral sys n n w).world = held w + 160 * n := by
  have hle : n ≤ n * n := Nat.le_mul_self n
  rcases invertGeneral_run (m := n) ho hr (n := n) (by omega) with ⟨h, -⟩ | ⟨-, h | ⟨w', p, -, h2, -, h⟩⟩
  · exact absurd hl h
  · rw [h] at hret; cases hret
  · rw [h]
    unfold held
    simp only [h2, List.map_cons, List.sum_cons]
    omega

example : (invertGeneral (machine true fun _ => 0) 3 3 start).fin = .ret 0 ∧
    held (invertGeneral (machine true fun _ => 0) 3 3 start).world = 480 := by
  constructor <;> decide +kernel

theorem steps_held {sys : Sys} (ho : Honest sys) {max : Nat} (hm : max < W) {n : Nat} (hn : n * n < 2 ^ 31)
    (hl : sys.lib (getrf n n) = 0) (k : Nat) :
    ∀ {w w' : World}, ReachFixed sys.nd true max w → (∀ e ∈ w.owned, e.2 + 4096 ≤ W) →
      steps sys n k w = some w' →
      ReachFixed sys.nd true max w' ∧ (∀ e ∈ w'.owned, e.2 + 4096 ≤ W) ∧
        held w' = held w + k * (160 * n) := by
  have hle : n ≤ n * n := Nat.le_mul_self n
  induction k with
  | zero =>
    intro w w' hr hs h
    cases h
    exact ⟨hr, hs, by omega⟩
  | succ k ih =>
    intro w w' hr hs h
    rcases invertGeneral_run (m := n) ho (hr.reach hm) (n := n) (by omega) with ⟨h1, -⟩ | ⟨-, h1 | ⟨w1, p, -, h2, hq, h1⟩⟩
    · exact absurd hl h1
    · unfold steps at h
      rw [h1] at h
      cases h
    · unfold steps at h
      rw [h1] at h
      simp only at h
      have hr1 : ReachFixed sys.nd true max w1 := by
        refine ReachFixed.step (.align (160 * n) (sys.os w.pool (160 * n))) hr
          ⟨by unfold W; omega, ho _ _⟩ (by intro m h; cases h) ?_
        unfold request at hq
        unfold wstep
        split at hq
        · rename_i s q hal
          cases hq
          simp only [hal]
        · cases hq
        · cases hq
      obtain ⟨a, b, c⟩ := ih hr1 (by
        intro e he
        rw [h2] at he
        rcases List.mem_cons.1 he with rfl | he
        · simp only; unfold W; omega
        · exact hs e he) h
      refine ⟨a, b, ?_⟩
      rw [c]
      unfold held
      simp only [h2, List.map_cons, List.sum_cons]
      ring

/-- **C304** is violated in propagations with the Arnoldi method: whatever the memory limit is, the
number of steps that can be done is bounded by the limit divided by 160 bytes times the order; the next
step ends with the exception of the memory pool. -/
theorem C304_violated_steps {sys : Sys} (ho : Honest sys) {max : Nat} (hm : max < W)
    (hdvd : blockSize sys.nd ∣ max) {n : Nat} (hn : n * n < 2 ^ 31)
    (hl : sys.lib (.zgetrf n n n (16 * (n * n)) (4 * n)) = 0) {w : World}
    (hr : ReachFixed sys.nd true max w) (hs : ∀ e ∈ w.owned, e.2 + 4096 ≤ W) (k : Nat)
    (hk : max < k * (160 * n)) : steps sys n k w = none := by
  cases h : steps sys n k w with
  | none => rfl
  | some w' =>
    exfalso
    obtain ⟨a, b, c⟩ := steps_held ho hm hn hl k hr hs h
    have h1 := C08_limit_partial hm hdvd a
    have hr' := a.reach hm
    have h2 := sum_le_total w'.owned w'.pool.heap (reach_inv hr').heap_sorted (C06_disjoint hr').1 (by
      intro e he
      obtain ⟨b', h3, h4⟩ := C07_backed hr' e he
      refine ⟨b', h3, h4 ?_⟩
      have := b e he
      cases sys.nd <;> simp only [blockSize, Bool.false_eq_true, if_false, if_true] <;> omega)
    unfold held at c
    omega

/-- With a megabyte and order 100, fifty steps can be done and seventy cannot. -/
example : ReachFixed true true 1048576 start ∧ (∀ e ∈ start.owned, e.2 + 4096 ≤ W) ∧
    blockSize true ∣ 1048576 ∧ 1048576 < 70 * (160 * 100) ∧
    (steps (machine true fun _ => 0) 100 50 start).isSome = true :=
  ⟨.init, by simp [start], by decide, by decide, by decide +kernel⟩

/-- **C304** is violated if the second of two requests fails: then the first work array is lost. -/
theorem C304_violated_exception : ∃ (sys : Sys) (w : World), Honest sys ∧ Reach sys.nd true w ∧
    (fullDiagCplx sys 100 100 1 w).fin = .threw ∧ held (fullDiagCplx sys 100 100 1 w).world = held w + 4800 :=
  ⟨machine false fun _ => 0, { pool := Pool.init 6000, owned := [] }, machine_honest _ _,
    .init _ (by decide), by decide +kernel, by decide +kernel⟩

/-! ## C305 -/

/-- **C305** (partial: not for Hessenberg and general matrices): a matrix that is not square is refused
with the code -1 and a strided vector with -2, without any library call; otherwise the code returned is
zero only if no library call reported a failure. -/
theorem C305_partial {sys : Sys} (ho : Honest sys) {w : World} (hr : Reach sys.nd true w) {n : Nat}
    (h1 : 1 ≤ n) (hn : n * n < 2 ^ 31) :
    (∀ m s, m ≠ n → fullDiagReal sys n m s w = ⟨[], w, .ret (-1)⟩ ∧
      fullDiagCplx sys n m s w = ⟨[], w, .ret (-1)⟩ ∧ diagHess sys n m s [] w = ⟨[], w, .ret (-1)⟩ ∧
      ∀ len, diagGeneral sys n m s len w = ⟨[], w, .ret (-1)⟩) ∧
    (∀ s, s ≠ 1 → fullDiagReal sys n n s w = ⟨[], w, .ret (-2)⟩ ∧
      fullDiagCplx sys n n s w = ⟨[], w, .ret (-2)⟩ ∧ diagHess sys n n s [] w = ⟨[], w, .ret (-2)⟩ ∧
      ∀ len, diagGeneral sys n n s len w = ⟨[], w, .ret (-2)⟩) ∧
    (∀ run, run = fullDiagReal sys n n 1 w ∨ run = fullDiagCplx sys n n 1 w ∨
        (∃ d e, run = triDiag sys d e n w) ∨ run = invertGeneral sys n n w →
      run.fin ≠ .threw → (run.fin = .ret 0 ↔ ∀ c ∈ run.calls, sys.lib c = 0) ∧ run.calls ≠ []) := by
  have hle : n ≤ n * n := Nat.le_mul_self n
  refine ⟨?_, ?_, ?_⟩
  · intro m s hm
    refine ⟨?_, ?_, ?_, ?_⟩ <;> simp [fullDiagReal, fullDiagCplx, diagHess, diagGeneral, Ne.symm hm]
  · intro s hs
    refine ⟨?_, ?_, ?_, ?_⟩ <;> simp [fullDiagReal, fullDiagCplx, diagHess, diagGeneral, hs]
  · intro run hrun hret
    rcases hrun with rfl | rfl | ⟨d, e, rfl⟩ | rfl
    · rcases fullDiagReal_run ho hr hn with h | ⟨w', -, h2, h⟩
      · rw [h] at hret; exact absurd rfl hret
      · rw [h]; simp
    · rcases fullDiagCplx_run ho hr hn with h | ⟨w', p, -, h⟩ | ⟨w', -, h2, h⟩
      · rw [h] at hret; exact absurd rfl hret
      · rw [h] at hret; exact absurd rfl hret
      · rw [h]; simp
    · rcases triDiag_run (d := d) (e := e) ho hr h1 hn with h | ⟨w', -, h2, h⟩
      · rw [h] at hret; exact absurd rfl hret
      · rw [h]; simp
    · rcases invertGeneral_run (m := n) ho hr (n := n) (by omega) with ⟨h0, h⟩ | ⟨h0, h | ⟨w', p, -, -, -, h⟩⟩
      · rw [h]; simp
      · rw [h] at hret; exact absurd rfl hret
      · rw [h]; simp [h0]

example : (fullDiagReal (machine true fun _ => 7) 3 3 1 start).fin ≠ .threw ∧
    (fullDiagReal (machine true fun _ => 7) 3 3 1 start).calls.map (machine true fun _ => 7).lib = [7] := by
  constructor <;> decide +kernel

/-- **C305** is violated for Hessenberg matrices: the code of the eigenvalue calculation is lost, only
that of the eigenvector calculation is returned; a failure of the first is reported as success. -/
theorem C305_violated {sys : Sys} (ho : Honest sys) {w : World} (hr : Reach sys.nd true w) {n : Nat}
    (hn : n * n < 2 ^ 31) (hret : (diagHess sys n n 1 [] w).fin ≠ .threw) :
    ∃ c c', (diagHess sys n n 1 [] w).calls = [c, c'] ∧ c ≠ c' ∧
      (diagHess sys n n 1 [] w).fin = .ret (sys.lib c') := by
  rcases diagHess_run ho hr hn [] with h | ⟨_, _, -, h⟩ | ⟨_, -, h2, h⟩
  · rw [h] at hret; exact absurd rfl hret
  · rw [h] at hret; exact absurd rfl hret
  · rw [h]
    exact ⟨_, _, rfl, (by intro h; cases h), rfl⟩

/-- A library whose eigenvalue calculation fails. -/
def failing : Call → Int
  | .zhseqr .. => 2
  | .zgehrd .. => -7
  | _ => 0

/-- **C305** is violated for Hessenberg and general matrices: zero is returned although library calls
failed. -/
theorem C305_violated_zero : ∃ (sys : Sys) (w : World), Honest sys ∧ Reach sys.nd true w ∧
    (diagHess sys 3 3 1 [] w).fin = .ret 0 ∧ (∃ c ∈ (diagHess sys 3 3 1 [] w).calls, sys.lib c ≠ 0) ∧
    (diagGeneral sys 3 3 1 3 w).fin = .ret 0 ∧
    ∃ c ∈ (diagGeneral sys 3 3 1 3 w).calls, sys.lib c < 0 :=
  ⟨machine false failing, start, machine_honest _ _, start_reach _, by decide +kernel, by decide +kernel,
    by decide +kernel, by decide +kernel⟩

example : (diagHess (machine false failing) 3 3 1 [] start).fin ≠ .threw := by decide +kernel

end QDng.Lap
