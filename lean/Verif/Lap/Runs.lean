import Verif.Lap.Lemmas
import Mathlib.Tactic.Ring

/-
The runs of the routines in closed form.
-/

namespace QDng.Lap

open QDng QDng.Memory

/-- The bytes of whole blocks for a request. -/
def blk (nd : Bool) (size : Nat) : Nat := slotBytes nd (numBlocks nd size)

theorem cap_owned {sys : Sys} {w : World} (hr : Reach sys.nd true w) {p n : Nat}
    (hp : (p, n) ∈ w.owned) : cap w p = blk sys.nd n := by
  obtain ⟨sl, h1, _, h3⟩ := (reach_careful hr).owned (p, n) hp
  unfold cap blk
  rw [(reach_inv hr).find_heap]
  simp only at h1 h3 ⊢
  rw [h1, ← h3]; rfl

theorem fullDiagReal_run {sys : Sys} (ho : Honest sys) {w : World} (hr : Reach sys.nd true w) {n : Nat}
    (hn : n * n < 2 ^ 31) :
    fullDiagReal sys n n 1 w = ⟨[], w, .threw⟩ ∨
    ∃ w', Reach sys.nd true w' ∧ w'.owned = w.owned ∧
      fullDiagReal sys n n 1 w =
        ⟨[.dsyev n n (3 * n) (8 * (n * n)) (8 * n) (blk sys.nd (24 * n))], w',
          .ret (sys.lib (.dsyev n n (3 * n) (8 * (n * n)) (8 * n) (blk sys.nd (24 * n))))⟩ := by
  have hle : n ≤ n * n := Nat.le_mul_self n
  have hs : szt (3 * n * 8) = 24 * n := by
    have := szt_eq (k := 24 * n) (by unfold W; omega)
    rw [← this]; congr 1; push_cast; ring
  unfold fullDiagReal
  simp only [ne_eq, not_true_eq_false, if_false, hs]
  rcases withMem_cases ho hr (size := 24 * n) (by unfold W; omega) [] _ with h | ⟨w', p, h, hr', h2, h3, h4⟩
  · left; exact h
  · right
    rw [h, h4]
    obtain ⟨w'', h5, hr'', h6⟩ := release_eq hr' (p := p) (n := 24 * n) (by rw [h2]; exact List.mem_cons_self)
      [Call.dsyev n n (3 * n) (8 * (n * n)) (8 * n) (blk sys.nd (24 * n))]
      (fun w => ⟨[Call.dsyev n n (3 * n) (8 * (n * n)) (8 * n) (blk sys.nd (24 * n))], w, .ret (sys.lib
        (Call.dsyev n n (3 * n) (8 * (n * n)) (8 * n) (blk sys.nd (24 * n))))⟩)
    refine ⟨w'', hr'', ?_, h5⟩
    rw [h6, h2, filter_cons_fresh h3]

theorem fullDiagCplx_run {sys : Sys} (ho : Honest sys) {w : World} (hr : Reach sys.nd true w) {n : Nat}
    (hn : n * n < 2 ^ 31) :
    fullDiagCplx sys n n 1 w = ⟨[], w, .threw⟩ ∨
    (∃ w' p, w'.owned = (p, 48 * n) :: w.owned ∧ fullDiagCplx sys n n 1 w = ⟨[], w', .threw⟩) ∨
    ∃ w', Reach sys.nd true w' ∧ w'.owned = w.owned ∧
      fullDiagCplx sys n n 1 w =
        ⟨[.zheev n n (3 * n) (16 * (n * n)) (8 * n) (blk sys.nd (24 * n)) (blk sys.nd (48 * n))], w',
          .ret (sys.lib (.zheev n n (3 * n) (16 * (n * n)) (8 * n) (blk sys.nd (24 * n))
            (blk sys.nd (48 * n))))⟩ := by
  have hle : n ≤ n * n := Nat.le_mul_self n
  have hs : szt (3 * n * 16) = 48 * n := by
    have := szt_eq (k := 48 * n) (by unfold W; omega)
    rw [← this]; congr 1; push_cast; ring
  have hs' : szt (3 * n * 8) = 24 * n := by
    have := szt_eq (k := 24 * n) (by unfold W; omega)
    rw [← this]; congr 1; push_cast; ring
  unfold fullDiagCplx
  simp only [ne_eq, not_true_eq_false, if_false, hs, hs']
  rcases withMem_cases ho hr (size := 48 * n) (by unfold W; omega) [] _ with h | ⟨w1, p, h, hr1, h2, h3, -⟩
  · left; exact h
  · right
    rw [h]
    rcases withMem_cases ho hr1 (size := 24 * n) (by unfold W; omega) [] _ with k | ⟨w2, q, k, hr2, k2, k3, -⟩
    · left
      exact ⟨w1, p, h2, k⟩
    · right
      have hp : (p, 48 * n) ∈ w2.owned := by rw [k2, h2]; simp
      have hq : (q, 24 * n) ∈ w2.owned := by rw [k2]; simp
      rw [k, cap_owned hr2 hp, cap_owned hr2 hq]
      obtain ⟨w3, m1, hr3, m2⟩ := release_eq hr2 hp
        [.zheev n n (3 * n) (16 * (n * n)) (8 * n) (blk sys.nd (24 * n)) (blk sys.nd (48 * n))]
        (fun w => release sys w q
          [.zheev n n (3 * n) (16 * (n * n)) (8 * n) (blk sys.nd (24 * n)) (blk sys.nd (48 * n))] fun w =>
          ⟨[.zheev n n (3 * n) (16 * (n * n)) (8 * n) (blk sys.nd (24 * n)) (blk sys.nd (48 * n))], w,
          .ret (sys.lib (.zheev n n (3 * n) (16 * (n * n)) (8 * n) (blk sys.nd (24 * n))
            (blk sys.nd (48 * n))))⟩)
      have hpq : p ≠ q := by
        rintro rfl
        exact k3 (48 * n) (by rw [h2]; simp)
      have m3 : w3.owned = (q, 24 * n) :: w.owned := by
        rw [m2, k2, h2, List.filter_cons_of_pos (by simpa using hpq.symm), filter_cons_fresh h3]
      obtain ⟨w4, m4, hr4, m5⟩ := release_eq hr3 (p := q) (n := 24 * n) (by rw [m3]; simp)
        [.zheev n n (3 * n) (16 * (n * n)) (8 * n) (blk sys.nd (24 * n)) (blk sys.nd (48 * n))]
        (fun w =>
          ⟨[.zheev n n (3 * n) (16 * (n * n)) (8 * n) (blk sys.nd (24 * n)) (blk sys.nd (48 * n))], w,
          .ret (sys.lib (.zheev n n (3 * n) (16 * (n * n)) (8 * n) (blk sys.nd (24 * n))
            (blk sys.nd (48 * n))))⟩)
      refine ⟨w4, hr4, ?_, m1.trans m4⟩
      rw [m5, m3]
      refine filter_cons_fresh fun j hj => k3 j ?_
      rw [h2]; exact List.mem_cons_of_mem _ hj

theorem triDiag_run {sys : Sys} (ho : Honest sys) {w : World} (hr : Reach sys.nd true w) {d e n : Nat}
    (h1 : 1 ≤ n) (hn : n * n < 2 ^ 31) :
    triDiag sys d e n w = ⟨[], w, .threw⟩ ∨
    ∃ w', Reach sys.nd true w' ∧ w'.owned = w.owned ∧
      triDiag sys d e n w =
        ⟨[.dstev n n (8 * d) (8 * e) (8 * (n * n)) (blk sys.nd (16 * n - 16))], w',
          .ret (sys.lib (.dstev n n (8 * d) (8 * e) (8 * (n * n)) (blk sys.nd (16 * n - 16))))⟩ := by
  have hle : n ≤ n * n := Nat.le_mul_self n
  have hs : szt ((2 * n - 2) * 8) = 16 * n - 16 := by
    have := szt_eq (k := 16 * n - 16) (by unfold W; omega)
    rw [← this]; congr 1; omega
  unfold triDiag
  simp only [hs]
  rcases withMem_cases ho hr (size := 16 * n - 16) (by unfold W; omega) [] _ with h | ⟨w', p, h, hr', h2, h3, h4⟩
  · left; exact h
  · right
    rw [h, h4]
    obtain ⟨w'', h5, hr'', h6⟩ := release_eq hr' (p := p) (n := 16 * n - 16) (by rw [h2]; exact List.mem_cons_self)
      [Call.dstev n n (8 * d) (8 * e) (8 * (n * n)) (blk sys.nd (16 * n - 16))]
      (fun w => ⟨[Call.dstev n n (8 * d) (8 * e) (8 * (n * n)) (blk sys.nd (16 * n - 16))], w, .ret (sys.lib
        (Call.dstev n n (8 * d) (8 * e) (8 * (n * n)) (blk sys.nd (16 * n - 16))))⟩)
    refine ⟨w'', hr'', ?_, h5⟩
    rw [h6, h2, filter_cons_fresh h3]

/-- The call of `ZHSEQR`. -/
def hseqr (nd : Bool) (n : Nat) : Call :=
  .zhseqr n n (n * n) (16 * (n * n)) (16 * n) (blk nd (16 * (n * n)))

/-- The call of `ZHSEIN`. -/
def hsein (nd : Bool) (n : Nat) : Call :=
  .zhsein n n n n n (4 * n) (16 * (n * n)) (16 * n) (16 * (n * n)) (16 * (n * n))
    (blk nd (16 * (n * n))) (blk nd (8 * n)) (4 * n) (4 * n)

theorem diagHess_run {sys : Sys} (ho : Honest sys) {w : World} (hr : Reach sys.nd true w) {n : Nat}
    (hn : n * n < 2 ^ 31) (pre : List Call) :
    diagHess sys n n 1 pre w = ⟨pre, w, .threw⟩ ∨
    (∃ w' p, w'.owned = (p, 16 * (n * n)) :: w.owned ∧
      diagHess sys n n 1 pre w = ⟨pre ++ [hseqr sys.nd n], w', .threw⟩) ∨
    ∃ w', Reach sys.nd true w' ∧ w'.owned = w.owned ∧
      diagHess sys n n 1 pre w =
        ⟨pre ++ [hseqr sys.nd n, hsein sys.nd n], w', .ret (sys.lib (hsein sys.nd n))⟩ := by
  have hle : n ≤ n * n := Nat.le_mul_self n
  have hs : szt (n * n * 16) = 16 * (n * n) := by
    have := szt_eq (k := 16 * (n * n)) (by unfold W; omega)
    rw [← this]; congr 1; push_cast; ring
  have hs' : szt (n * 8) = 8 * n := by
    have := szt_eq (k := 8 * n) (by unfold W; omega)
    rw [← this]; congr 1; push_cast; ring
  unfold diagHess
  simp only [ne_eq, not_true_eq_false, if_false, hs, hs']
  rcases withMem_cases ho hr (size := 16 * (n * n)) (by unfold W; omega) pre _ with h | ⟨w1, p, h, hr1, h2, h3, -⟩
  · left; exact h
  · right
    have hp1 : (p, 16 * (n * n)) ∈ w1.owned := by rw [h2]; simp
    rw [h, cap_owned hr1 hp1]
    change (_ ∨ _)
    rcases withMem_cases ho hr1 (size := 8 * n) (by unfold W; omega) (pre ++ [hseqr sys.nd n]) _ with k | ⟨w2, q, k, hr2, k2, k3, -⟩
    · left
      exact ⟨w1, p, h2, k⟩
    · right
      have hp : (p, 16 * (n * n)) ∈ w2.owned := by rw [k2, h2]; simp
      have hq : (q, 8 * n) ∈ w2.owned := by rw [k2]; simp
      erw [k]
      rw [cap_owned hr2 hp, cap_owned hr2 hq]
      obtain ⟨w3, m1, hr3, m2⟩ := release_eq hr2 hp (pre ++ [hseqr sys.nd n, hsein sys.nd n])
        (fun w => release sys w q (pre ++ [hseqr sys.nd n, hsein sys.nd n]) fun w =>
          ⟨pre ++ [hseqr sys.nd n, hsein sys.nd n], w, .ret (sys.lib (hsein sys.nd n))⟩)
      have hpq : p ≠ q := by
        rintro rfl
        exact k3 (16 * (n * n)) (by rw [h2]; simp)
      have m3 : w3.owned = (q, 8 * n) :: w.owned := by
        rw [m2, k2, h2, List.filter_cons_of_pos (by simpa using hpq.symm), filter_cons_fresh h3]
      obtain ⟨w4, m4, hr4, m5⟩ := release_eq hr3 (p := q) (n := 8 * n) (by rw [m3]; simp)
        (pre ++ [hseqr sys.nd n, hsein sys.nd n])
        (fun w => ⟨pre ++ [hseqr sys.nd n, hsein sys.nd n], w, .ret (sys.lib (hsein sys.nd n))⟩)
      refine ⟨w4, hr4, ?_, m1.trans m4⟩
      rw [m5, m3]
      refine filter_cons_fresh fun j hj => k3 j ?_
      rw [h2]; exact List.mem_cons_of_mem _ hj

/-- The call of `ZGEHRD` with a vector of `len` elements. -/
def gehrd (nd : Bool) (n len : Nat) : Call :=
  .zgehrd n n (n * n) (16 * (n * n)) (16 * len) (blk nd (16 * (n * n)))

theorem diagGeneral_run {sys : Sys} (ho : Honest sys) {w : World} (hr : Reach sys.nd true w)
    {n len : Nat} (hn : n * n < 2 ^ 31) :
    diagGeneral sys n n 1 len w = ⟨[], w, .threw⟩ ∨
    ∃ w', Reach sys.nd true w' ∧ w'.owned = w.owned ∧
      diagGeneral sys n n 1 len w = diagHess sys n n 1 [gehrd sys.nd n len] w' := by
  have hle : n ≤ n * n := Nat.le_mul_self n
  have hs : szt (n * n * 16) = 16 * (n * n) := by
    have := szt_eq (k := 16 * (n * n)) (by unfold W; omega)
    rw [← this]; congr 1; push_cast; ring
  unfold diagGeneral
  simp only [ne_eq, not_true_eq_false, if_false, hs]
  rcases withMem_cases ho hr (size := 16 * (n * n)) (by unfold W; omega) [] _ with h | ⟨w1, p, h, hr1, h2, h3, -⟩
  · left; exact h
  · right
    have hp1 : (p, 16 * (n * n)) ∈ w1.owned := by rw [h2]; simp
    rw [h, cap_owned hr1 hp1]
    obtain ⟨w3, m1, hr3, m2⟩ := release_eq hr1 hp1 [gehrd sys.nd n len]
      (fun w => diagHess sys n n 1 [gehrd sys.nd n len] w)
    refine ⟨w3, hr3, ?_, m1⟩
    rw [m2, h2, filter_cons_fresh h3]

/-- The call of `ZGETRF`. -/
def getrf (m n : Nat) : Call := .zgetrf m n m (16 * (m * n)) (4 * m)

/-- The call of `ZGETRI`. -/
def getri (nd : Bool) (m n : Nat) : Call :=
  .zgetri n m (10 * n) (16 * (m * n)) (4 * m) (blk nd (160 * n))

theorem invertGeneral_run {sys : Sys} (ho : Honest sys) {w : World} (hr : Reach sys.nd true w)
    {m n : Nat} (hn : n < 2 ^ 31) :
    (sys.lib (getrf m n) ≠ 0 ∧
      invertGeneral sys m n w = ⟨[getrf m n], w, .ret (sys.lib (getrf m n))⟩) ∨
    (sys.lib (getrf m n) = 0 ∧ (invertGeneral sys m n w = ⟨[getrf m n], w, .threw⟩ ∨
    ∃ w' p, Reach sys.nd true w' ∧ w'.owned = (p, 160 * n) :: w.owned ∧
      request sys w (160 * n) = .got w' p ∧
      invertGeneral sys m n w =
        ⟨[getrf m n, getri sys.nd m n], w', .ret (sys.lib (getri sys.nd m n))⟩)) := by
  have hs : szt (10 * n * 16) = 160 * n := by
    have := szt_eq (k := 160 * n) (by unfold W; omega)
    rw [← this]; congr 1; push_cast; ring
  by_cases hl : sys.lib (getrf m n) = 0
  · right
    refine ⟨hl, ?_⟩
    unfold invertGeneral
    unfold getrf at hl
    simp only [hl, ne_eq, not_true_eq_false, if_false, hs]
    unfold withMem
    cases h : request sys w (160 * n) with
    | got w' p =>
      right
      obtain ⟨hr', h2, -, -⟩ := request_got ho hr (by unfold W; omega) h
      refine ⟨w', p, hr', h2, rfl, ?_⟩
      simp only
      rw [cap_owned hr' (p := p) (n := 160 * n) (by rw [h2]; simp)]
      rfl
    | threw w' => left; rw [request_threw ho hr h]; rfl
    | ub => exact absurd h (request_ub ho hr)
  · left
    refine ⟨hl, ?_⟩
    unfold getrf at hl
    unfold invertGeneral
    simp only [ne_eq, hl, not_false_eq_true, if_true]
    rfl

end QDng.Lap
