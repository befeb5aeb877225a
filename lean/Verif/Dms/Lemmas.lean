import Verif.Dms.Model
import Verif.HMat.Props

/-
Lemmas for the diagonalising multistate operator.
-/

namespace QDng.Dms

open QDng.Common QDng.HMat Matrix

variable {S N : Nat}

/-- All elements are potentials or other operators which are diagonal on the grid. -/
def Plain (m : Fin S → Fin S → Option (Elem N)) : Prop := ∀ i j e, m i j = some e → e.od = true ∧ e.trans = none

/-- An element outside of the diagonal. -/
def Coupled (m : Fin S → Fin S → Option (Elem N)) : Prop := ∃ i j, i ≠ j ∧ (m i j).isSome

theorem mem_pairs (i j : Fin S) : (i, j) ∈ pairs S := by
  unfold pairs
  rw [List.mem_flatMap]
  exact ⟨i, List.mem_finRange i, List.mem_map.mpr ⟨j, List.mem_finRange j, rfl⟩⟩

open Classical in
theorem scan_plain (m : Fin S → Fin S → Option (Elem N)) (h : Plain m) (l : List (Fin S × Fin S)) :
    ∀ s : Scan S N, scan m l s = .inr ⟨s.external,
      s.fullDiag && !decide (∃ p ∈ l, p.1 ≠ p.2 ∧ (m p.1 p.2).isSome), s.cells⟩ := by
  induction l with
  | nil =>
    intro s
    simp [scan]
  | cons p l ih =>
    intro s
    obtain ⟨i, j⟩ := p
    unfold scan checkElem
    cases hm : m i j with
    | none =>
      simp only
      rw [ih s]
      congr 2
      simp [hm]
    | some e =>
      obtain ⟨h1, h2⟩ := h i j e hm
      simp only [h1, h2, Bool.not_true, Bool.false_eq_true, if_false]
      by_cases hij : i = j
      · simp only [hij, ne_eq, not_true_eq_false, if_false]
        rw [ih s]
        congr 2
        simp
      · simp only [ne_eq, hij, not_false_eq_true, if_true]
        rw [ih]
        congr 2
        simp [hij, hm]

theorem init_plain (m : Fin S → Fin S → Option (Elem N)) (unity herm : Bool) (hS : 0 < S)
    (h : Plain (complete herm m)) :
    ∃ f, (f = true ↔ ¬ Coupled (complete herm m)) ∧ (Op.new m unity herm).init =
      .ok ⟨complete herm m, unity, herm, true, N, f, none, false, none, none, (Op.new m unity herm).timeDep⟩ := by
  classical
  refine ⟨!decide (∃ p ∈ pairs S, p.1 ≠ p.2 ∧ (complete herm m p.1 p.2).isSome), ?_, ?_⟩
  · rw [Bool.not_eq_true', decide_eq_false_iff_not]
    refine not_congr ⟨?_, ?_⟩
    · rintro ⟨p, -, h1, h2⟩
      exact ⟨p.1, p.2, h1, h2⟩
    · rintro ⟨i, j, h1, h2⟩
      exact ⟨(i, j), mem_pairs i j, h1, h2⟩
  · unfold Op.init
    have hS' : S ≠ 0 := Nat.ne_of_gt hS
    simp only [Op.new, ne_eq, not_true_eq_false, if_false, hS', Bool.false_eq_true]
    rw [scan_plain _ h]
    simp

/-- The diagonal elements are there. -/
def FullDiagonal (m : Fin S → Fin S → Option (Elem N)) : Prop := ∀ i, ∃ e, m i i = some e ∧ e.od = true

theorem diagRep_full (m : Fin S → Fin S → Option (Elem N)) (h : FullDiagonal m) :
    diagRep m = some fun k x => gridMat m x k k := by
  unfold diagRep
  rw [if_pos]
  · rfl
  · rw [List.all_eq_true]
    intro k _
    obtain ⟨e, h1, h2⟩ := h k
    rw [h1]
    exact h2

theorem diagRep_missing (m : Fin S → Fin S → Option (Elem N)) (i : Fin S) (h : m i i = none) : diagRep m = none := by
  unfold diagRep
  rw [if_neg]
  rw [List.all_eq_true]
  intro hc
  have := hc i (List.mem_finRange i)
  rw [h] at this
  exact Bool.noConfusion this

/-- What the operator has computed belongs to its matrix. -/
def Good (L : Lapack S) (m : Fin S → Fin S → Option (Elem N)) (full : Bool) (o : Op S N) : Prop :=
  o.mat = m ∧ o.tArr = none ∧ o.external = false ∧ o.fullDiag = full ∧
    (o.ds = none ∨ (full = true ∧ o.ds = some fun k x => gridMat m x k k) ∨
      (full = false ∧ o.ds = some (fun k x => L.vals (gridMat m x) k) ∧
        o.xs = some fun x => L.vecs (gridMat m x)))

/-- The step for a plain matrix. -/
theorem part_good {L : Lapack S} (hL : L.Ok) (m : Fin S → Fin S → Option (Elem N)) (full : Bool) (o : Op S N)
    (h : Good L m full o) (hd : full = true → FullDiagonal m) (hf : full = true → ¬ Coupled m)
    (t : Nat) (c : ℂ) (ψ : Fin S → Fin N → ℂ) :
    ∃ o', o.part L t c ψ = .val (fun i x => (NormedSpace.exp (c • cpl (upper (gridMat m x)))).mulVec
      (fun j => ψ j x) i, o') ∧ Good L m full o' ∧ o'.unity = o.unity := by
  obtain ⟨rfl, h2, h3, h4, h5⟩ := h
  cases full with
  | true =>
    have hfin : ∀ (i : Fin S) (x : Fin N), ψ i x * Complex.exp ((gridMat o.mat x i i : ℂ) * c) =
        (NormedSpace.exp (c • cpl (upper (gridMat o.mat x)))).mulVec (fun j => ψ j x) i := by
      intro i x
      have hdg : upper (gridMat o.mat x) = Matrix.diagonal fun i => gridMat o.mat x i i := by
        ext r s
        by_cases hrs : r = s
        · subst hrs
          rw [Matrix.diagonal_apply_eq]
          unfold upper
          rw [if_pos (le_refl _)]
        · rw [Matrix.diagonal_apply_ne _ hrs]
          have hno : ∀ a b, a ≠ b → gridMat o.mat x a b = 0 := by
            intro a b hab
            unfold gridMat
            cases hab' : o.mat a b with
            | none => rfl
            | some e => exact absurd ⟨a, b, hab, by rw [hab']; rfl⟩ (hf rfl)
          unfold upper
          split
          · exact hno _ _ hrs
          · exact hno _ _ (Ne.symm hrs)
      have he := exp_decomp (1 : RMat S) (fun i => gridMat o.mat x i i) (by rw [Matrix.transpose_one, Matrix.mul_one]) c
      rw [Matrix.transpose_one, Matrix.one_mul, Matrix.mul_one, cpl_one, Matrix.one_mul, Matrix.mul_one] at he
      rw [hdg, ← he, Matrix.mulVec_diagonal, mul_comm]
    have hval : ∀ o' : Op S N, o.expo L t c =
          .val (fun s x => Complex.exp ((gridMat o.mat x s s : ℂ) * c), o') → o'.fullDiag = true →
        o.part L t c ψ = .val (fun i x => (NormedSpace.exp (c • cpl (upper (gridMat o.mat x)))).mulVec
          (fun j => ψ j x) i, o') := by
      intro o' h1 hfd
      unfold Op.part
      rw [h1]
      simp only [hfd, if_true]
      congr 2
      funext i x
      exact hfin i x
    rcases h5 with h5 | ⟨-, h5⟩ | ⟨h5, -⟩
    · refine ⟨{ o with ds := some fun k x => gridMat o.mat x k k }, hval _ ?_ h4,
        ⟨rfl, h2, h3, h4, Or.inr (Or.inl ⟨rfl, rfl⟩)⟩, rfl⟩
      unfold Op.expo
      simp only [h2, h5, Option.isNone_none, if_true, Op.initDspace, h4, Bool.true_or, diagRep_full _ (hd rfl)]
    · refine ⟨o, hval _ ?_ h4, ⟨rfl, h2, h3, h4, Or.inr (Or.inl ⟨rfl, h5⟩)⟩, rfl⟩
      unfold Op.expo
      simp only [h2, h5, Option.isNone_some, Bool.false_eq_true, if_false]
    · exact Bool.noConfusion h5
  | false =>
    have hfin : ∀ (i : Fin S) (x : Fin N), matVec (L.vecs (gridMat o.mat x)) false (fun s =>
          matVec (L.vecs (gridMat o.mat x)) true (fun s => ψ s x) s *
            (Complex.exp ((L.vals (gridMat o.mat x) s : ℂ) * c) * ((1 : ℝ) : ℂ))) i =
        (NormedSpace.exp (c • cpl (upper (gridMat o.mat x)))).mulVec (fun j => ψ j x) i := by
      intro i x
      rw [hL.decomp (gridMat o.mat x), ← exp_decomp _ _ (hL.ortho _), ← sandwich]
      simp only [Complex.ofReal_one, mul_one]
    have hval : ∀ o' : Op S N, o.expo L t c =
          .val (fun s x => Complex.exp ((L.vals (gridMat o.mat x) s : ℂ) * c), o') → o'.fullDiag = false →
          o'.external = false → o'.xs = some (fun x => L.vecs (gridMat o.mat x)) →
        o.part L t c ψ = .val (fun i x => (NormedSpace.exp (c • cpl (upper (gridMat o.mat x)))).mulVec
          (fun j => ψ j x) i, o') := by
      intro o' h1 hfd hex hxs
      unfold Op.part
      rw [h1]
      simp only [hfd, Bool.false_eq_true, if_false, Op.norm, hex, Op.transform, hxs]
      congr 2
      funext i x
      exact hfin i x
    rcases h5 with h5 | ⟨h5, -⟩ | ⟨-, h5, h6⟩
    · refine ⟨⟨o.mat, o.unity, o.herm, o.inited, o.size, o.fullDiag, o.tArr, o.external,
        some fun k x => L.vals (gridMat o.mat x) k, some fun x => L.vecs (gridMat o.mat x), o.timeDep⟩,
        hval _ ?_ h4 h3 rfl, ⟨rfl, h2, h3, h4, Or.inr (Or.inr ⟨rfl, rfl, rfl⟩)⟩, rfl⟩
      unfold Op.expo
      simp only [h2, h5, Option.isNone_none, if_true, Op.initDspace, h4, Bool.false_or, Option.isSome_none,
        Bool.false_eq_true, if_false]
    · exact Bool.noConfusion h5
    · refine ⟨o, hval _ ?_ h4 h3 h6, ⟨rfl, h2, h3, h4, Or.inr (Or.inr ⟨rfl, h5, h6⟩)⟩, rfl⟩
      unfold Op.expo
      simp only [h2, h5, Option.isNone_some, Bool.false_eq_true, if_false]

theorem steps_good {L : Lapack S} (hL : L.Ok) (m : Fin S → Fin S → Option (Elem N)) (full : Bool)
    (hd : full = true → FullDiagonal m) (hf : full = true → ¬ Coupled m)
    (l : List (Nat × ℂ × (Fin S → Fin N → ℂ))) :
    ∀ o : Op S N, Good L m full o → ∃ o', o.steps L l = .val o' ∧ Good L m full o' ∧ o'.unity = o.unity := by
  induction l with
  | nil => exact fun o h => ⟨o, rfl, h, rfl⟩
  | cons a l ih =>
    intro o h
    obtain ⟨t, c, ψ⟩ := a
    obtain ⟨o', h1, h2, h3⟩ := part_good hL m full o h hd hf t c ψ
    obtain ⟨o'', h4, h5, h6⟩ := ih o' h2
    exact ⟨o'', by simp only [Op.steps, h1, h4], h5, h6.trans h3⟩

/-- The operator which is applied at a grid point, for static potentials. -/
theorem apply_static (o : Op S N) (t : Nat) (hp : Plain o.mat) (hs : ∀ i j e, o.mat i j = some e → e.fac t = 1)
    (hu : o.unity = false ∨ ∀ i, (o.mat i i).isSome) (φ : Fin S → Fin N → ℂ) (i : Fin S) (x : Fin N) :
    o.apply t φ i x = (cpl (gridMat o.mat x)).mulVec (fun j => φ j x) i := by
  unfold Op.apply Matrix.mulVec dotProduct
  refine Finset.sum_congr rfl fun j _ => ?_
  show _ = ((gridMat o.mat x i j : ℝ) : ℂ) * φ j x
  unfold gridMat
  cases hm : o.mat i j with
  | none =>
    simp only
    rw [if_neg, Complex.ofReal_zero, zero_mul]
    rintro ⟨rfl, hun⟩
    rcases hu with hu | hu
    · rw [hu] at hun
      exact Bool.noConfusion hun
    · have := hu i
      rw [hm] at this
      exact Bool.noConfusion this
  | some e =>
    obtain ⟨h1, h2⟩ := hp i j e hm
    simp only [Elem.act, h2, hs i j e hm, mul_one]

/-- A matrix is determined by what it does. -/
theorem matrix_of_mulVec (A B : Matrix (Fin S) (Fin S) ℂ) (h : ∀ v : Fin S → ℂ, A.mulVec v = B.mulVec v) : A = B := by
  ext i j
  have := congrFun (h (Pi.single j 1)) i
  rwa [Matrix.mulVec_single_one, Matrix.mulVec_single_one] at this

/-- The matrices of an operator that acts at each grid point. -/
theorem grid_unique (f : (Fin S → Fin N → ℂ) → Fin S → Fin N → ℂ) (A B : Fin N → Matrix (Fin S) (Fin S) ℂ)
    (hA : ∀ φ i x, f φ i x = (A x).mulVec (fun j => φ j x) i)
    (hB : ∀ φ i x, f φ i x = (B x).mulVec (fun j => φ j x) i) : A = B := by
  funext x
  refine matrix_of_mulVec _ _ fun v => ?_
  funext i
  have h1 := hA (fun j _ => v j) i x
  rw [hB (fun j _ => v j) i x] at h1
  exact h1.symm

end QDng.Dms
