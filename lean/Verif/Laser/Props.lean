import Mathlib.Analysis.Normed.Algebra.MatrixExponential
import Mathlib.Tactic.Ring
import Mathlib.Tactic.Linarith
import Mathlib.Tactic.NormNum
import Mathlib.Algebra.BigOperators.Fin
import Verif.Laser.Model

/-
C54 (exponentials), C55 (pulse energy and vector potential), C76 (application in place and with addition),
C77 (the parameter `scale`), C78 (copies), C79 (clocks) and C80 (energy bounds) of laser driven operators.
-/

namespace QDng.Lasers

open QDng.Common

/-! ### C54: exponentials -/

/-- Specification: `E` is the exponential of `c` times the operator that `apply` applies. -/
def ExponentialOf {n : Nat} (apply : (Fin n → ℂ) → Ans (Fin n → ℂ)) (c : ℂ) (E : Matrix (Fin n) (Fin n) ℂ) : Prop :=
  ∃ A : Matrix (Fin n) (Fin n) ℂ, (∀ psi, apply psi = .val (A.mulVec psi)) ∧ E = NormedSpace.exp (c • A)

theorem withField_val {A : Type} (l : Laser) (e : ℝ) (h : l.get = .val e) (f : ℝ → A) : l.withField f = .val (f e) := by
  unfold Laser.withField
  rw [h]

theorem diag_exp {n : Nat} (v : Fin n → ℂ) :
    NormedSpace.exp (Matrix.diagonal v) = Matrix.diagonal fun i => Complex.exp (v i) := by
  rw [Matrix.exp_diagonal]
  congr 1
  funext i
  rw [Pi.coe_exp, Complex.exp_eq_exp_ℂ]

/-- C54: the exponential of a dipole operator is the exponential of the operator it applies, for every field value,
every dipole moment and every factor. -/
theorem C54_dipole {n : Nat} (o : Dipole n) (e : ℝ) (he : o.laser.get = .val e) (c : ℂ) :
    ∃ v, o.expo c = .val v ∧ ExponentialOf o.apply c (Matrix.diagonal v) := by
  refine ⟨_, withField_val o.laser e he _, Matrix.diagonal fun i => (o.mu i : ℂ) * ((-1 * e : ℝ) : ℂ), ?_, ?_⟩
  · intro psi
    unfold Dipole.apply
    rw [withField_val o.laser e he]
    congr 1
    funext i
    rw [Matrix.mulVec_diagonal]
    unfold multCCDd
    ring
  · rw [← Matrix.diagonal_smul, diag_exp]
    congr 1
    funext i
    unfold expCDc
    congr 1
    simp only [Pi.smul_apply, smul_eq_mul]
    push_cast
    ring

theorem mat_map_mul {n : Nat} (a b : Matrix (Fin n) (Fin n) ℝ) :
    (a * b).map (algebraMap ℝ ℂ) = a.map (algebraMap ℝ ℂ) * b.map (algebraMap ℝ ℂ) := Matrix.map_mul

/-- C54: the exponential of a matrix dipole operator, transformed back with the eigenvectors, is the exponential of
the operator it applies; that the eigenvectors are orthonormal and diagonalise the matrix is assumed of LAPACK. -/
theorem C54_matrix {n : Nat} (o : MatDipole n) (e : ℝ) (he : o.laser.get = .val e) (c : ℂ)
    (X : Matrix (Fin n) (Fin n) ℝ) (d : Fin n → ℝ) (hX : X.transpose * X = 1)
    (hM : o.mat = X * Matrix.diagonal d * X.transpose) :
    ∃ v, o.expo d c = .val v ∧
      ExponentialOf o.apply c (X.map (algebraMap ℝ ℂ) * Matrix.diagonal v * X.transpose.map (algebraMap ℝ ℂ)) := by
  refine ⟨_, withField_val o.laser e he _, ((-1 * e : ℝ) : ℂ) • o.mat.map (algebraMap ℝ ℂ), ?_, ?_⟩
  · intro psi
    unfold MatDipole.apply
    rw [withField_val o.laser e he]
    congr 1
    funext i
    rw [Matrix.smul_mulVec, Pi.smul_apply, smul_eq_mul]
    unfold matVec Matrix.mulVec dotProduct
    rw [mul_comm]
    rfl
  · set Y := X.map (algebraMap ℝ ℂ) with hY
    set Z := X.transpose.map (algebraMap ℝ ℂ) with hZ
    have hone : (1 : Matrix (Fin n) (Fin n) ℝ).map (algebraMap ℝ ℂ) = 1 :=
      Matrix.map_one _ (map_zero _) (map_one _)
    have h1 : Z * Y = 1 := by
      rw [hZ, hY, ← mat_map_mul, hX, hone]
    have h2 : Y * Z = 1 := mul_eq_one_comm.mp h1
    have hinv : Y⁻¹ = Z := Matrix.inv_eq_right_inv h2
    have hu : IsUnit Y := ⟨⟨Y, Z, h2, h1⟩, rfl⟩
    have hd : (Matrix.diagonal d).map (algebraMap ℝ ℂ) = Matrix.diagonal fun i => (d i : ℂ) := by
      rw [Matrix.diagonal_map (map_zero _)]
      rfl
    have hA : c • (((-1 * e : ℝ) : ℂ) • o.mat.map (algebraMap ℝ ℂ)) =
        Y * Matrix.diagonal (fun i => (d i : ℂ) * (-1 * c * e)) * Y⁻¹ := by
      rw [hM, mat_map_mul, mat_map_mul, hd, hinv, ← hY, ← hZ, smul_smul]
      rw [← Matrix.smul_mul, ← Matrix.mul_smul, ← Matrix.diagonal_smul]
      congr 3
      funext i
      simp only [Pi.smul_apply, smul_eq_mul]
      push_cast
      ring
    rw [hA, Matrix.exp_conj _ _ hu, diag_exp, hinv]
    rfl

/-- The assumption of `C54_matrix` is met by a matrix with two states. -/
example : let X : Matrix (Fin 2) (Fin 2) ℝ := !![(3 / 5), (4 / 5); (-4 / 5), (3 / 5)]
    X.transpose * X = 1 := by
  intro X
  ext i j
  fin_cases i <;> fin_cases j <;> simp [X, Matrix.mul_apply, Fin.sum_univ_two] <;> norm_num

/-- A laser with a field value. -/
noncomputable def oneField (e : ℝ) : Laser := { data := [e], dt := 1, scale := 1, clock := some ⟨1, 1, 0⟩ }

theorem oneField_get (e : ℝ) : (oneField e).get = .val e := by
  show Ans.val (e * 1) = _
  rw [mul_one]

/-- The hypothesis of `C54_dipole` is met. -/
example : (oneField 3).get = .val 3 := oneField_get 3

/-- C54 for a Raman operator: the exponential is that of *twice* the operator that is applied.  Missing: the factor
one half. -/
theorem C54_raman_partial {n : Nat} (o : Raman n) (e0 e1 : ℝ) (h0 : o.laser0.get = .val e0) (h1 : o.laser1.get = .val e1)
    (c : ℂ) : ∃ v, o.expo c = .val v ∧ ExponentialOf o.apply (2 * c) (Matrix.diagonal v) := by
  have hw : ∀ {A : Type} (f : ℝ → ℝ → A), o.withFields f = .val (f e0 e1) := by
    intro A f
    unfold Raman.withFields
    rw [h0, h1]
  refine ⟨_, hw _, Matrix.diagonal fun i => (o.alpha i : ℂ) * ((-0.5 * e0 * e1 : ℝ) : ℂ), ?_, ?_⟩
  · intro psi
    unfold Raman.apply
    rw [hw]
    congr 1
    funext i
    rw [Matrix.mulVec_diagonal]
    unfold multCCDd
    ring
  · rw [← Matrix.diagonal_smul, diag_exp]
    congr 1
    funext i
    unfold expCDc
    congr 1
    simp only [Pi.smul_apply, smul_eq_mul]
    push_cast
    ring

/-- C54 is violated: the exponential of a Raman operator is not that of the operator it applies. -/
theorem C54_violated_raman : ∃ (o : Raman 1) (v : Fin 1 → ℂ), o.expo 1 = .val v ∧
    ¬ ExponentialOf o.apply 1 (Matrix.diagonal v) := by
  have hv : (⟨fun _ => 1, oneField 1, oneField 1, none⟩ : Raman 1).expo 1 = .val (fun _ => Complex.exp (-1)) := by
    unfold Raman.expo Raman.withFields
    rw [oneField_get]
    dsimp only
    congr 1
    funext i
    unfold expCDc
    norm_num
  refine ⟨⟨fun _ => 1, oneField 1, oneField 1, none⟩, _, hv, ?_⟩
  rintro ⟨A, hA, hE⟩
  have hAd : A = Matrix.diagonal fun _ => (-1 / 2 : ℂ) := by
    have := hA fun _ => 1
    unfold Raman.apply Raman.withFields at this
    dsimp only at this
    rw [oneField_get] at this
    injection this with this
    have h0 := congrFun this 0
    unfold multCCDd at h0
    simp only [Matrix.mulVec, dotProduct, Fin.sum_univ_one] at h0
    ext i j
    fin_cases i
    fin_cases j
    simp only [Fin.zero_eta, Matrix.diagonal_apply_eq]
    have : A 0 0 = A 0 0 * 1 := (mul_one _).symm
    rw [this, ← h0]
    push_cast
    norm_num
  rw [hAd, one_smul, diag_exp] at hE
  have h00 := congrFun (congrFun hE 0) 0
  rw [Matrix.diagonal_apply_eq, Matrix.diagonal_apply_eq] at h00
  have hr : Real.exp (-1) = Real.exp (-1 / 2) := by
    apply Complex.ofReal_injective
    push_cast
    exact h00
  have := Real.exp_injective hr
  norm_num at this

/-! ### C55: pulse energy and vector potential -/

theorem squareLoop_eq (l : List ℝ) : ∀ d, squareLoop l d = d + (l.map fun x => x ^ 2).sum := by
  induction l with
  | nil => intro d; simp [squareLoop]
  | cons x l ih =>
    intro d
    unfold squareLoop
    rw [ih, List.map_cons, List.sum_cons]
    ring

theorem potLoop_eq (data : List ℝ) : ∀ (n t : Nat) (s : ℝ), t + n ≤ data.length →
    potLoop data n t s = .val (s + ((data.drop t).take n).sum) := by
  intro n
  induction n with
  | zero => intro t s _; simp [potLoop]
  | succ n ih =>
    intro t s h
    have ht : t < data.length := by omega
    unfold potLoop
    rw [List.getElem?_eq_getElem ht]
    dsimp only
    rw [ih (t + 1) _ (by omega), List.drop_eq_getElem_cons ht, List.take_succ_cons, List.sum_cons]
    congr 1
    ring

/-- C55: the vector potential at a step is the time step times the sum of the stored field values before it. -/
theorem C55_vector_pot (l : Laser) (c : Clock.Clock) (hc : l.clock = some c) (h0 : 0 ≤ c.step)
    (hs : c.step ≤ l.data.length) : l.vectorPot = .val (l.dt * ∑ t : Fin c.step.toNat, l.data.getD t 0) := by
  unfold Laser.vectorPot
  rw [hc]
  dsimp only
  rw [potLoop_eq l.data c.step.toNat 0 0 (by omega)]
  dsimp only
  congr 1
  rw [List.drop_zero, zero_add, mul_comm]
  congr 1
  rw [← List.sum_ofFn]
  congr 1
  apply List.ext_getElem
  · rw [List.length_take, List.length_ofFn]
    omega
  · intro i h1 h2
    rw [List.length_take] at h1
    rw [List.getElem_ofFn, List.getElem_take]
    simp only [List.getD_eq_getElem?_getD]
    rw [List.getElem?_eq_getElem (by omega)]
    rfl

/-- A case of `C55_vector_pot`. -/
example : ((some ⟨1, 3, 2⟩ : Option Clock.Clock)).isSome ∧ (0 : Int) ≤ 2 ∧ (2 : Int) ≤ ([1, 2, 3] : List ℝ).length := by
  decide

/-- C55: multiplying the stored field values by a factor multiplies the pulse energy by its square and the vector
potential by the factor; the scaling factor of the laser multiplies the value `Get` gives.  Missing: the scaling factor
in the pulse energy and in the vector potential, see the theorems below. -/
theorem C55_scaling_partial (l : Laser) (s : ℝ) (c : Clock.Clock) (hc : l.clock = some c) (h0 : 0 ≤ c.step)
    (hs : c.step < l.data.length) :
    ({ l with data := l.data.map (s * ·) } : Laser).pulseEnergy = s ^ 2 * l.pulseEnergy ∧
    (∃ a, l.vectorPot = .val a ∧ ({ l with data := l.data.map (s * ·) } : Laser).vectorPot = .val (s * a)) ∧
    (∃ e, (l.setScale 1).get = .val e ∧ (l.setScale s).get = .val (s * e)) := by
  refine ⟨?_, ?_, ?_⟩
  · unfold Laser.pulseEnergy
    dsimp only
    rw [squareLoop_eq, squareLoop_eq, List.map_map]
    have : (l.data.map ((fun x => x ^ 2) ∘ fun x => s * x)).sum = s ^ 2 * (l.data.map fun x => x ^ 2).sum := by
      rw [← List.sum_map_mul_left]
      congr 1
      apply List.map_congr_left
      intro x _
      simp only [Function.comp]
      ring
    rw [this]
    ring
  · refine ⟨_, C55_vector_pot l c hc h0 (by omega), ?_⟩
    rw [C55_vector_pot { l with data := l.data.map (s * ·) } c hc h0 (by
      show _ ≤ ((l.data.map (s * ·)).length : Int)
      rw [List.length_map]; omega)]
    dsimp only
    congr 1
    rw [mul_left_comm]
    congr 1
    rw [Finset.mul_sum]
    apply Finset.sum_congr rfl
    intro t _
    have ht : (t : Nat) < l.data.length := by
      have := t.isLt
      omega
    simp only [List.getD_eq_getElem?_getD, List.getElem?_map]
    rw [List.getElem?_eq_getElem ht]
    rfl
  · have ht : c.step.toNat < l.data.length := by omega
    have hg : ∀ x : ℝ, (l.setScale x).get = .val (l.data[c.step.toNat] * x) := by
      intro x
      unfold Laser.get Laser.setScale
      dsimp only
      rw [hc]
      dsimp only
      unfold elemAt
      rw [if_neg (by omega), List.getElem?_eq_getElem ht]
    refine ⟨_, hg 1, ?_⟩
    rw [hg]
    congr 1
    ring

/-- C55 is violated: the pulse energy of a laser with the scaling factor 2 is two instead of four times that of the
laser without. -/
theorem C55_violated_energy (l : Laser) : (l.setScale 2).pulseEnergy = 2 * (l.setScale 1).pulseEnergy := by
  unfold Laser.pulseEnergy Laser.setScale
  ring

/-- There are lasers with a pulse energy that is not zero. -/
example : (oneField 1).pulseEnergy ≠ 0 := by
  unfold Laser.pulseEnergy oneField squareLoop squareLoop
  refine mul_ne_zero (mul_ne_zero (div_ne_zero (by norm_num) (by simp)) (by norm_num)) one_ne_zero

/-- C55 is violated: the vector potential does not contain the scaling factor. -/
theorem C55_violated_vector_pot (l : Laser) (s : ℝ) : (l.setScale s).vectorPot = l.vectorPot := rfl

/-! ### C76: all ways of applying agree -/

/-- Specification: the three ways of applying an operator describe the same operator. -/
def Consistent {n : Nat} (apply applyIn : (Fin n → ℂ) → Ans (Fin n → ℂ))
    (applyAdd : (Fin n → ℂ) → (Fin n → ℂ) → Ans (Fin n → ℂ)) : Prop :=
  ∀ psi, ∃ phi, apply psi = .val phi ∧ applyIn psi = .val phi ∧
    ∀ dest, applyAdd dest psi = .val fun i => dest i + phi i

/-- C76: all ways of applying a dipole operator agree. -/
theorem C76_dipole {n : Nat} (o : Dipole n) (e : ℝ) (he : o.laser.get = .val e) :
    Consistent o.apply o.applyIn o.applyAdd := by
  intro psi
  refine ⟨_, withField_val o.laser e he _, ?_, ?_⟩
  · exact withField_val o.laser e he _
  · intro dest
    exact withField_val o.laser e he _

/-- C76: all ways of applying a matrix dipole operator agree. -/
theorem C76_matrix {n : Nat} (o : MatDipole n) (e : ℝ) (he : o.laser.get = .val e) :
    Consistent o.apply o.applyIn o.applyAdd := by
  intro psi
  refine ⟨_, withField_val o.laser e he _, ?_, ?_⟩
  · exact withField_val o.laser e he _
  · intro dest
    unfold MatDipole.applyAdd
    rw [show o.apply psi = _ from withField_val o.laser e he _]

/-- C76: the operators apply the interaction of the dipole moment with the field, `- mu E psi`, and half of that of the
polarisability with both fields, `- 1/2 alpha E E' psi`. -/
theorem C76_interaction {n : Nat} (d : Dipole n) (m : MatDipole n) (r : Raman n) (e0 e1 : ℝ)
    (hd : d.laser.get = .val e0) (hm : m.laser.get = .val e0) (hr0 : r.laser0.get = .val e0)
    (hr1 : r.laser1.get = .val e1) (psi : Fin n → ℂ) :
    d.apply psi = .val (fun i => -(d.mu i * e0) * psi i) ∧
    m.apply psi = .val (fun i => -e0 * ∑ j, m.mat i j * psi j) ∧
    r.apply psi = .val (fun i => -(r.alpha i * e0 * e1) / 2 * psi i) := by
  refine ⟨?_, ?_, ?_⟩
  · unfold Dipole.apply
    rw [withField_val _ e0 hd]
    congr 1
    funext i
    unfold multCCDd
    push_cast
    ring
  · unfold MatDipole.apply
    rw [withField_val _ e0 hm]
    congr 1
    funext i
    unfold matVec
    push_cast
    ring
  · unfold Raman.apply Raman.withFields
    rw [hr0, hr1]
    dsimp only
    congr 1
    funext i
    unfold multCCDd
    push_cast
    ring

/-- C76 for a Raman operator: application in place agrees.  Missing: application with addition. -/
theorem C76_raman_partial {n : Nat} (o : Raman n) (psi : Fin n → ℂ) : o.apply psi = o.applyIn psi := rfl

/-- C76 is violated: the sum with a Raman operator contains the polarisability without the fields, also without any
field. -/
theorem C76_violated_raman : ∃ o : Raman 1, (∀ psi, o.apply psi = .val fun _ => 0) ∧
    ∀ dest psi, o.applyAdd dest psi = .val fun i => dest i + psi i := by
  refine ⟨⟨fun _ => 1, oneField 0, oneField 0, none⟩, ?_, ?_⟩
  · intro psi
    unfold Raman.apply Raman.withFields
    rw [oneField_get]
    dsimp only
    congr 1
    funext i
    unfold multCCDd
    simp
  · intro dest psi
    unfold Raman.applyAdd
    congr 1
    funext i
    unfold addCCD
    simp

/-! ### C77: the parameter `scale` -/

theorem clockLaser_get (scale : Option ℝ) (cl : Clock.Clock) (l : Laser) (hdt : cl.dt = l.dt)
    (hn : cl.nsteps ≤ l.data.length) (h0 : 0 ≤ cl.step) (hs : cl.step < cl.nsteps) :
    ∃ l', clockLaser scale cl l = .ok l' ∧ l'.get = .val (l.data.getD cl.step.toNat 0 * scale.getD l.scale) := by
  have ht : cl.step.toNat < l.data.length := by omega
  have hset : l.setClock (some cl) = .ok { l with clock := some cl } := by
    show (if _ then _ else _) = _
    rw [if_neg]
    rintro (h | h)
    · exact h hdt
    · omega
  unfold clockLaser
  rw [hset]
  refine ⟨_, rfl, ?_⟩
  have helem : elemAt l.data cl.step = .val (l.data.getD cl.step.toNat 0) := by
    unfold elemAt
    rw [if_neg (by omega)]
    simp only [List.getD_eq_getElem?_getD]
    rw [List.getElem?_eq_getElem ht]
    rfl
  cases scale with
  | none =>
    show (Laser.get { l with clock := some cl }) = _
    unfold Laser.get
    dsimp only
    rw [helem]
    rfl
  | some s =>
    show (Laser.get (Laser.setScale { l with clock := some cl } s)) = _
    unfold Laser.get Laser.setScale
    dsimp only
    rw [helem]
    rfl

/-- C77 for matrix operators: the parameter `scale` multiplies the interaction by its value. -/
theorem C77_matrix {n : Nat} (m : Matrix (Fin n) (Fin n) ℝ) (l : Laser) (s : ℝ) (cl : Clock.Clock) (hl : l.scale = 1)
    (hdt : cl.dt = l.dt) (hn : cl.nsteps ≤ l.data.length) (h0 : 0 ≤ cl.step) (hs : cl.step < cl.nsteps) :
    ∃ o1 os : MatDipole n, (⟨m, l, none⟩ : MatDipole n).setClock cl = .ok o1 ∧
      (⟨m, l, some s⟩ : MatDipole n).setClock cl = .ok os ∧
      ∀ psi, ∃ phi, o1.apply psi = .val phi ∧ os.apply psi = .val fun i => s * phi i := by
  obtain ⟨l1, h1, g1⟩ := clockLaser_get none cl l hdt hn h0 hs
  obtain ⟨l2, h2, g2⟩ := clockLaser_get (some s) cl l hdt hn h0 hs
  refine ⟨⟨m, l1, none⟩, ⟨m, l2, some s⟩, ?_, ?_, ?_⟩
  · unfold MatDipole.setClock
    dsimp only
    rw [h1]
  · unfold MatDipole.setClock
    dsimp only
    rw [h2]
  · intro psi
    refine ⟨_, withField_val l1 _ g1 _, ?_⟩
    unfold MatDipole.apply
    rw [withField_val l2 _ g2]
    congr 1
    funext i
    rw [hl]
    simp only [Option.getD_none, Option.getD_some]
    push_cast
    ring

/-- The hypotheses of `C77_matrix` and `C77_violated_dipole` are met. -/
example : (oneField 2).scale = 1 ∧ (⟨1, 1, 0⟩ : Clock.Clock).dt = (oneField 2).dt ∧
    (⟨1, 1, 0⟩ : Clock.Clock).nsteps ≤ (oneField 2).data.length ∧ (0 : Int) < 1 := ⟨rfl, rfl, le_refl _, by decide⟩

/-- C77 for grid operators: with the parameter `scale` equal to 1 the interaction is that without it.  Missing: other
values, see the theorems below. -/
theorem C77_dipole_partial {n : Nat} (file : Fin (n + 1) → ℝ) (z : Bool) (off : ℝ) (l : Laser) (cl : Clock.Clock)
    (hl : l.scale = 1) (hdt : cl.dt = l.dt) (hn : cl.nsteps ≤ l.data.length) (h0 : 0 ≤ cl.step)
    (hs : cl.step < cl.nsteps) :
    ∃ o1 os : Dipole (n + 1), (Dipole.init file z off none l).setClock cl = .ok o1 ∧
      (Dipole.init file z off (some 1) l).setClock cl = .ok os ∧ ∀ psi, o1.apply psi = os.apply psi := by
  obtain ⟨l1, h1, g1⟩ := clockLaser_get none cl l hdt hn h0 hs
  obtain ⟨l2, h2, g2⟩ := clockLaser_get (some 1) cl l hdt hn h0 hs
  refine ⟨⟨loadPotential file z off none, l1, none⟩, ⟨loadPotential file z off (some 1), l2, some 1⟩, ?_, ?_, ?_⟩
  · unfold Dipole.setClock Dipole.init
    dsimp only
    rw [h1]
  · unfold Dipole.setClock Dipole.init
    dsimp only
    rw [h2]
  · intro psi
    unfold Dipole.apply
    rw [withField_val l1 _ g1, withField_val l2 _ g2, hl]
    rfl

/-- C77 is violated: for a dipole operator on a grid the parameter `scale` multiplies the dipole moment and the field,
and so the interaction by its square. -/
theorem C77_violated_dipole {n : Nat} (file : Fin (n + 1) → ℝ) (z : Bool) (off s : ℝ) (l : Laser) (cl : Clock.Clock)
    (hl : l.scale = 1) (hdt : cl.dt = l.dt) (hn : cl.nsteps ≤ l.data.length) (h0 : 0 ≤ cl.step)
    (hs : cl.step < cl.nsteps) :
    ∃ o1 os : Dipole (n + 1), (Dipole.init file z off none l).setClock cl = .ok o1 ∧
      (Dipole.init file z off (some s) l).setClock cl = .ok os ∧
      ∀ psi, ∃ phi, o1.apply psi = .val phi ∧ os.apply psi = .val fun i => s ^ 2 * phi i := by
  obtain ⟨l1, h1, g1⟩ := clockLaser_get none cl l hdt hn h0 hs
  obtain ⟨l2, h2, g2⟩ := clockLaser_get (some s) cl l hdt hn h0 hs
  refine ⟨⟨loadPotential file z off none, l1, none⟩, ⟨loadPotential file z off (some s), l2, some s⟩, ?_, ?_, ?_⟩
  · unfold Dipole.setClock Dipole.init
    dsimp only
    rw [h1]
  · unfold Dipole.setClock Dipole.init
    dsimp only
    rw [h2]
  · intro psi
    refine ⟨_, withField_val l1 _ g1 _, ?_⟩
    unfold Dipole.apply
    rw [withField_val l2 _ g2]
    congr 1
    funext i
    rw [hl]
    unfold multCCDd loadPotential
    simp only [Option.getD_none, Option.getD_some]
    push_cast
    ring

/-- C77 is violated: for a Raman operator the interaction is multiplied by the third power. -/
theorem C77_violated_raman {n : Nat} (file : Fin (n + 1) → ℝ) (z : Bool) (off s : ℝ) (l0 l1 : Laser) (cl : Clock.Clock)
    (hl0 : l0.scale = 1) (hl1 : l1.scale = 1) (hdt0 : cl.dt = l0.dt) (hdt1 : cl.dt = l1.dt)
    (hn0 : cl.nsteps ≤ l0.data.length) (hn1 : cl.nsteps ≤ l1.data.length) (h0 : 0 ≤ cl.step)
    (hs : cl.step < cl.nsteps) :
    ∃ o1 os : Raman (n + 1), (Raman.init file z off none l0 l1).setClock cl = .ok o1 ∧
      (Raman.init file z off (some s) l0 l1).setClock cl = .ok os ∧
      ∀ psi, ∃ phi, o1.apply psi = .val phi ∧ os.apply psi = .val fun i => s ^ 3 * phi i := by
  obtain ⟨a0, p0, g0⟩ := clockLaser_get none cl l0 hdt0 hn0 h0 hs
  obtain ⟨a1, p1, g1⟩ := clockLaser_get none cl l1 hdt1 hn1 h0 hs
  obtain ⟨b0, q0, k0⟩ := clockLaser_get (some s) cl l0 hdt0 hn0 h0 hs
  obtain ⟨b1, q1, k1⟩ := clockLaser_get (some s) cl l1 hdt1 hn1 h0 hs
  refine ⟨⟨loadPotential file z off none, a0, a1, none⟩, ⟨loadPotential file z off (some s), b0, b1, some s⟩, ?_, ?_, ?_⟩
  · unfold Raman.setClock Raman.init
    dsimp only
    rw [p0, p1]
  · unfold Raman.setClock Raman.init
    dsimp only
    rw [q0, q1]
  · intro psi
    refine ⟨_, by unfold Raman.apply Raman.withFields; dsimp only; rw [g0, g1], ?_⟩
    unfold Raman.apply Raman.withFields
    dsimp only
    rw [k0, k1]
    dsimp only
    congr 1
    funext i
    rw [hl0, hl1]
    unfold multCCDd loadPotential
    simp only [Option.getD_none, Option.getD_some]
    push_cast
    ring

/-! ### C78: copies -/

/-- C78: a copy of a dipole operator in a new operator applies the same interaction if the laser has the scaling factor
1.  Missing: other scaling factors. -/
theorem C78_copy_partial {n : Nat} (o r : Dipole n) (ho : o.laser.scale = 1) (hr : r.laser.scale = 1)
    (psi : Fin n → ℂ) : (o.copyFrom r).apply psi = r.apply psi := by
  have : o.laser.assign r.laser = r.laser := by
    cases hl : r.laser with
    | mk data dt scale clock =>
      rw [hl] at hr
      dsimp only at hr
      unfold Laser.assign
      rw [ho, hr]
  unfold Dipole.apply Dipole.copyFrom
  dsimp only
  rw [this]

/-- The hypotheses are met by a new operator. -/
example : (Laser.new 1).scale = 1 ∧ (oneField 1).scale = 1 := ⟨rfl, rfl⟩

/-- C78 is violated: a copy loses the scaling factor of the field. -/
theorem C78_violated_scale : ∃ (o r : Dipole 1) (psi : Fin 1 → ℂ), o.laser = Laser.new 1 ∧
    r.apply psi = .val (fun _ => -2) ∧ (o.copyFrom r).apply psi = .val fun _ => -1 := by
  refine ⟨⟨fun _ => 0, Laser.new 1, none⟩, ⟨fun _ => 1, (oneField 1).setScale 2, some 2⟩, fun _ => 1, rfl, ?_, ?_⟩
  · have hg : ((oneField 1).setScale 2).get = .val 2 := by
      show Ans.val (1 * 2 : ℝ) = _
      rw [one_mul]
    unfold Dipole.apply
    rw [withField_val _ 2 hg]
    congr 1
    funext i
    unfold multCCDd
    norm_num
  · have hg : ((Laser.new 1).assign ((oneField 1).setScale 2)).get = .val 1 := by
      show Ans.val (1 * 1 : ℝ) = _
      rw [one_mul]
    unfold Dipole.apply Dipole.copyFrom
    dsimp only
    rw [withField_val _ 1 hg]
    congr 1
    funext i
    unfold multCCDd
    norm_num

/-! ### C79: clocks -/

/-- C79: if a clock is accepted, the laser has a field value at each of its steps. -/
theorem C79_accepted (l l' : Laser) (c : Clock.Clock) (h : l.setClock (some c) = .ok l') (k : Int) (h0 : 0 ≤ k)
    (hk : k < c.nsteps) : ∃ e ∈ l.data, ({ l' with clock := some (c.setStep k) } : Laser).get = .val (e * l.scale) := by
  unfold Laser.setClock at h
  dsimp only at h
  split at h
  · cases h
  · rename_i hn
    cases h
    have ht : k.toNat < l.data.length := by
      have : ¬ c.nsteps > l.data.length := fun hh => hn (Or.inr hh)
      omega
    refine ⟨l.data[k.toNat], List.getElem_mem _, ?_⟩
    unfold Laser.get Clock.Clock.setStep elemAt
    dsimp only
    rw [if_neg (by omega), List.getElem?_eq_getElem ht]

/-- A clock that is accepted. -/
example : ∃ l, (oneField 1).setClock (some ⟨1, 1, 0⟩) = .ok l := by
  refine ⟨_, if_neg ?_⟩
  rintro (h | h)
  · exact h rfl
  · exact absurd h (by decide)

/-- C79: a clock with another time step or with more steps than the field has values is rejected. -/
theorem C79_rejected (l : Laser) (c : Clock.Clock) (h : c.dt ≠ l.dt ∨ (l.data.length : Int) < c.nsteps) :
    ∃ l', l.setClock (some c) = .threw l' := ⟨_, if_pos h⟩

/-- C79: a value set at a step is the value given at this step, scaled; the values at other steps stay. -/
theorem C79_set_get (l : Laser) (c : Clock.Clock) (hc : l.clock = some c) (h0 : 0 ≤ c.step) (hs : c.step < l.data.length)
    (v : ℝ) : ∃ l', l.set v = .ok l' ∧ l'.get = .val (v * l.scale) ∧
      ∀ k, k ≠ c.step → ({ l' with clock := some (c.setStep k) } : Laser).get =
        ({ l with clock := some (c.setStep k) } : Laser).get := by
  have ht : c.step.toNat < l.data.length := by omega
  have hset : l.set v = .ok { l with data := l.data.set c.step.toNat v } := by
    unfold Laser.set
    rw [hc]
    dsimp only
    rw [if_neg (by omega)]
  refine ⟨_, hset, ?_, ?_⟩
  · unfold Laser.get
    dsimp only
    rw [hc]
    dsimp only
    unfold elemAt
    rw [if_neg (by omega), List.getElem?_set_self ht]
  · intro k hk
    unfold Laser.get Clock.Clock.setStep elemAt
    dsimp only
    by_cases hneg : k < 0
    · rw [if_pos hneg, if_pos hneg]
    · rw [if_neg hneg, if_neg hneg, List.getElem?_set_ne (by omega)]

/-- The hypotheses of `C79_set_get` are met. -/
example : (oneField 1).clock = some ⟨1, 1, 0⟩ ∧ (0 : Int) < (oneField 1).data.length := ⟨rfl, by decide⟩

/-- C79 is violated: a rejected clock is kept all the same, and the next access is outside of the field. -/
theorem C79_violated_kept : ∃ (l l' : Laser) (c : Clock.Clock), l.setClock (some c) = .threw l' ∧
    l'.clock = some c ∧ l'.get = .ub := by
  refine ⟨oneField 1, { oneField 1 with clock := some ⟨1, 2, 1⟩ }, ⟨1, 2, 1⟩, if_pos (Or.inr ?_), rfl, rfl⟩
  show (2 : Int) > 1
  decide

/-! ### C80: energy bounds -/

theorem vecMax_ge (l : List ℝ) : ∀ d, d ≤ vecMax d l ∧ ∀ x ∈ l, x ≤ vecMax d l := by
  induction l with
  | nil => intro d; exact ⟨le_refl _, by simp⟩
  | cons y l ih =>
    intro d
    unfold vecMax
    obtain ⟨h1, h2⟩ := ih (if y > d then y else d)
    have hy : y ≤ if y > d then y else d := by split_ifs with h <;> linarith
    have hd : d ≤ if y > d then y else d := by split_ifs with h <;> linarith
    refine ⟨hd.trans h1, ?_⟩
    intro x hx
    rcases List.mem_cons.mp hx with rfl | hx
    · exact hy.trans h1
    · exact h2 x hx

/-- C80: the upper bound holds for a dipole moment that is nowhere negative and a field without scaling factor whose
smallest values are not below the negative of a value that occurs.  Missing: other dipole moments, fields and scaling
factors, and the lower bound. -/
theorem C80_emax_partial {n : Nat} (o : Dipole (n + 1)) (hmu : ∀ i, 0 ≤ o.mu i)
    (hE : ∀ x ∈ o.laser.data, ∃ y ∈ o.laser.data, -x ≤ y) (e : ℝ) (he : e ∈ o.laser.data) (i : Fin (n + 1)) :
    ∃ m, o.emax = .val m ∧ -(o.mu i) * e ≤ m := by
  unfold Dipole.emax
  cases hd : o.laser.data with
  | nil => rw [hd] at he; simp at he
  | cons a as =>
    rw [hd] at he hE
    refine ⟨_, rfl, ?_⟩
    obtain ⟨y, hy, hxy⟩ := hE e he
    have h1 := (vecMax_ge (a :: as) a).2 y hy
    have h2 := (vecMax_ge (List.ofFn o.mu) (o.mu 0)).2 (o.mu i) (by rw [List.mem_ofFn]; exact ⟨i, rfl⟩)
    have hm : 0 ≤ vecMax (o.mu 0) (List.ofFn o.mu) := (hmu i).trans h2
    -- the largest field value is not negative
    obtain ⟨z, hz, hyz⟩ := hE y hy
    have h3 := (vecMax_ge (a :: as) a).2 z hz
    have hM : 0 ≤ vecMax a (a :: as) := by
      by_contra hneg
      push Not at hneg
      linarith
    calc -(o.mu i) * e = o.mu i * (-e) := by ring
      _ ≤ o.mu i * vecMax a (a :: as) := mul_le_mul_of_nonneg_left (hxy.trans h1) (hmu i)
      _ ≤ _ := mul_le_mul_of_nonneg_right h2 hM

/-- The hypotheses are met by a field that changes its sign. -/
example : ∀ x ∈ ([1, -1] : List ℝ), ∃ y ∈ ([1, -1] : List ℝ), -x ≤ y := by
  intro x hx
  refine ⟨1, by simp, ?_⟩
  rcases List.mem_cons.mp hx with rfl | hx
  · norm_num
  · rw [List.mem_singleton] at hx
    subst hx
    norm_num

/-- C80 is violated: with a positive dipole moment and a positive field the only eigenvalue is below the lower bound. -/
theorem C80_violated_emin : ∃ o : Dipole 1, o.laser.get = .val 1 ∧ (∀ psi, o.apply psi = .val fun i => -1 * psi i) ∧
    (-1 : ℝ) < o.emin := by
  refine ⟨⟨fun _ => 1, oneField 1, none⟩, oneField_get 1, ?_, ?_⟩
  · intro psi
    unfold Dipole.apply
    rw [withField_val _ 1 (oneField_get 1)]
    congr 1
    funext i
    unfold multCCDd
    push_cast
    ring
  · show (-1 : ℝ) < 0
    norm_num

/-- C80 is violated: with a negative dipole moment and a positive field the eigenvalue is above the upper bound. -/
theorem C80_violated_emax : ∃ o : Dipole 1, (∀ psi, o.apply psi = .val fun i => 1 * psi i) ∧ o.emax = .val (-1) := by
  refine ⟨⟨fun _ => -1, oneField 1, none⟩, ?_, ?_⟩
  · intro psi
    unfold Dipole.apply
    rw [withField_val _ 1 (oneField_get 1)]
    congr 1
    funext i
    unfold multCCDd
    push_cast
    ring
  · unfold Dipole.emax oneField
    dsimp only
    congr 1
    simp [vecMax, List.ofFn_succ]

end QDng.Lasers
