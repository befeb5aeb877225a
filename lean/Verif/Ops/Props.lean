import Verif.Ops.Model
import Mathlib.Algebra.BigOperators.Group.List.Basic
import Mathlib.Data.Int.Basic
import Mathlib.Tactic.Ring

/-
Properties of operator sums and products (C24) and of matrix elements (C70).
-/

namespace QDng.Ops

open QDng.Common

/-! ### Specification -/

/-- The object `O` acts as the map `f` on wave functions: out of place application stores `f` of the
source in the destination, in place application replaces the value by `f` of it, additive application
adds `f` of the source to the destination; in each case no other wave function changes.  `own` are the
scratch objects of the operator and its parts, which nobody else may use. -/
structure ActsAs {V : Type} [Add V] (O : OpImpl V) (own : Nat → Prop) (f : V → V) : Prop where
  app : ∀ d s σ, ¬ own d → ¬ own s → d ≠ s →
    ∃ σ', O.app d s σ = .ok σ' ∧ σ' d = f (σ s) ∧ ∀ a, ¬ own a → a ≠ d → σ' a = σ a
  inp : ∀ p σ, ¬ own p →
    ∃ σ', O.inp p σ = .ok σ' ∧ σ' p = f (σ p) ∧ ∀ a, ¬ own a → a ≠ p → σ' a = σ a
  add : ∀ d s σ, ¬ own d → ¬ own s → d ≠ s →
    ∃ σ', O.add d s σ = .ok σ' ∧ σ' d = σ d + f (σ s) ∧ ∀ a, ¬ own a → a ≠ d → σ' a = σ a
  parent : ∀ d s σ, ¬ own d → ¬ own s → d ≠ s →
    ∃ σ', O.parent d s σ = .ok σ' ∧ σ' d = f (σ s) ∧ ∀ a, ¬ own a → a ≠ d → σ' a = σ a

/-- Each operator of the list acts as the map at the same position. -/
def ActAs {V : Type} [Add V] (own : Nat → Prop) : List (OpImpl V) → List (V → V) → Prop
  | [], [] => True
  | o :: os, f :: fs => ActsAs o own f ∧ ActAs own os fs
  | _, _ => False

/-! ### Lemmas -/

theorem put_same {V : Type} (σ : Store V) (a : Nat) (v : V) : put σ a v a = v := by simp [put]

theorem put_ne {V : Type} (σ : Store V) {a b : Nat} (v : V) (h : b ≠ a) : put σ a v b = σ b := by
  simp [put, h]

/-- The contract of `Apply(dest, source)` alone. -/
def ToActs {V : Type} (app : Nat → Nat → Store V → Out (Store V)) (own : Nat → Prop) (f : V → V) :
    Prop :=
  ∀ d s σ, ¬ own d → ¬ own s → d ≠ s →
    ∃ σ', app d s σ = .ok σ' ∧ σ' d = f (σ s) ∧ ∀ a, ¬ own a → a ≠ d → σ' a = σ a

theorem defaultAdd_acts {V : Type} [Add V] {app : Nat → Nat → Store V → Out (Store V)}
    {own own' : Nat → Prop} {f : V → V} (h : ToActs app own f) (b : Nat) (junk : V)
    (hb : ¬ own b) (hb' : own' b) (ho : ∀ a, own a → own' a) (d s : Nat) (σ : Store V)
    (hd : ¬ own' d) (hs : ¬ own' s) :
    ∃ σ', defaultAdd b junk app d s σ = .ok σ' ∧ σ' d = σ d + f (σ s) ∧
      ∀ a, ¬ own' a → a ≠ d → σ' a = σ a := by
  have hbd : d ≠ b := fun e => hd (e ▸ hb')
  have hbs : s ≠ b := fun e => hs (e ▸ hb')
  obtain ⟨σ1, h1, h2, h3⟩ := h b s (put σ b junk) hb (fun e => hs (ho s e)) (Ne.symm hbs)
  refine ⟨put (put σ1 d (σ1 d + σ1 b)) b junk, ?_, ?_, ?_⟩
  · simp only [defaultAdd, h1, Out.bind]
  · rw [put_ne _ _ hbd, put_same, h2, h3 d (fun e => hd (ho d e)) hbd, put_ne _ _ hbd,
      put_ne _ _ hbs]
  · intro a ha hne
    have hba : a ≠ b := fun e => ha (e ▸ hb')
    rw [put_ne _ _ hba, put_ne _ _ hne, h3 a (fun e => ha (ho a e)) hba, put_ne _ _ hba]

theorem ToActs.widen {V : Type} {app : Nat → Nat → Store V → Out (Store V)}
    {own own' : Nat → Prop} {f : V → V} (h : ToActs app own f) (ho : ∀ a, own a → own' a) :
    ToActs app own' f := by
  intro d s σ hd hs hne
  obtain ⟨σ', h1, h2, h3⟩ := h d s σ (fun e => hd (ho d e)) (fun e => hs (ho s e)) hne
  exact ⟨σ', h1, h2, fun a ha => h3 a (fun e => ha (ho a e))⟩

theorem each_add {V : Type} [AddMonoid V] {own : Nat → Prop} (ops : List (OpImpl V)) :
    ∀ (fs : List (V → V)), ActAs own ops fs → ∀ d s σ, ¬ own d → ¬ own s → d ≠ s →
    ∃ σ', each (fun o => o.add d s) ops σ = .ok σ' ∧
      σ' d = σ d + (fs.map (fun f => f (σ s))).sum ∧ ∀ a, ¬ own a → a ≠ d → σ' a = σ a := by
  induction ops with
  | nil =>
    intro fs h d s σ _ _ _
    cases fs with
    | nil => exact ⟨σ, rfl, by simp, fun _ _ _ => rfl⟩
    | cons f fs => exact absurd h (by simp [ActAs])
  | cons o os ih =>
    intro fs h d s σ hd hs hne
    cases fs with
    | nil => exact absurd h (by simp [ActAs])
    | cons f fs =>
      obtain ⟨ho, hos⟩ := h
      obtain ⟨σ1, h1, h2, h3⟩ := ho.add d s σ hd hs hne
      obtain ⟨σ2, k1, k2, k3⟩ := ih fs hos d s σ1 hd hs hne
      refine ⟨σ2, by simp only [each, h1, Out.bind, k1], ?_, fun a ha hn => by rw [k3 a ha hn, h3 a ha hn]⟩
      rw [k2, h2, h3 s hs (Ne.symm hne), List.map_cons, List.sum_cons, add_assoc]

theorem each_parent {V : Type} [AddMonoid V] {own own' : Nat → Prop} (wb : Nat) (hwb : ¬ own wb)
    (hwb' : own' wb) (ho' : ∀ a, own a → own' a) (ops : List (OpImpl V)) :
    ∀ (fs : List (V → V)), ActAs own ops fs → ∀ d s σ, ¬ own' d → ¬ own' s → d ≠ s →
    ∃ σ', each (sumParentRound wb d s) ops σ = .ok σ' ∧
      σ' d = σ d + (fs.map (fun f => f (σ s))).sum ∧ ∀ a, ¬ own' a → a ≠ d → σ' a = σ a := by
  induction ops with
  | nil =>
    intro fs h d s σ _ _ _
    cases fs with
    | nil => exact ⟨σ, rfl, by simp, fun _ _ _ => rfl⟩
    | cons f fs => exact absurd h (by simp [ActAs])
  | cons o os ih =>
    intro fs h d s σ hd hs hne
    cases fs with
    | nil => exact absurd h (by simp [ActAs])
    | cons f fs =>
      obtain ⟨ho, hos⟩ := h
      have hbs : s ≠ wb := fun e => hs (e ▸ hwb')
      have hbd : d ≠ wb := fun e => hd (e ▸ hwb')
      obtain ⟨σ1, h1, h2, h3⟩ := ho.parent wb s σ hwb (fun e => hs (ho' s e)) (Ne.symm hbs)
      obtain ⟨σ2, k1, k2, k3⟩ := ih fs hos d s (put σ1 d (σ1 d + σ1 wb)) hd hs hne
      have hs1 : σ1 s = σ s := h3 s (fun e => hs (ho' s e)) hbs
      refine ⟨σ2, by simp only [each, sumParentRound, h1, Out.bind, k1], ?_, ?_⟩
      · rw [k2, put_same, h2, h3 d (fun e => hd (ho' d e)) hbd, put_ne _ _ (Ne.symm hne), hs1,
          List.map_cons, List.sum_cons, add_assoc]
      · intro a ha hn
        have hba : a ≠ wb := fun e => ha (e ▸ hwb')
        rw [k3 a ha hn, put_ne _ _ hn, h3 a (fun e => ha (ho' a e)) hba]

theorem sumTo_acts {V : Type} [AddMonoid V] {own : Nat → Prop} {ops : List (OpImpl V)}
    {fs : List (V → V)} (h : ActAs own ops fs) (hne : ops ≠ []) :
    ToActs (sumTo ops) own (fun x => (fs.map (fun f => f x)).sum) := by
  intro d s σ hd hs hds
  cases ops with
  | nil => exact absurd rfl hne
  | cons o os =>
    cases fs with
    | nil => exact absurd h (by simp [ActAs])
    | cons f fs =>
      obtain ⟨ho, hos⟩ := h
      obtain ⟨σ1, h1, h2, h3⟩ := ho.app d s σ hd hs hds
      obtain ⟨σ2, k1, k2, k3⟩ := each_add os fs hos d s σ1 hd hs hds
      refine ⟨σ2, by simp only [sumTo, h1, Out.bind, k1], ?_, fun a ha hn => by rw [k3 a ha hn, h3 a ha hn]⟩
      dsimp only
      rw [k2, h2, h3 s hs (Ne.symm hds), List.map_cons, List.sum_cons]

/-- The composition of a list of maps, the first one applied last. -/
def compose {V : Type} : List (V → V) → V → V
  | [], x => x
  | f :: fs, x => f (compose fs x)

theorem each_in {V : Type} [Add V] {own : Nat → Prop} (ops : List (OpImpl V)) :
    ∀ (fs : List (V → V)), ActAs own ops fs → ∀ p σ, ¬ own p →
    ∃ σ', each (fun o => o.inp p) ops σ = .ok σ' ∧
      σ' p = fs.foldl (fun x f => f x) (σ p) ∧ ∀ a, ¬ own a → a ≠ p → σ' a = σ a := by
  induction ops with
  | nil =>
    intro fs h p σ _
    cases fs with
    | nil => exact ⟨σ, rfl, by simp, fun _ _ _ => rfl⟩
    | cons f fs => exact absurd h (by simp [ActAs])
  | cons o os ih =>
    intro fs h p σ hp
    cases fs with
    | nil => exact absurd h (by simp [ActAs])
    | cons f fs =>
      obtain ⟨ho, hos⟩ := h
      obtain ⟨σ1, h1, h2, h3⟩ := ho.inp p σ hp
      obtain ⟨σ2, k1, k2, k3⟩ := ih fs hos p σ1 hp
      refine ⟨σ2, by simp only [each, h1, Out.bind, k1], ?_, fun a ha hn => by rw [k3 a ha hn, h3 a ha hn]⟩
      rw [k2, h2, List.foldl_cons]

theorem actAs_append {V : Type} [Add V] {own : Nat → Prop} (os : List (OpImpl V)) :
    ∀ (fs : List (V → V)) (o : OpImpl V) (f : V → V), ActAs own os fs → ActsAs o own f →
      ActAs own (os ++ [o]) (fs ++ [f]) := by
  induction os with
  | nil =>
    intro fs o f h ho
    cases fs with
    | nil => exact ⟨ho, trivial⟩
    | cons f fs => exact absurd h (by simp [ActAs])
  | cons o' os ih =>
    intro fs o f h ho
    cases fs with
    | nil => exact absurd h (by simp [ActAs])
    | cons f' fs => exact ⟨h.1, ih fs o f h.2 ho⟩

theorem actAs_reverse {V : Type} [Add V] {own : Nat → Prop} (os : List (OpImpl V)) :
    ∀ (fs : List (V → V)), ActAs own os fs → ActAs own os.reverse fs.reverse := by
  induction os with
  | nil =>
    intro fs h
    cases fs with
    | nil => trivial
    | cons f fs => exact absurd h (by simp [ActAs])
  | cons o os ih =>
    intro fs h
    cases fs with
    | nil => exact absurd h (by simp [ActAs])
    | cons f fs =>
      rw [List.reverse_cons, List.reverse_cons]
      exact actAs_append _ _ _ _ (ih fs h.2) h.1

theorem foldl_compose {V : Type} (fs : List (V → V)) (x : V) :
    fs.reverse.foldl (fun x f => f x) x = compose fs x := by
  induction fs with
  | nil => rfl
  | cons f fs ih => rw [List.reverse_cons, List.foldl_append, ih]; rfl

theorem prodTo_acts {V : Type} [Add V] {own : Nat → Prop} {ops : List (OpImpl V)}
    {fs : List (V → V)} (h : ActAs own ops fs) (hne : ops ≠ []) :
    ToActs (prodTo ops) own (compose fs) := by
  intro d s σ hd hs hds
  have hr := actAs_reverse ops fs h
  rw [← foldl_compose]
  unfold prodTo
  cases e : ops.reverse with
  | nil => exact absurd (List.reverse_eq_nil_iff.1 e) hne
  | cons o os =>
    rw [e] at hr
    cases e' : fs.reverse with
    | nil => rw [e'] at hr; exact absurd hr (by simp [ActAs])
    | cons f gs =>
      rw [e'] at hr
      obtain ⟨σ1, h1, h2, h3⟩ := hr.1.app d s σ hd hs hds
      obtain ⟨σ2, k1, k2, k3⟩ := each_in os gs hr.2 d σ1 hd
      refine ⟨σ2, by simp only [h1, Out.bind, k1], ?_, fun a ha hn => by rw [k3 a ha hn, h3 a ha hn]⟩
      rw [k2, h2, List.foldl_cons]

/-! ### C24 -/

/-- C24: an operator that implements out of place application as `f` and inherits the rest acts as `f`
in every variant. -/
theorem C24_default {V : Type} [Add V] (app : Nat → Nat → Store V → Out (Store V)) (own : Nat → Prop)
    (f : V → V) (h : ToActs app own f) (b b1 : Nat) (junk : V) (hb : ¬ own b) (hb1 : ¬ own b1) :
    ActsAs (withDefaults b b1 junk app) (fun a => own a ∨ a = b ∨ a = b1) f := by
  have hw : ToActs app (fun a => own a ∨ a = b ∨ a = b1) f := h.widen (fun a => Or.inl)
  refine ⟨hw, ?_, ?_, hw⟩
  · intro p σ hp
    have hpb : p ≠ b := fun e => hp (Or.inr (Or.inl e))
    obtain ⟨σ1, h1, h2, h3⟩ := h p b (put (put σ b junk) b (put σ b junk p))
      (fun e => hp (Or.inl e)) hb hpb
    refine ⟨put σ1 b junk, by simp only [withDefaults, defaultIn, h1, Out.bind], ?_, ?_⟩
    · rw [put_ne _ _ hpb, h2, put_same, put_ne _ _ hpb]
    · intro a ha hn
      have hab : a ≠ b := fun e => ha (Or.inr (Or.inl e))
      rw [put_ne _ _ hab, h3 a (fun e => ha (Or.inl e)) hn, put_ne _ _ hab, put_ne _ _ hab]
  · intro d s σ hd hs _
    exact defaultAdd_acts h b1 junk hb1 (Or.inr (Or.inr rfl)) (fun a => Or.inl) d s σ hd hs

/-- C24: a sum with at least one entry acts, in every variant, as the sum of what its entries do; the
entries need not be linear. -/
theorem C24_sum {V : Type} [AddMonoid V] (ops : List (OpImpl V)) (fs : List (V → V))
    (own : Nat → Prop) (h : ActAs own ops fs) (hne : ops ≠ []) (wb b1 : Nat) (junk : V)
    (hwb : ¬ own wb) (hb1 : ¬ own b1) :
    ActsAs (sumOp ops wb b1 junk) (fun a => own a ∨ a = wb ∨ a = b1)
      (fun x => (fs.map (fun f => f x)).sum) := by
  have hto := sumTo_acts h hne
  refine ⟨hto.widen (fun a => Or.inl), ?_, ?_, ?_⟩
  · intro p σ hp
    have hpb : p ≠ wb := fun e => hp (Or.inr (Or.inl e))
    have hpo : ¬ own p := fun e => hp (Or.inl e)
    cases ops with
    | nil => exact absurd rfl hne
    | cons o os =>
      cases fs with
      | nil => exact absurd h (by simp [ActAs])
      | cons f fs =>
        obtain ⟨ho, hos⟩ := h
        obtain ⟨σ1, h1, h2, h3⟩ := ho.inp p (put (put σ wb junk) wb (put σ wb junk p)) hpo
        obtain ⟨σ2, k1, k2, k3⟩ := each_add os fs hos p wb σ1 hpo hwb hpb
        refine ⟨put σ2 wb junk, by simp only [sumOp, sumIn, h1, Out.bind, k1], ?_, ?_⟩
        · rw [put_ne _ _ hpb, k2, h2, h3 wb hwb (Ne.symm hpb), put_same, put_ne _ _ hpb, put_ne _ _ hpb,
            List.map_cons, List.sum_cons]
        · intro a ha hn
          have hab : a ≠ wb := fun e => ha (Or.inr (Or.inl e))
          have hao : ¬ own a := fun e => ha (Or.inl e)
          rw [put_ne _ _ hab, k3 a hao hn, h3 a hao hn, put_ne _ _ hab, put_ne _ _ hab]
  · intro d s σ hd hs _
    exact defaultAdd_acts hto b1 junk hb1 (Or.inr (Or.inr rfl)) (fun a => Or.inl) d s σ hd hs
  · intro d s σ hd hs hds
    have hdb : d ≠ wb := fun e => hd (Or.inr (Or.inl e))
    have hsb : s ≠ wb := fun e => hs (Or.inr (Or.inl e))
    cases ops with
    | nil => exact absurd rfl hne
    | cons o os =>
      cases fs with
      | nil => exact absurd h (by simp [ActAs])
      | cons f fs =>
        obtain ⟨ho, hos⟩ := h
        obtain ⟨σ1, h1, h2, h3⟩ := ho.parent d s (put σ wb junk) (fun e => hd (Or.inl e))
          (fun e => hs (Or.inl e)) hds
        obtain ⟨σ2, k1, k2, k3⟩ := each_parent (own' := fun a => own a ∨ a = wb ∨ a = b1) wb hwb
          (Or.inr (Or.inl rfl)) (fun a => Or.inl) os fs hos d s σ1 hd hs hds
        refine ⟨put σ2 wb junk, by simp only [sumOp, sumParent, h1, Out.bind, k1], ?_, ?_⟩
        · rw [put_ne _ _ hdb, k2, h2, h3 s (fun e => hs (Or.inl e)) (Ne.symm hds), put_ne _ _ hsb,
            List.map_cons, List.sum_cons]
        · intro a ha hn
          have hab : a ≠ wb := fun e => ha (Or.inr (Or.inl e))
          rw [put_ne _ _ hab, k3 a ha hn, h3 a (fun e => ha (Or.inl e)) hn, put_ne _ _ hab]

/-- C24: a product with at least one entry acts as the composition of its entries, the first entry
applied last, in the out of place, the in place and the additive variant. -/
theorem C24_product {V : Type} [Add V] (ops : List (OpImpl V)) (fs : List (V → V))
    (own : Nat → Prop) (h : ActAs own ops fs) (hne : ops ≠ []) (b1 : Nat) (junk : V)
    (hb1 : ¬ own b1) :
    let O := prodOp ops b1 junk
    let own' := fun a => own a ∨ a = b1
    (∀ d s σ, ¬ own' d → ¬ own' s → d ≠ s →
      ∃ σ', O.app d s σ = .ok σ' ∧ σ' d = compose fs (σ s) ∧ ∀ a, ¬ own' a → a ≠ d → σ' a = σ a) ∧
    (∀ p σ, ¬ own' p →
      ∃ σ', O.inp p σ = .ok σ' ∧ σ' p = compose fs (σ p) ∧ ∀ a, ¬ own' a → a ≠ p → σ' a = σ a) ∧
    (∀ d s σ, ¬ own' d → ¬ own' s → d ≠ s →
      ∃ σ', O.add d s σ = .ok σ' ∧ σ' d = σ d + compose fs (σ s) ∧
        ∀ a, ¬ own' a → a ≠ d → σ' a = σ a) := by
  have hto := prodTo_acts h hne
  refine ⟨hto.widen (fun a => Or.inl), ?_, ?_⟩
  · intro p σ hp
    obtain ⟨σ1, h1, h2, h3⟩ := each_in _ _ (actAs_reverse ops fs h) p σ (fun e => hp (Or.inl e))
    exact ⟨σ1, h1, by rw [h2, foldl_compose], fun a ha => h3 a (fun e => ha (Or.inl e))⟩
  · intro d s σ hd hs _
    exact defaultAdd_acts hto b1 junk hb1 (Or.inr rfl) (fun a => Or.inl) d s σ hd hs

/-- C24: applying an empty sum throws, in every variant, and leaves all wave functions but the scratch
object of the sum as they are. -/
theorem C24_empty_sum {V : Type} [AddMonoid V] (wb b1 : Nat) (junk : V) (d s : Nat) (σ : Store V) :
    ∃ σ1 σ2 σ3 σ4, (sumOp [] wb b1 junk).app d s σ = .threw σ1 ∧
      (sumOp [] wb b1 junk).inp d σ = .threw σ2 ∧ (sumOp [] wb b1 junk).add d s σ = .threw σ3 ∧
      (sumOp [] wb b1 junk).parent d s σ = .threw σ4 ∧
      ∀ a, a ≠ wb → a ≠ b1 → σ1 a = σ a ∧ σ2 a = σ a ∧ σ3 a = σ a ∧ σ4 a = σ a := by
  refine ⟨_, _, _, _, rfl, rfl, rfl, rfl, ?_⟩
  intro a h1 h2
  simp [put, h1, h2]

/-- C24 is violated for empty products: the in place variant silently acts as the identity, the others
read in front of the array of entries. -/
theorem C24_violated_empty_product {V : Type} [Add V] (b1 : Nat) (junk : V) (d s : Nat)
    (σ : Store V) : (prodOp [] b1 junk).inp d σ = .ok σ ∧ (prodOp [] b1 junk).app d s σ = .ub :=
  ⟨rfl, rfl⟩

theorem scalar_acts {V : Type} [NonUnitalNonAssocSemiring V] (c : V) (b1 : Nat) (junk : V) :
    ActsAs (scalarOp c b1 junk) (fun a => a = b1) (fun x => x * c) := by
  have hto : ToActs (scalarOp c b1 junk).app (fun _ => False) (fun x => x * c) := by
    intro d s σ _ _ hds
    exact ⟨_, rfl, by simp [put], fun a _ hn => by simp [put, hn]⟩
  refine ⟨hto.widen (fun a h => absurd h id), ?_, ?_, hto.widen (fun a h => absurd h id)⟩
  · intro p σ _
    exact ⟨_, rfl, by simp [put], fun a _ hn => by simp [put, hn]⟩
  · intro d s σ hd hs _
    exact defaultAdd_acts (own' := fun a => a = b1) hto b1 junk id rfl (fun a h => absurd h id) d s σ hd hs

/-- C24: the operator that multiplies with a number meets the requirement on entries. -/
theorem C24_scalar (c : ℤ) (b1 : Nat) (junk : ℤ) :
    ActsAs (scalarOp c b1 junk) (fun a => a = b1) (fun x => x * c) := scalar_acts c b1 junk

/-- The hypotheses of `C24_sum` and `C24_product` are met by two scalars; a sum is again a possible
entry. -/
example (junk : ℤ) : ActAs (fun a => a = 9) [scalarOp (2 : ℤ) 9 junk, scalarOp 3 9 junk]
    [fun x => x * 2, fun x => x * 3] ∧ ¬ (10 = 9) ∧
    ∃ σ, (sumOp [scalarOp (2 : ℤ) 9 junk, scalarOp 3 9 junk] 10 11 junk).app 0 1 (fun a => a) = .ok σ ∧
      σ 0 = 5 := by
  refine ⟨⟨scalar_acts 2 9 junk, scalar_acts 3 9 junk, trivial⟩, by decide, _, rfl, ?_⟩
  simp [put]

/-- C24 is violated for `ApplyParent` of a product: it calls the entries with the same wave function as
source and destination.  For the product of the identity-like scalar 1 and the sum 2 + 3 the result of
applying it to 1 is 8 instead of 5, although `Apply` gives 5. -/
theorem C24_violated_parent :
    let sum := sumOp [scalarOp (2 : ℤ) 9 0, scalarOp 3 9 0] 10 11 0
    let prod := prodOp [sum, scalarOp 1 9 0] 12 0
    (∃ σ, prod.parent 0 1 (fun _ => 1) = .ok σ ∧ σ 0 = 8) ∧
    (∃ σ, prod.app 0 1 (fun _ => 1) = .ok σ ∧ σ 0 = 5) := by
  refine ⟨⟨_, rfl, ?_⟩, ⟨_, rfl, ?_⟩⟩ <;> simp [put]

/-! ### C70 -/

/-- C70: the matrix element of an operator that acts as `f` is the scalar product of the bra with `f` of
the ket, and neither bra nor ket nor any other wave function changes. -/
theorem C70_matrix_element {V K : Type} [Add V] (inner : V → V → K) (O : OpImpl V)
    (own : Nat → Prop) (f : V → V) (h : ActsAs O own f) (b : Nat) (hb : ¬ own b) (junk : V)
    (bra ket : Nat) (hbra : ¬ own bra ∧ bra ≠ b) (hket : ¬ own ket ∧ ket ≠ b) (σ : Store V) :
    ∃ σ', matrixElement inner b junk O.app bra ket σ = some (σ', inner (σ bra) (f (σ ket))) ∧
      ∀ a, ¬ own a → a ≠ b → σ' a = σ a := by
  obtain ⟨σ1, h1, h2, h3⟩ := h.app b ket (put σ b junk) hb hket.1 (Ne.symm hket.2)
  refine ⟨put σ1 b junk, ?_, ?_⟩
  · simp only [matrixElement, h1]
    rw [h2, h3 bra hbra.1 hbra.2, put_ne _ _ hket.2, put_ne _ _ hbra.2]
  · intro a ha hab
    rw [put_ne _ _ hab, h3 a ha hab, put_ne _ _ hab]

/-- The hypotheses of `C70_matrix_element` are met by a scalar operator. -/
example : ∃ σ', matrixElement (fun x y : ℤ => x * y) 10 0 (scalarOp (2 : ℤ) 9 0).app 0 1
    (fun a => a + 3) = some (σ', 24) := by
  obtain ⟨σ', h, _⟩ := C70_matrix_element (fun x y : ℤ => x * y) (scalarOp (2 : ℤ) 9 0) _ _
    (scalar_acts 2 9 0) 10 (by decide) 0 0 1 (by decide) (by decide) (fun a => (a : ℤ) + 3)
  exact ⟨σ', by rw [h]; norm_num⟩

end QDng.Ops
