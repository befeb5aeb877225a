/-
Counting loops over arrays, with undefined behaviour as `none`.

A C++ loop `for (k = 0; k < n; k++) body(k)` whose body reads and writes an array is modelled by
`loop`; a read or write outside the array is undefined behaviour and is the outcome `none`, which
no later step of the loop can undo.
-/

namespace QDng.Common

/-- Models a C++ counting loop `for (k = 0; k < n; k++) body` (the shape of every loop in the files
modelled with it, for instance src/math/VectorView.h:166-171).  `none` is undefined behaviour. -/
def loop {S : Type} : Nat → (Nat → S → Option S) → S → Option S
  | 0, _, s => some s
  | n + 1, body, s => (loop n body s).bind (body n)

/-- Models an in place update `a[i] = f(a[i])` of array storage (for instance
src/math/VectorView.h:188).  An index outside of the storage is undefined behaviour. -/
def upd {A : Type} (i : Nat) (f : A → A) (a : List A) : Option (List A) :=
  match a[i]? with
  | none => none
  | some x => some (a.set i (f x))

/-- `Acts L body P g`: on every array with `L` elements, `body` succeeds, keeps the number of
elements, applies `g p` to every element `p` selected by `P` and changes nothing else.
A notion used in proofs only. -/
def Acts {A : Type} (L : Nat) (body : List A → Option (List A)) (P : Nat → Prop)
    (g : Nat → A → A) : Prop :=
  ∀ s : List A, s.length = L → ∃ s', body s = some s' ∧ s'.length = L ∧
    (∀ p, P p → s'[p]? = (s[p]?).map (g p)) ∧ (∀ p, ¬ P p → s'[p]? = s[p]?)

theorem Acts.mono {A : Type} {L : Nat} {body body' : List A → Option (List A)}
    {P P' : Nat → Prop} {g g' : Nat → A → A} (h : Acts L body P g)
    (hb : ∀ s, s.length = L → body' s = body s) (hP : ∀ p, P' p ↔ P p)
    (hg : ∀ p, P p → g' p = g p) : Acts L body' P' g' := by
  intro s hs
  obtain ⟨s', h1, h2, h3, h4⟩ := h s hs
  refine ⟨s', by rw [hb s hs, h1], h2, ?_, ?_⟩
  · intro p hp
    have := (hP p).1 hp
    rw [hg p this]; exact h3 p this
  · intro p hp
    exact h4 p (fun h => hp ((hP p).2 h))

theorem acts_upd {A : Type} {L i : Nat} (f : A → A) (g : Nat → A → A) (hi : i < L) (hg : g i = f) :
    Acts L (upd i f) (fun p => p = i) g := by
  intro s hs
  have hs' : i < s.length := by omega
  refine ⟨s.set i (f s[i]), ?_, by simpa using hs, ?_, ?_⟩
  · simp [upd, List.getElem?_eq_getElem hs']
  · rintro p rfl
    rw [hg]
    simp [List.getElem?_set_self hs', List.getElem?_eq_getElem hs']
  · intro p hp
    rw [List.getElem?_set_ne (fun h => hp h.symm)]

theorem acts_seq {A : Type} {L : Nat} {b c : List A → Option (List A)}
    {P Q : Nat → Prop} {g : Nat → A → A} (hb : Acts L b P g) (hc : Acts L c Q g)
    (hd : ∀ p, P p → ¬ Q p) : Acts L (fun s => (b s).bind c) (fun p => P p ∨ Q p) g := by
  intro s hs
  obtain ⟨s1, h1, h2, h3, h4⟩ := hb s hs
  obtain ⟨s2, k1, k2, k3, k4⟩ := hc s1 h2
  refine ⟨s2, by simp [h1, k1], k2, ?_, ?_⟩
  · intro p hp
    rcases hp with hp | hp
    · rw [k4 p (hd p hp), h3 p hp]
    · rw [k3 p hp, h4 p (fun h => hd p h hp)]
  · intro p hp
    rw [k4 p (fun h => hp (Or.inr h)), h4 p (fun h => hp (Or.inl h))]

theorem acts_loop {A : Type} {L : Nat} (n : Nat) (body : Nat → List A → Option (List A))
    (P : Nat → Nat → Prop) (g : Nat → A → A)
    (hb : ∀ k, k < n → Acts L (body k) (P k) g)
    (hd : ∀ k k', k < n → k' < n → ∀ p, P k p → P k' p → k = k') :
    Acts L (loop n body) (fun p => ∃ k, k < n ∧ P k p) g := by
  induction n with
  | zero =>
    intro s hs
    exact ⟨s, rfl, hs, fun p hp => by obtain ⟨k, hk, _⟩ := hp; omega, fun p _ => rfl⟩
  | succ n ih =>
    have h1 := ih (fun k hk => hb k (by omega)) (fun k k' hk hk' => hd k k' (by omega) (by omega))
    have h2 := acts_seq h1 (hb n (by omega)) (fun p hp hq => by
      obtain ⟨k, hk, hkp⟩ := hp
      have := hd k n (by omega) (by omega) p hkp hq
      omega)
    refine h2.mono (fun s _ => rfl) (fun p => ?_) (fun _ _ => rfl)
    constructor
    · rintro ⟨k, hk, hkp⟩
      by_cases e : k = n
      · subst e; exact Or.inr hkp
      · exact Or.inl ⟨k, by omega, hkp⟩
    · rintro (⟨k, hk, hkp⟩ | h)
      · exact ⟨k, by omega, hkp⟩
      · exact ⟨n, by omega, h⟩

theorem loop_congr {S : Type} (n : Nat) (b c : Nat → S → Option S) (s : S)
    (h : ∀ k, k < n → ∀ s, b k s = c k s) : loop n b s = loop n c s := by
  induction n with
  | zero => rfl
  | succ n ih =>
    simp only [loop]
    rw [ih (fun k hk => h k (by omega))]
    congr 1
    funext s
    exact h n (by omega) s

/-- An invariant kept by every round of the loop holds at its end, and the loop has no undefined
behaviour. -/
theorem loop_inv {S : Type} (n : Nat) (body : Nat → S → Option S) (I : Nat → S → Prop) (s : S)
    (h0 : I 0 s) (hb : ∀ k, k < n → ∀ s, I k s → ∃ s', body k s = some s' ∧ I (k + 1) s') :
    ∃ s', loop n body s = some s' ∧ I n s' := by
  induction n with
  | zero => exact ⟨s, rfl, h0⟩
  | succ n ih =>
    obtain ⟨s1, h1, h2⟩ := ih (fun k hk => hb k (by omega))
    obtain ⟨s2, h3, h4⟩ := hb n (by omega) s1 h2
    exact ⟨s2, by simp [loop, h1, h3], h4⟩

end QDng.Common
