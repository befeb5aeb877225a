import Mathlib.Tactic.SplitIfs
import Mathlib.Order.Basic
import Verif.Registry.Model
import Verif.FileSeq.Props

/-
Lemmas on the registries.
-/

namespace QDng.Registry

open QDng.Common

/-! ### Generated keys -/

theorem showNat_no_hash (n : Nat) : ∀ c ∈ FileSeq.showNat n, c ≠ '#' := by
  induction n using Nat.strongRecOn with
  | ind n ih =>
    have hd : FileSeq.digit n ≠ '#' := by
      intro h
      have := FileSeq.digit_val n
      rw [h] at this
      have : (35 : Nat) = 48 + n % 10 := this
      omega
    intro c hc
    rw [FileSeq.showNat] at hc
    split at hc
    · rw [List.mem_singleton] at hc
      rw [hc]
      exact hd
    · rcases List.mem_append.1 hc with hc | hc
      · exact ih (n / 10) (by omega) c hc
      · rw [List.mem_singleton] at hc
        rw [hc]
        exact hd

theorem takeWhile_hash {a b : Str} (h : ∀ c ∈ a, c ≠ '#') :
    (a ++ '#' :: b).takeWhile (fun c => c ≠ '#') = a := by
  induction a with
  | nil => rfl
  | cons x a ih =>
    have hx : x ≠ '#' := h x List.mem_cons_self
    rw [List.cons_append, List.takeWhile_cons_of_pos (by simpa using hx)]
    rw [ih fun c hc => h c (List.mem_cons_of_mem _ hc)]

theorem anonKey_inj {a b : Str} {i j : Nat} (h : anonKey a i = anonKey b j) : i = j := by
  have key : ∀ (a : Str) (i : Nat), (anonKey a i).reverse.takeWhile (fun c => c ≠ '#') = (FileSeq.showNat i).reverse := by
    intro a i
    unfold anonKey
    rw [List.reverse_append, List.reverse_append]
    show List.takeWhile _ ((FileSeq.showNat i).reverse ++ '#' :: (['_', '_'] ++ a).reverse) = _
    apply takeWhile_hash
    intro c hc
    exact showNat_no_hash i c (List.mem_reverse.1 hc)
  have h1 := key a i
  rw [h, key b j] at h1
  exact (FileSeq.showNat_inj (List.reverse_injective h1)).symm

theorem anonKey_prefix (a : Str) (i : Nat) : ['_', '_'] <+: anonKey a i :=
  ⟨a ++ ['#'] ++ FileSeq.showNat i, by simp [anonKey]⟩

/-! ### Clear -/

variable {V : Type}

theorem firstTemp_none (persist : V → Bool) (m : OMap Str V) (h : firstTemp persist m = none) :
    ∀ p ∈ m, persist p.2 = true := by
  induction m with
  | nil => simp
  | cons q r ih =>
    obtain ⟨k, e⟩ := q
    unfold firstTemp at h
    split at h
    · rename_i he
      intro p hp
      rcases List.mem_cons.1 hp with rfl | hp
      · exact he
      · exact ih h p hp
    · cases h

theorem firstTemp_some (persist : V → Bool) (m : OMap Str V) (k : Str) (e : V) (h : firstTemp persist m = some (k, e)) :
    ∃ a b, m = a ++ (k, e) :: b ∧ (∀ p ∈ a, persist p.2 = true) ∧ persist e = false := by
  induction m with
  | nil => cases h
  | cons q r ih =>
    obtain ⟨k', e'⟩ := q
    unfold firstTemp at h
    split at h
    · rename_i he
      obtain ⟨a, b, h1, h2, h3⟩ := ih h
      refine ⟨(k', e') :: a, b, by rw [h1]; rfl, ?_, h3⟩
      intro p hp
      rcases List.mem_cons.1 hp with rfl | hp
      · exact he
      · exact h2 p hp
    · rename_i he
      cases h
      exact ⟨[], r, rfl, by simp, by simpa using he⟩

theorem erase_mid (a b : OMap Str V) (k : Str) (e : V) (h : OMap.Sorted (a ++ (k, e) :: b)) :
    OMap.erase k (a ++ (k, e) :: b) = a ++ b := by
  induction a with
  | nil =>
    show OMap.erase k ((k, e) :: b) = b
    unfold OMap.erase
    rw [if_pos rfl]
  | cons q a ih =>
    obtain ⟨k', e'⟩ := q
    have h1 := List.pairwise_cons.1 h
    have hlt : k' < k := h1.1 (k, e) (by simp)
    show OMap.erase k ((k', e') :: (a ++ (k, e) :: b)) = _
    unfold OMap.erase
    rw [if_neg (ne_of_gt hlt), ih h1.2]
    rfl

theorem clearLoop_eq (persist : V → Bool) (ptr : V → Nat) : ∀ (n : Nat) (m : OMap Str V) (c : Collector.State),
    OMap.Sorted m → (m.filter fun p => !persist p.2).length < n →
    clearLoop persist ptr n m c = (m.filter (fun p => persist p.2),
      ((m.filter fun p => !persist p.2).map fun p => ptr p.2).foldl (fun c q => c.delete q) c) := by
  intro n
  induction n with
  | zero => intro m c _ h; omega
  | succ n ih =>
    intro m c hs hn
    unfold clearLoop
    cases hf : firstTemp persist m with
    | none =>
      have hall := firstTemp_none persist m hf
      dsimp only
      rw [List.filter_eq_self.2 hall, List.filter_eq_nil_iff.2 (fun p hp => by simp [hall p hp])]
      rfl
    | some q =>
      obtain ⟨k, e⟩ := q
      obtain ⟨a, b, hm, ha, he⟩ := firstTemp_some persist m k e hf
      dsimp only
      subst hm
      rw [erase_mid a b k e hs]
      have hs' : OMap.Sorted (a ++ b) := by
        rw [← erase_mid a b k e hs]
        exact OMap.sorted_erase hs
      have hna : a.filter (fun p => !persist p.2) = [] :=
        List.filter_eq_nil_iff.2 fun p hp => by simp [ha p hp]
      have h1 : ((a ++ (k, e) :: b).filter fun p => !persist p.2) = (k, e) :: b.filter fun p => !persist p.2 := by
        rw [List.filter_append, hna, List.nil_append, List.filter_cons_of_pos (by simp [he])]
      have h2 : ((a ++ b).filter fun p => !persist p.2) = b.filter fun p => !persist p.2 := by
        rw [List.filter_append, hna, List.nil_append]
      have h3 : ((a ++ (k, e) :: b).filter fun p => persist p.2) = (a ++ b).filter fun p => persist p.2 := by
        rw [List.filter_append, List.filter_append, List.filter_cons_of_neg (by simp [he])]
      rw [h1] at hn
      rw [ih (a ++ b) _ hs' (by rw [h2]; simpa using hn), h1, h2, h3]
      rfl

theorem sorted_filter (f : Str × V → Bool) {m : OMap Str V} (h : OMap.Sorted m) : OMap.Sorted (m.filter f) :=
  List.Pairwise.sublist List.filter_sublist h

theorem find_filter (f : V → Bool) {m : OMap Str V} (h : OMap.Sorted m) (k : Str) :
    OMap.find k (m.filter fun p => f p.2) = (OMap.find k m).filter f := by
  induction m with
  | nil => rfl
  | cons q r ih =>
    obtain ⟨k', e⟩ := q
    have h1 := List.pairwise_cons.1 h
    by_cases hf : f e = true
    · rw [List.filter_cons_of_pos (by simpa using hf)]
      unfold OMap.find
      split_ifs with hk
      · simp [Option.filter, hf]
      · exact ih h1.2
    · rw [List.filter_cons_of_neg (by simpa using hf), ih h1.2]
      conv_rhs => unfold OMap.find
      split_ifs with hk
      · subst hk
        rw [OMap.find_none_of_lt h1.1]
        simp [Option.filter, hf]
      · rfl

/-! ### Number of entries -/

theorem countP_insert (f : V → Bool) (k : Str) (v : V) {m : OMap Str V} (h : OMap.Sorted m) :
    (OMap.insert k v m).countP (fun p => f p.2) + (match OMap.find k m with | some w => (f w).toNat | none => 0) =
      m.countP (fun p => f p.2) + (f v).toNat := by
  induction m with
  | nil =>
    show List.countP _ [(k, v)] + 0 = 0 + _
    cases hf : f v <;> simp [hf]
  | cons q r ih =>
    obtain ⟨k', e⟩ := q
    have h1 := List.pairwise_cons.1 h
    have hc : ∀ (q : Str × V) (l : OMap Str V), List.countP (fun p => f p.2) (q :: l) =
        List.countP (fun p => f p.2) l + (f q.2).toNat := by
      intro q l
      rw [List.countP_cons]
      cases f q.2 <;> simp
    unfold OMap.insert
    split_ifs with h2 h3
    · have hn : OMap.find k ((k', e) :: r) = none := by
        apply OMap.find_none_of_lt
        intro p hp
        rcases List.mem_cons.1 hp with rfl | hp
        · exact h2
        · exact lt_trans h2 (h1.1 p hp)
      rw [hn, hc]
      rfl
    · subst h3
      rw [hc, hc]
      unfold OMap.find
      rw [if_pos rfl]
      dsimp only
      omega
    · rw [hc, hc]
      have := ih h1.2
      unfold OMap.find
      rw [if_neg h3]
      omega

end QDng.Registry
