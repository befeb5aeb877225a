import Verif.Params.Model

/-! # Helper lemmas for the parameter container -/

namespace QDng.Params

open QDng

/-! ### merge -/

theorem sorted_mergeLoop {V : Type} {a b : OMap Str V} (ha : OMap.Sorted a) :
    OMap.Sorted (mergeLoop a b) := by
  unfold mergeLoop
  induction b generalizing a with
  | nil => exact ha
  | cons p r ih => exact ih (OMap.sorted_insert ha)

theorem find_mergeLoop {V : Type} {a b : OMap Str V} (hb : OMap.Sorted b) (k : Str) :
    OMap.find k (mergeLoop a b) = (OMap.find k b).or (OMap.find k a) := by
  unfold mergeLoop
  induction b generalizing a with
  | nil => simp [OMap.find]
  | cons p r ih =>
    obtain ⟨kp, vp⟩ := p
    have h1 := List.pairwise_cons.1 hb
    simp only [List.foldl_cons]
    rw [ih h1.2, OMap.find_insert]
    by_cases h2 : k = kp
    · subst h2
      have : OMap.find k r = none := OMap.find_none_of_lt h1.1
      simp [OMap.find, this]
    · simp [OMap.find, h2]

/-! ### iteration -/

theorem nextIter_cons {k : Str} {v : Str} {r : OMap Str Str} (h : OMap.Sorted ((k, v) :: r)) :
    nextIter k ((k, v) :: r) = beginIter r := by
  have h1 := List.pairwise_cons.1 h
  unfold nextIter
  rw [if_neg (lt_irrefl _)]
  cases r with
  | nil => rfl
  | cons q r =>
    obtain ⟨kq, vq⟩ := q
    have := h1.1 (kq, vq) List.mem_cons_self
    unfold nextIter
    rw [if_pos this]
    rfl

theorem nextIter_append {k : Str} {p m : OMap Str Str} (h : ∀ q ∈ p, q.1 < k) :
    nextIter k (p ++ m) = nextIter k m := by
  induction p with
  | nil => rfl
  | cons q r ih =>
    obtain ⟨kq, vq⟩ := q
    have h2 := h (kq, vq) List.mem_cons_self
    show nextIter k ((kq, vq) :: (r ++ m)) = _
    rw [nextIter, if_neg (not_lt.2 (le_of_lt h2))]
    exact ih (fun q hq => h q (List.mem_cons_of_mem _ hq))

theorem getNextN_suffix (c : Container) (p m : OMap Str Str) (hp : c.params = p ++ m)
    (hs : OMap.Sorted c.params) (hit : c.it = beginIter m) (n : Nat) :
    c.getNextN (m.length + n) = some (m.map some ++ List.replicate n none) := by
  induction m generalizing c p with
  | nil =>
    induction n generalizing c with
    | zero => rfl
    | succ n ih =>
      have h1 : c.getNextValue = some (c, none) := by
        unfold Container.getNextValue
        rw [hit]; rfl
      have ih' := ih c hp hs hit
      simp only [List.length_nil, Nat.zero_add, List.map_nil, List.nil_append] at ih' ⊢
      rw [Container.getNextN, h1]
      simp only [ih']
      rfl
  | cons q r ih =>
    obtain ⟨k, v⟩ := q
    have hs2 : OMap.Sorted ((k, v) :: r) := by
      rw [hp] at hs
      exact (List.pairwise_append.1 hs).2.1
    have hlt : ∀ q ∈ p, q.1 < k := by
      rw [hp] at hs
      intro q hq
      exact (List.pairwise_append.1 hs).2.2 q hq (k, v) List.mem_cons_self
    have hfind : OMap.find k c.params = some v := by
      rw [OMap.find_eq_some_iff hs, hp]
      simp
    have hnext : nextIter k c.params = beginIter r := by
      rw [hp, nextIter_append hlt, nextIter_cons hs2]
    have h1 : c.getNextValue = some ({ c with it := beginIter r }, some (k, v)) := by
      unfold Container.getNextValue
      rw [hit]
      simp only [beginIter, hfind, hnext]
    have h2 := ih { c with it := beginIter r } (p ++ [(k, v)]) (by simp [hp]) hs rfl
    have h3 : ((k, v) :: r).length + n = (r.length + n) + 1 := by simp; omega
    rw [h3, Container.getNextN, h1]
    simp only [h2]
    rfl

/-- Draining the container after `ResetPosition` shows every pair once, in map order. -/
theorem Container.getNextN_resetPosition (c : Container) (hs : OMap.Sorted c.params) (n : Nat) :
    c.resetPosition.getNextN (c.params.length + n)
      = some (c.params.map some ++ List.replicate n none) :=
  getNextN_suffix c.resetPosition [] c.params rfl hs rfl n

/-! ### find -/

theorem findFirst_append_of_not {p : Char → Bool} {a b : Str} {c : Char}
    (ha : ∀ x ∈ a, p x = false) (hc : p c = true) :
    findFirst p (a ++ c :: b) = some a.length := by
  unfold findFirst
  induction a with
  | nil => simp [List.findIdx?_cons, hc]
  | cons x r ih =>
    have hx := ha x List.mem_cons_self
    have := ih (fun y hy => ha y (List.mem_cons_of_mem _ hy))
    simp [List.findIdx?_cons, hx, this]

theorem findFirst_none {p : Char → Bool} {a : Str} (ha : ∀ x ∈ a, p x = false) :
    findFirst p a = none := by
  unfold findFirst
  rw [List.findIdx?_eq_none_iff]
  exact ha

theorem findFirst_none_iff {p : Char → Bool} {a : Str} :
    findFirst p a = none ↔ ∀ x ∈ a, p x = false := by
  unfold findFirst
  rw [List.findIdx?_eq_none_iff]

theorem findFirst_some {p : Char → Bool} {s : Str} {i : Nat} (h : findFirst p s = some i) :
    ∃ a c b, s = a ++ c :: b ∧ a.length = i ∧ p c = true ∧ ∀ x ∈ a, p x = false := by
  unfold findFirst at h
  induction s generalizing i with
  | nil => simp at h
  | cons x r ih =>
    rw [List.findIdx?_cons] at h
    by_cases hx : p x = true
    · simp [hx] at h
      subst h
      exact ⟨[], x, r, rfl, rfl, hx, by simp⟩
    · simp [hx] at h
      obtain ⟨j, hj, rfl⟩ := h
      obtain ⟨a, c, b, h1, h2, h3, h4⟩ := ih hj
      refine ⟨x :: a, c, b, by simp [h1], by simp [h2], h3, ?_⟩
      intro y hy
      rcases List.mem_cons.1 hy with hy | hy
      · subst hy; simpa using hx
      · exact h4 y hy

theorem findLast_append_of_not {p : Char → Bool} {a b : Str} {c : Char}
    (hb : ∀ x ∈ b, p x = false) (hc : p c = true) :
    findLast p (a ++ c :: b) = some a.length := by
  unfold findLast
  have h1 : (a ++ c :: b).reverse = b.reverse ++ c :: a.reverse := by simp
  have h2 := findFirst_append_of_not (p := p) (a := b.reverse) (b := a.reverse) (c := c)
    (fun x hx => hb x (List.mem_reverse.1 hx)) hc
  unfold findFirst at h2
  rw [h1, h2]
  simp

theorem findLast_none {p : Char → Bool} {a : Str} (ha : ∀ x ∈ a, p x = false) :
    findLast p a = none := by
  unfold findLast
  have h2 := findFirst_none (p := p) (a := a.reverse) (fun x hx => ha x (List.mem_reverse.1 hx))
  unfold findFirst at h2
  rw [h2]; rfl

/-! ### trim -/

/-- Words: no white space at either end (the empty word included). -/
def Trimmed (s : Str) : Prop :=
  (∀ c r, s = c :: r → isWs c = false) ∧ (∀ c r, s = r ++ [c] → isWs c = false)

theorem trimLeft_ws (w s : Str) (hw : ∀ c ∈ w, isWs c = true)
    (hs : ∀ c r, s = c :: r → isWs c = false) (hne : s ≠ []) :
    trimLeft (w ++ s) = s := by
  obtain ⟨c, r, rfl⟩ : ∃ c r, s = c :: r := by
    cases s with
    | nil => exact absurd rfl hne
    | cons c r => exact ⟨c, r, rfl⟩
  have hc := hs c r rfl
  have hnot : findFirst (fun c => !isWs c) (w ++ c :: r) = some w.length :=
    findFirst_append_of_not (fun x hx => by simp [hw x hx]) (by simp [hc])
  unfold trimLeft
  cases w with
  | nil =>
    have : findFirst isWs (c :: r) ≠ some 0 := by
      intro h
      obtain ⟨a, d, b, h1, h2, h3, _⟩ := findFirst_some h
      have : a = [] := List.length_eq_zero_iff.1 h2
      subst this
      simp at h1
      rw [h1.1] at hc
      simp [hc] at h3
    simp [this]
  | cons x w =>
    have hx := hw x List.mem_cons_self
    have h0 : findFirst isWs (x :: w ++ c :: r) = some 0 :=
      findFirst_append_of_not (a := []) (by simp) hx
    rw [if_pos h0, hnot]
    simp

theorem trimRight_ws (w s : Str) (hw : ∀ c ∈ w, isWs c = true)
    (hs : ∀ c r, s = r ++ [c] → isWs c = false) (hf : ∀ c r, s = c :: r → isWs c = false)
    (hne : s ≠ []) : trimRight (s ++ w) = s := by
  obtain ⟨r, c, rfl⟩ : ∃ r c, s = r ++ [c] := by
    rcases List.eq_nil_or_concat s with h | ⟨r, c, h⟩
    · exact absurd h hne
    · exact ⟨r, c, by simpa using h⟩
  have hc := hs c r rfl
  have hnot : findLast (fun c => !isWs c) (r ++ [c] ++ w) = some r.length := by
    have := findLast_append_of_not (p := fun c => !isWs c) (a := r) (b := w) (c := c)
      (fun x hx => by simp [hw x hx]) (by simp [hc])
    simpa using this
  unfold trimRight
  have hn0 : findLast isWs (r ++ [c] ++ w) ≠ some 0 := by
    intro h
    unfold findLast at h
    simp only [Option.map_eq_some_iff] at h
    obtain ⟨i, hi, h2⟩ := h
    obtain ⟨a, d, b, h3, h4, h5, _⟩ := findFirst_some (p := isWs) hi
    -- the found character is the first one of the string
    have h6 : (r ++ [c] ++ w) = b.reverse ++ d :: a.reverse := by
      have := congrArg List.reverse h3
      simpa using this
    have h7 : b = [] := by
      have hl := congrArg List.length h6
      simp at hl h2
      apply List.length_eq_zero_iff.1
      omega
    subst h7
    simp at h6
    cases r with
    | nil =>
      simp at h6
      rw [h6.1] at hc
      simp [hc] at h5
    | cons y r =>
      have := hf y (r ++ [c]) (by simp)
      simp at h6
      rw [h6.1] at this
      simp [this] at h5
  rw [if_neg hn0]
  cases hwr : w.reverse with
  | nil =>
    have hw0 : w = [] := by simpa using hwr
    subst hw0
    have : findLast isWs (r ++ [c] ++ []) ≠ lastPos (r ++ [c] ++ []) := by
      intro h
      unfold lastPos at h
      rw [if_neg (by simp)] at h
      unfold findLast at h
      simp only [Option.map_eq_some_iff] at h
      obtain ⟨i, hi, h2⟩ := h
      obtain ⟨a, d, b, h3, h4, h5, _⟩ := findFirst_some (p := isWs) hi
      have : a = [] := by
        apply List.length_eq_zero_iff.1
        have hl := congrArg List.length h3
        simp at hl h2
        omega
      subst this
      simp at h3
      rw [h3.1] at hc
      simp [hc] at h5
    rw [if_neg this]
    simp
  | cons x w' =>
    have hwe : w = w'.reverse ++ [x] := by
      have := congrArg List.reverse hwr
      simpa using this
    have hx : isWs x = true := hw x (by rw [hwe]; simp)
    have h1 : findLast isWs (r ++ [c] ++ w) = lastPos (r ++ [c] ++ w) := by
      have := findLast_append_of_not (p := isWs) (a := r ++ [c] ++ w'.reverse) (b := []) (c := x)
        (by simp) hx
      rw [hwe]
      simp only [List.append_assoc] at this ⊢
      rw [this]
      simp [lastPos]
    rw [if_pos h1, hnot]
    exact List.take_left' (by simp)

/-- `trim` removes white space around a word. -/
theorem trim_ws (w₁ w₂ s : Str) (h1 : ∀ c ∈ w₁, isWs c = true) (h2 : ∀ c ∈ w₂, isWs c = true)
    (hs : Trimmed s) (hne : s ≠ []) : trim (w₁ ++ s ++ w₂) = s := by
  unfold trim
  have : trimLeft (w₁ ++ s ++ w₂) = s ++ w₂ := by
    rw [List.append_assoc]
    apply trimLeft_ws _ _ h1
    · intro c r h
      cases s with
      | nil => exact absurd rfl hne
      | cons x s =>
        simp at h
        rw [← h.1]
        exact hs.1 x s rfl
    · simp [hne]
  rw [this]
  exact trimRight_ws _ _ h2 hs.2 hs.1 hne

theorem trim_space : trim [' '] = [] := by decide

theorem trim_nil : trim [] = [] := by decide

theorem trim_space_word (s : Str) (hs : Trimmed s) : trim (' ' :: s) = s := by
  by_cases hne : s = []
  · subst hne; exact trim_space
  · have := trim_ws [' '] [] s (by simp [isWs]) (by simp) hs hne
    simpa using this

theorem trim_word (s : Str) (hs : Trimmed s) : trim s = s := by
  by_cases hne : s = []
  · subst hne; exact trim_nil
  · have := trim_ws [] [] s (by simp) (by simp) hs hne
    simpa using this

/-! ### split -/

theorem splitLoop_comma_free (n : Nat) (x : Str) (hx : ',' ∉ x) : splitLoop n x = [x] := by
  cases n with
  | zero => rfl
  | succ n =>
    unfold splitLoop
    rw [findFirst_none]
    intro c hc
    simp
    rintro rfl
    exact hx hc

theorem splitLoop_cons (n : Nat) (x y : Str) (hx : ',' ∉ x) :
    splitLoop (n + 1) (x ++ ',' :: y) = x :: splitLoop n y := by
  conv_lhs => unfold splitLoop
  rw [findFirst_append_of_not (a := x) (b := y) (c := ',')]
  · simp
  · intro c hc
    simp
    rintro rfl
    exact hx hc
  · simp

theorem splitLoop_join (l : List Str) (hl : l ≠ []) (h : ∀ x ∈ l, ',' ∉ x) (n : Nat)
    (hn : l.length ≤ n + 1) : splitLoop n (joinComma l) = l := by
  induction l generalizing n with
  | nil => exact absurd rfl hl
  | cons x r ih =>
    cases r with
    | nil =>
      simp only [joinComma]
      exact splitLoop_comma_free n x (h x List.mem_cons_self)
    | cons y r =>
      cases n with
      | zero => simp at hn
      | succ n =>
        simp only [joinComma]
        rw [splitLoop_cons _ _ _ (h x List.mem_cons_self)]
        congr 1
        apply ih
        · simp
        · intro z hz
          exact h z (List.mem_cons_of_mem _ hz)
        · simp at hn ⊢; omega

theorem length_joinComma (l : List Str) : l.length ≤ (joinComma l).length + 1 := by
  induction l with
  | nil => simp [joinComma]
  | cons x r ih =>
    cases r with
    | nil => simp [joinComma]
    | cons y r =>
      simp only [joinComma, List.length_append, List.length_cons] at ih ⊢
      omega

theorem splitLoop_spec (n : Nat) (s : Str) (h : s.count ',' ≤ n) :
    (splitLoop n s).length = s.count ',' + 1 ∧ (∀ x ∈ splitLoop n s, ',' ∉ x) ∧
      joinComma (splitLoop n s) = s := by
  induction n generalizing s with
  | zero =>
    have h0 : ',' ∉ s := by
      rw [← List.count_eq_zero]; omega
    rw [splitLoop_comma_free 0 s h0]
    refine ⟨by simp; omega, by simpa using h0, rfl⟩
  | succ n ih =>
    by_cases h0 : ',' ∈ s
    · obtain ⟨a, b, rfl, ha⟩ := List.eq_append_cons_of_mem h0
      rw [splitLoop_cons n a b ha]
      have hc : (a ++ ',' :: b).count ',' = b.count ',' + 1 := by
        rw [List.count_append, List.count_eq_zero.2 ha, List.count_cons_self]; omega
      obtain ⟨h1, h2, h3⟩ := ih b (by omega)
      refine ⟨by simp [h1, hc], ?_, ?_⟩
      · intro x hx
        rcases List.mem_cons.1 hx with hx | hx
        · subst hx; exact ha
        · exact h2 x hx
      · cases hsp : splitLoop n b with
        | nil => rw [hsp] at h1; simp at h1
        | cons y r =>
          rw [hsp] at h3
          simp [joinComma, h3]
    · rw [splitLoop_comma_free _ s h0]
      refine ⟨by simp [List.count_eq_zero.2 h0], by simpa using h0, rfl⟩

/-! ### getline -/

theorem getlineLoop_line (l r : Str) (n : Nat) (hl : '\n' ∉ l) (hn : l.length ≤ n) :
    getlineLoop n (l ++ '\n' :: r) = (l, { rest := r, eof := false, fail := false }) := by
  induction l generalizing n with
  | nil => cases n <;> rfl
  | cons c l ih =>
    have hc : c ≠ '\n' := fun h => hl (h ▸ List.mem_cons_self)
    cases n with
    | zero => simp at hn
    | succ n =>
      have := ih n (fun h => hl (List.mem_cons_of_mem _ h)) (by simpa using hn)
      simp [getlineLoop, hc, this]

theorem getlineLoop_last (l : Str) (n : Nat) (hl : '\n' ∉ l) (hn : l.length ≤ n) :
    getlineLoop n l = (l, { rest := [], eof := true, fail := false }) := by
  induction l generalizing n with
  | nil => simp [getlineLoop]
  | cons c l ih =>
    have hc : c ≠ '\n' := fun h => hl (h ▸ List.mem_cons_self)
    cases n with
    | zero => simp at hn
    | succ n =>
      have := ih n (fun h => hl (List.mem_cons_of_mem _ h)) (by simpa using hn)
      simp [getlineLoop, hc, this]

/-- A line that does not fit the buffer sets `failbit` and not `eofbit`. -/
theorem getlineLoop_overlong (l r : Str) (n : Nat) (hl : '\n' ∉ l) (hn : n < l.length) :
    (getlineLoop n (l ++ r)).2.fail = true ∧ (getlineLoop n (l ++ r)).2.eof = false := by
  induction l generalizing n with
  | nil => simp at hn
  | cons c l ih =>
    have hc : c ≠ '\n' := fun h => hl (h ▸ List.mem_cons_self)
    cases n with
    | zero => simp [getlineLoop, hc]
    | succ n =>
      have := ih n (fun h => hl (List.mem_cons_of_mem _ h)) (by simpa using hn)
      simp [getlineLoop, hc, this]

theorem getline_line (l r : Str) (hl : '\n' ∉ l) (hn : l.length < maxLineLength) :
    getline maxLineLength { rest := l ++ '\n' :: r, eof := false, fail := false }
      = (l, { rest := r, eof := false, fail := false }) := by
  unfold getline
  simp only [Bool.or_self, Bool.false_eq_true, if_false]
  rw [getlineLoop_line l r _ hl (by omega)]
  simp

/-- Once `failbit` is set without `eofbit` the reading loop makes no progress. -/
theorem parseLoop_stuck (fuel : Nat) (rest : Str) (c : Container) :
    parseLoop none fuel { rest := rest, eof := false, fail := true } c = .running := by
  induction fuel with
  | zero => rfl
  | succ n ih =>
    unfold parseLoop
    simp only [Bool.false_eq_true, if_false]
    have h1 : getline maxLineLength { rest := rest, eof := false, fail := true }
        = ([], { rest := rest, eof := false, fail := true }) := rfl
    rw [h1]
    have h2 : parseLine c (assignCStr []) = some c := rfl
    simp only [h2]
    simpa using ih

end QDng.Params
