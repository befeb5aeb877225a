import Verif.BufName.Model

/-!
Properties of the names of the files of wave function buffers.
-/

namespace QDng.BufName

theorem digits_small {n : Nat} (h : n < 16) : digits n = [n] := by
  rw [digits, if_pos h]

theorem digits_big {n : Nat} (h : 16 ≤ n) : digits n = digits (n / 16) ++ [n % 16] := by
  rw [digits, if_neg (by omega)]

theorem digits_ne_nil (n : Nat) : digits n ≠ [] := by
  by_cases h : n < 16
  · rw [digits_small h]; simp
  · rw [digits_big (by omega)]; simp

theorem digits_lt : ∀ n, ∀ d, d ∈ digits n → d < 16 := by
  intro n
  induction n using Nat.strongRecOn with
  | ind n ih =>
    intro d hd
    by_cases h : n < 16
    · rw [digits_small h] at hd
      rw [List.mem_singleton] at hd
      omega
    · rw [digits_big (by omega)] at hd
      rcases List.mem_append.1 hd with hd | hd
      · exact ih (n / 16) (by omega) d hd
      · rw [List.mem_singleton] at hd
        omega

theorem digits_inj : ∀ n m, digits n = digits m → n = m := by
  intro n
  induction n using Nat.strongRecOn with
  | ind n ih =>
    intro m h
    by_cases hn : n < 16
    · by_cases hm : m < 16
      · rw [digits_small hn, digits_small hm] at h
        simpa using h
      · rw [digits_small hn, digits_big (by omega)] at h
        have h2 := congrArg List.length h
        have h3 := List.length_pos_iff.2 (digits_ne_nil (m / 16))
        simp only [List.length_append, List.length_singleton] at h2
        omega
    · by_cases hm : m < 16
      · rw [digits_small hm, digits_big (by omega)] at h
        have h2 := congrArg List.length h
        have h3 := List.length_pos_iff.2 (digits_ne_nil (n / 16))
        simp only [List.length_append, List.length_singleton] at h2
        omega
      · rw [digits_big (by omega : 16 ≤ n), digits_big (by omega : 16 ≤ m)] at h
        obtain ⟨h1, h2⟩ := List.append_inj' h rfl
        have h3 := ih (n / 16) (by omega) (m / 16) h1
        have h4 : n % 16 = m % 16 := by simpa using h2
        omega

/-- Numbers with the same number of digits. -/
theorem digits_len : ∀ k n, 16 ^ k ≤ n → n < 16 ^ (k + 1) → (digits n).length = k + 1 := by
  intro k
  induction k with
  | zero => intro n _ h2; rw [digits_small (by simpa using h2)]; rfl
  | succ k ih =>
    intro n h1 h2
    have e1 : 16 ^ (k + 1) = 16 ^ k * 16 := Nat.pow_succ ..
    have e2 : 16 ^ (k + 1 + 1) = 16 ^ (k + 1) * 16 := Nat.pow_succ ..
    have hp : 0 < 16 ^ k := Nat.pow_pos (by decide)
    rw [digits_big (by omega), List.length_append, ih (n / 16) (by omega) (by omega)]
    rfl

theorem digit_inj : ∀ a, a < 16 → ∀ b, b < 16 → digit a = digit b → a = b := by decide

theorem map_digit_inj : ∀ (l m : List Nat), (∀ d, d ∈ l → d < 16) → (∀ d, d ∈ m → d < 16) →
    l.map digit = m.map digit → l = m := by
  intro l
  induction l with
  | nil =>
    intro m _ _ h
    cases m with
    | nil => rfl
    | cons _ _ => cases h
  | cons a l ih =>
    intro m hl hm h
    cases m with
    | nil => cases h
    | cons b m =>
      simp only [List.map_cons, List.cons.injEq] at h
      rw [digit_inj a (hl a List.mem_cons_self) b (hm b List.mem_cons_self) h.1,
        ih m (fun d hd => hl d (List.mem_cons_of_mem _ hd)) (fun d hd => hm d (List.mem_cons_of_mem _ hd)) h.2]

theorem hex_inj {n m : Nat} (hn : n < 2 ^ 32) (hm : m < 2 ^ 32) (h : hex n = hex m) : n = m := by
  unfold hex at h
  rw [Nat.mod_eq_of_lt hn, Nat.mod_eq_of_lt hm] at h
  exact digits_inj n m (map_digit_inj _ _ (digits_lt n) (digits_lt m) h)

/-- **C318 (part: one buffer).**  Different positions below 2³² have different files. -/
theorem C318_partial (param env : Option (List Char)) (name : List Char) (num p q : Nat) (hp : p < 2 ^ 32)
    (hq : q < 2 ^ 32) (h : fileName param env name num p = fileName param env name num q) : p = q :=
  hex_inj hp hq (List.append_cancel_left h)

/-- **C318 (part: two buffers)** whose random numbers differ but have the same number of digits (in particular all numbers
from 2²⁸ on) never use the same file. -/
theorem C318_two_partial (param env : Option (List Char)) (name : List Char) (n m k p q : Nat) (hn : n < 2 ^ 32)
    (hm : m < 2 ^ 32) (h1 : 16 ^ k ≤ n) (h2 : n < 16 ^ (k + 1)) (h3 : 16 ^ k ≤ m) (h4 : m < 16 ^ (k + 1))
    (hnm : n ≠ m) : fileName param env name n p ≠ fileName param env name m q := by
  intro h
  unfold fileName at h
  rw [List.append_assoc, List.append_assoc] at h
  have h5 := List.append_cancel_left h
  have hlen : (hex n).length = (hex m).length := by
    unfold hex
    rw [Nat.mod_eq_of_lt hn, Nat.mod_eq_of_lt hm, List.length_map, List.length_map, digits_len k n h1 h2,
      digits_len k m h3 h4]
  exact hnm (hex_inj hn hm (List.append_inj h5 hlen).1)

/-- **C318 is false for two buffers with different random numbers**: whenever one number is the other one with a digit
appended, files of the two buffers have the same name. -/
theorem C318_violated (param env : Option (List Char)) (name : List Char) (n d p : Nat) (h1 : 1 ≤ n) (hn : n < 2 ^ 28)
    (hd : 1 ≤ d) (hd2 : d < 16) (hp : p < 16) :
    n ≠ 16 * n + d ∧ 16 * n + d < 2 ^ 32
      ∧ fileName param env name n (16 * d + p) = fileName param env name (16 * n + d) p := by
  refine ⟨by omega, by omega, ?_⟩
  unfold fileName
  rw [List.append_assoc, List.append_assoc]
  congr 1
  unfold hex
  rw [Nat.mod_eq_of_lt (by omega : n < 2 ^ 32), Nat.mod_eq_of_lt (by omega : 16 * d + p < 2 ^ 32),
    Nat.mod_eq_of_lt (by omega : 16 * n + d < 2 ^ 32), Nat.mod_eq_of_lt (by omega : p < 2 ^ 32),
    digits_big (by omega : 16 ≤ 16 * d + p), digits_big (by omega : 16 ≤ 16 * n + d), digits_small hp,
    show (16 * d + p) / 16 = d by omega, show (16 * d + p) % 16 = p by omega,
    show (16 * n + d) / 16 = n by omega, show (16 * n + d) % 16 = d by omega, digits_small hd2]
  simp

/-- **C318 is false for positions from 2³² on**: they use the file of a lower position. -/
theorem C318_violated_wrap (param env : Option (List Char)) (name : List Char) (num p : Nat) :
    fileName param env name num (p + 2 ^ 32) = fileName param env name num p := by
  unfold fileName hex
  rw [Nat.add_mod_right]

/-- **C319.**  The files are in the directory given by the parameter `tmpdir`; without it in the one given by the environment
variable; without both, or with an empty one, in the current directory.  An empty parameter hides the environment
variable. -/
theorem C319_directory (name : List Char) (num pos : Nat) (c : Char) (s : List Char) (env : Option (List Char)) :
    (∃ t, fileName (some (c :: s)) env name num pos = (c :: s) ++ '/' :: (name ++ t) ∧ '/' ∉ t)
      ∧ (∃ t, fileName none (some (c :: s)) name num pos = (c :: s) ++ '/' :: (name ++ t) ∧ '/' ∉ t)
      ∧ (∃ t, fileName none none name num pos = name ++ t ∧ '/' ∉ t)
      ∧ (∃ t, fileName (some []) env name num pos = name ++ t ∧ '/' ∉ t)
      ∧ (∃ t, fileName none (some []) name num pos = name ++ t ∧ '/' ∉ t) := by
  have hd : ∀ d, d < 16 → digit d ≠ '/' := by decide
  have hh : ∀ n, '/' ∉ hex n := by
    intro n hn
    obtain ⟨d, h1, h2⟩ := List.mem_map.1 hn
    exact hd d (digits_lt _ d h1) h2
  have ht : '/' ∉ hex num ++ hex pos := fun h => by
    rcases List.mem_append.1 h with h | h
    · exact hh num h
    · exact hh pos h
  refine ⟨⟨hex num ++ hex pos, ?_, ht⟩, ⟨hex num ++ hex pos, ?_, ht⟩, ⟨hex num ++ hex pos, ?_, ht⟩,
    ⟨hex num ++ hex pos, ?_, ht⟩, ⟨hex num ++ hex pos, ?_, ht⟩⟩
  · simp [fileName, base, dir]
  · simp [fileName, base, dir]
  · simp [fileName, base, dir]
  · simp [fileName, base, dir]
  · simp [fileName, base, dir]

/-! ### The hypotheses are met -/

example : (16 ^ 7 ≤ 2 ^ 31) ∧ (2 ^ 31 < 16 ^ (7 + 1)) ∧ (2 ^ 31 + 1 < 16 ^ (7 + 1)) ∧ (2 ^ 31 + 1 < 2 ^ 32) := by decide

/-- The buffer with the number 1 and the one with the number 1A (hexadecimal) share the file of the positions AB and B. -/
example : fileName none none ['W'] 0x1 0xAB = fileName none none ['W'] 0x1A 0xB := by
  have h := (C318_violated none none ['W'] 1 10 11 (by decide) (by decide) (by decide) (by decide) (by decide)).2.2
  exact h

end QDng.BufName
