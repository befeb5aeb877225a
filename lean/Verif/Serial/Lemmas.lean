import Verif.Serial.Model

/-! # Lemmas about bytes and streams -/

namespace QDng.Serial

theorem le_length (n x : Nat) : (le n x).length = n := by
  induction n generalizing x with
  | zero => rfl
  | succ n ih => simp [le, ih]

theorem unle_le (n x : Nat) : unle (le n x) = x % 256 ^ n := by
  induction n generalizing x with
  | zero => simp [le, unle, Nat.mod_one]
  | succ n ih =>
    simp only [le, unle, ih]
    rw [Nat.pow_succ, Nat.mul_comm (256 ^ n) 256, Nat.mod_mul]

theorem unle_le_of_lt {n x : Nat} (h : x < 256 ^ n) : unle (le n x) = x := by
  rw [unle_le, Nat.mod_eq_of_lt h]

theorem unle_lt (bs : List Byte) : unle bs < 256 ^ bs.length := by
  induction bs with
  | nil => simp [unle]
  | cons b r ih =>
    simp only [unle, List.length_cons, Nat.pow_succ]
    have := b.isLt
    omega

theorem unle_append (a b : List Byte) : unle (a ++ b) = unle a + 256 ^ a.length * unle b := by
  induction a with
  | nil => simp [unle]
  | cons x r ih =>
    simp only [List.cons_append, unle, ih, List.length_cons, Nat.pow_succ]
    rw [Nat.mul_add, ← Nat.add_assoc, ← Nat.mul_assoc, Nat.mul_comm 256 (256 ^ r.length)]

theorem dbl_back (d : Dbl) : BitVec.ofNat 64 (unle (le 8 d.toNat)) = d := by
  rw [unle_le_of_lt (by have := d.isLt; omega)]
  simp

theorem read_append (a b : List Byte) (n : Nat) (h : a.length = n) :
    In.read { rest := a ++ b, fail := false } n = (a, { rest := b, fail := false }) := by
  subst h
  simp [In.read]

theorem read_short {L : List Byte} {n : Nat} (h : L.length < n) :
    In.read { rest := L, fail := false } n = (L, { rest := [], fail := true }) := by
  unfold In.read
  rw [if_neg (by simp), if_neg (by simp only; omega)]

theorem read_long {L : List Byte} {n : Nat} (h : n ≤ L.length) :
    In.read { rest := L, fail := false } n = (L.take n, { rest := L.drop n, fail := false }) := by
  unfold In.read
  rw [if_neg (by simp), if_pos h]

theorem read_failed (L : List Byte) (n : Nat) :
    In.read { rest := L, fail := true } n = ([], { rest := L, fail := true }) := by
  simp [In.read]

theorem read_length_le (s : In) (n : Nat) : (s.read n).1.length ≤ n := by
  unfold In.read
  split
  · simp
  · split
    · simp; omega
    · simp only; omega

theorem encC_length (z : Dbl × Dbl) : (encC z).length = 16 := by simp [encC, le_length]

theorem flatMap_encC_length (v : List (Dbl × Dbl)) : (v.flatMap encC).length = 16 * v.length := by
  induction v with
  | nil => rfl
  | cons z r ih => simp only [List.flatMap_cons, List.length_append, encC_length, ih, List.length_cons]; omega

theorem decCs_enc (v : List (Dbl × Dbl)) (b : List Byte) :
    decCs v.length (v.flatMap encC ++ b) = v := by
  induction v with
  | nil => rfl
  | cons z r ih =>
    obtain ⟨x, y⟩ := z
    have h1 : ∀ c : List Byte, ((le 8 x.toNat ++ le 8 y.toNat) ++ c).take 8 = le 8 x.toNat := by
      intro c
      rw [List.append_assoc, List.take_append_of_le_length (by simp [le_length])]
      rw [List.take_of_length_le (by simp [le_length])]
    have h2 : ∀ c : List Byte, (((le 8 x.toNat ++ le 8 y.toNat) ++ c).drop 8).take 8 = le 8 y.toNat := by
      intro c
      rw [List.append_assoc, List.drop_append_of_le_length (by simp [le_length]),
        List.drop_of_length_le (by simp [le_length]), List.nil_append,
        List.take_append_of_le_length (by simp [le_length]),
        List.take_of_length_le (by simp [le_length])]
    have h3 : ∀ c : List Byte, ((le 8 x.toNat ++ le 8 y.toNat) ++ c).drop 16 = c := by
      intro c
      rw [List.drop_append_of_le_length (by simp [le_length]),
        List.drop_of_length_le (by simp [le_length]), List.nil_append]
    simp only [List.length_cons, decCs, List.flatMap_cons, encC]
    rw [List.append_assoc, h1, h2, h3, dbl_back, dbl_back]
    congr 1

theorem decCs_enc' (v : List (Dbl × Dbl)) : decCs v.length (v.flatMap encC) = v := by
  have := decCs_enc v []
  simpa using this

theorem encDs_length (v : List Dbl) : (encDs v).length = 8 * v.length := by
  unfold encDs
  induction v with
  | nil => rfl
  | cons z r ih => simp only [List.flatMap_cons, List.length_append, le_length, ih, List.length_cons]; omega

theorem decDs_enc (v : List Dbl) : decDs v.length (encDs v) = v := by
  unfold encDs
  induction v with
  | nil => rfl
  | cons x r ih =>
    simp only [List.length_cons, decDs, List.flatMap_cons]
    rw [List.take_append_of_le_length (by simp [le_length]),
      List.take_of_length_le (by simp [le_length]),
      List.drop_append_of_le_length (by simp [le_length]),
      List.drop_of_length_le (by simp [le_length]), List.nil_append, dbl_back, ih]

theorem toInt32_small {n : Nat} (h : n < 2 ^ 31) : toInt32 n = n := by
  unfold toInt32
  have : n % 2 ^ 32 = n := Nat.mod_eq_of_lt (by omega)
  rw [this, if_pos h]

/-! ## Varints -/

theorem writeVarint_pos (v : Nat) : 0 < (writeVarint v).length := by
  rw [writeVarint]; split <;> simp

theorem readLoop_write (bits : Nat) (v num index : Nat) (rest : List Nat)
    (hnum : num < 2 ^ (7 * index)) (hv : v * 2 ^ (7 * index) < 2 ^ bits) :
    readLoop bits (writeVarint v ++ rest) num index
      = some (v * 2 ^ (7 * index) + num, index + (writeVarint v).length) := by
  induction v using Nat.strongRecOn generalizing num index with
  | ind v ih =>
    have key : ∀ b, b ≤ v → (((b % 128) <<< (7 * index)) % 2 ^ bits) ||| num
        = (b % 128) * 2 ^ (7 * index) + num := by
      intro b hb
      have hle : (b % 128) * 2 ^ (7 * index) ≤ v * 2 ^ (7 * index) :=
        Nat.mul_le_mul_right _ (Nat.le_trans (Nat.mod_le _ _) hb)
      rw [Nat.mod_eq_of_lt (by rw [Nat.shiftLeft_eq]; omega),
        ← Nat.shiftLeft_add_eq_or_of_lt hnum, Nat.shiftLeft_eq]
    rw [writeVarint]
    by_cases h : v > 127
    · rw [if_pos h]
      have h1 : (v % 128 + 128) % 128 = v % 128 := by omega
      simp only [List.cons_append, readLoop, h1]
      rw [key v (Nat.le_refl _), if_pos (by omega)]
      have e1 : 7 * (index + 1) = 7 * index + 7 := by omega
      have hlt : v % 128 * 2 ^ (7 * index) + num < 2 ^ (7 * (index + 1)) := by
        rw [e1, Nat.pow_add]
        have : v % 128 < 128 := Nat.mod_lt _ (by decide)
        have h3 : (v % 128) * 2 ^ (7 * index) + 2 ^ (7 * index) ≤ 128 * 2 ^ (7 * index) := by
          rw [← Nat.succ_mul]
          exact Nat.mul_le_mul_right _ this
        have : 2 ^ (7 * index) * 2 ^ 7 = 128 * 2 ^ (7 * index) := by omega
        omega
      have hmul : v / 128 * 2 ^ (7 * (index + 1)) = (v / 128 * 128) * 2 ^ (7 * index) := by
        rw [e1, Nat.pow_add, Nat.mul_assoc, Nat.mul_comm (2 ^ (7 * index))]
      have hv' : v / 128 * 2 ^ (7 * (index + 1)) < 2 ^ bits := by
        rw [hmul]
        refine Nat.lt_of_le_of_lt (Nat.mul_le_mul_right _ ?_) hv
        exact Nat.div_mul_le_self v 128
      rw [ih (v / 128) (by omega) _ _ hlt hv', hmul]
      have h4 : (v / 128 * 128) * 2 ^ (7 * index) + (v % 128 * 2 ^ (7 * index) + num)
          = v * 2 ^ (7 * index) + num := by
        rw [← Nat.add_assoc, ← Nat.add_mul]
        congr 2
        omega
      rw [h4]
      simp only [List.length_cons]
      congr 2
      omega
    · rw [if_neg h]
      have h1 : v % 128 = v := Nat.mod_eq_of_lt (by omega)
      simp only [List.cons_append, List.nil_append, readLoop]
      rw [key v (Nat.le_refl _), h1, if_neg h]
      rfl

theorem writeVarint_length_lt {k v : Nat} (h : v < 128 ^ (k + 1)) : (writeVarint v).length ≤ k + 1 := by
  induction k generalizing v with
  | zero =>
    rw [writeVarint, if_neg (by simp at h; omega)]; simp
  | succ k ih =>
    rw [writeVarint]
    split
    · simp only [List.length_cons]
      have := ih (v := v / 128) (by rw [Nat.div_lt_iff_lt_mul (by decide)]; rw [← Nat.pow_succ]; exact h)
      omega
    · simp

theorem writeVarint_length_ge {k v : Nat} (h : 128 ^ k ≤ v) : k + 1 ≤ (writeVarint v).length := by
  induction k generalizing v with
  | zero => have := writeVarint_pos v; omega
  | succ k ih =>
    rw [writeVarint]
    have h128 : 128 ≤ v := by
      refine Nat.le_trans ?_ h
      rw [Nat.pow_succ]
      have : 0 < 128 ^ k := Nat.pow_pos (by decide)
      omega
    rw [if_pos (by omega)]
    simp only [List.length_cons]
    have := ih (v := v / 128) (by rw [Nat.le_div_iff_mul_le (by decide), ← Nat.pow_succ]; exact h)
    omega

theorem varint_len (k v : Nat) (h1 : 128 ^ k ≤ v) (h2 : v < 128 ^ (k + 1)) :
    (writeVarint v).length = k + 1 :=
  Nat.le_antisymm (writeVarint_length_lt h2) (writeVarint_length_ge h1)

end QDng.Serial
