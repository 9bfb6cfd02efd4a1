import Verif.Model.Fmt
/-!
# Facts about decimal numbers
-/
namespace MS.Fmt

theorem digit_toNat (n : Nat) : (digit n).toNat = 48 + n % 10 := by
  have h : n % 10 < 10 := Nat.mod_lt _ (by decide)
  simp only [digit]
  generalize n % 10 = k at *
  match k, h with
  | 0, _ => rfl | 1, _ => rfl | 2, _ => rfl | 3, _ => rfl | 4, _ => rfl
  | 5, _ => rfl | 6, _ => rfl | 7, _ => rfl | 8, _ => rfl | 9, _ => rfl

theorem value_snoc (s : List Char) (c : Char) : value (s ++ [c]) = 10 * value s + (c.toNat - 48) := by
  simp [value]

theorem value_dec (n : Nat) : value (dec n) = n := by
  induction n using Nat.strongRecOn with
  | ind n ih =>
    rw [dec]
    split
    · rename_i h
      simp only [value, List.foldl_cons, List.foldl_nil]
      rw [digit_toNat]; omega
    · rename_i h
      rw [value_snoc, ih (n / 10) (by omega), digit_toNat]; omega

theorem dec_inj {m n : Nat} (h : dec m = dec n) : m = n := by
  rw [← value_dec m, ← value_dec n, h]

theorem dec_ne_nil (n : Nat) : dec n ≠ [] := by
  rw [dec]; split <;> simp

/-- Only digits. -/
theorem dec_digits (n : Nat) : ∀ c ∈ dec n, 48 ≤ c.toNat ∧ c.toNat ≤ 57 := by
  induction n using Nat.strongRecOn with
  | ind n ih =>
    rw [dec]
    intro c hc
    split at hc
    · simp at hc; rw [hc, digit_toNat]; omega
    · rcases List.mem_append.1 hc with hc | hc
      · exact ih _ (by omega) c hc
      · simp at hc; rw [hc, digit_toNat]; omega

theorem dec_length_mono {m n : Nat} (h : m ≤ n) : (dec m).length ≤ (dec n).length := by
  induction n using Nat.strongRecOn generalizing m with
  | ind n ih =>
    by_cases hm : m < 10
    · have e : (dec m).length = 1 := by rw [dec, if_pos hm]; rfl
      have := List.length_pos_iff.2 (dec_ne_nil n)
      omega
    · have e : (dec m).length = (dec (m / 10)).length + 1 := by
        rw [dec, if_neg hm]; simp
      have e' : (dec n).length = (dec (n / 10)).length + 1 := by
        rw [dec, if_neg (by omega)]; simp
      have := @ih (n / 10) (by omega) (m / 10) (Nat.div_le_div_right h)
      omega

theorem dec_length_one {n : Nat} (h : n < 10) : (dec n).length = 1 := by
  rw [dec, if_pos h]; rfl

theorem value_zeros (k : Nat) (s : List Char) : value (List.replicate k '0' ++ s) = value s := by
  induction k with
  | zero => simp
  | succ k ih =>
    rw [List.replicate_succ, List.cons_append]
    have : value ('0' :: (List.replicate k '0' ++ s)) = value (List.replicate k '0' ++ s) := by
      simp [value]
    rw [this, ih]

theorem value_dec0 (w n : Nat) : value (dec0 w n) = n := by
  rw [dec0, value_zeros, value_dec]

theorem dec0_length (w n : Nat) : (dec0 w n).length = max w (dec n).length := by
  simp [dec0]; omega

theorem dec0_digits (w n : Nat) : ∀ c ∈ dec0 w n, 48 ≤ c.toNat ∧ c.toNat ≤ 57 := by
  intro c hc
  rcases List.mem_append.1 hc with hc | hc
  · rw [List.mem_replicate] at hc
    rw [hc.2]; decide
  · exact dec_digits n c hc

end MS.Fmt
