import Verif.Model.VolumeLine
import Verif.Props.ProgressBar
import Verif.Props.Commands
/-!
# Property C111: the volume shown is the volume set
-/
set_option exponentiation.threshold 2100
namespace MS.Float64
open MS.Display

attribute [local irreducible] one

/-! ## Rounding to integers, again -/

theorem rhe_mono {p p' d : Nat} (hd : 0 < d) (h : p ≤ p') : rhe p d ≤ rhe p' d := by
  have h1 := Nat.div_add_mod p d
  have h2 := Nat.div_add_mod p' d
  have m1 := Nat.mod_lt p hd
  have m2 := Nat.mod_lt p' hd
  have hq : p / d ≤ p' / d := Nat.div_le_div_right h
  rcases Nat.lt_or_ge (p / d) (p' / d) with hlt | hge
  · rcases rhe_cases p d hd with a | a <;> rcases rhe_cases p' d hd with b | b <;> omega
  · have e : p / d = p' / d := by omega
    unfold rhe
    rw [e] at h1 ⊢
    repeat' split
    all_goals omega

/-- Rounded to the nearest integer. -/
theorem rhe_near (p d : Nat) (hd : 0 < d) : 2 * dist (rhe p d * d) p ≤ d := by
  have h1 := Nat.div_add_mod p d
  have m1 := Nat.mod_lt p hd
  unfold dist
  rcases rhe_cases p d hd with a | a
  · rw [a.1, Nat.mul_comm (p / d) d]; omega
  · rw [a.1, Nat.add_mul, Nat.mul_comm (p / d) d]; omega

theorem rhe_unique {p d k : Nat} (h : 2 * dist (k * d) p < d) : rhe p d = k := by
  have hd : 0 < d := by omega
  have h2 := rhe_near p d hd
  have h3 : dist (rhe p d * d) (k * d) < d := by unfold dist at *; omega
  rcases Nat.lt_trichotomy (rhe p d) k with hlt | heq | hgt
  · have := Nat.mul_le_mul_right d (show rhe p d + 1 ≤ k by omega)
    rw [Nat.add_mul] at this
    unfold dist at h3; omega
  · exact heq
  · have := Nat.mul_le_mul_right d (show k + 1 ≤ rhe p d by omega)
    rw [Nat.add_mul] at this
    unfold dist at h3; omega

/-! ## Digits -/

theorem dec_ge (n : Nat) (h : 10 ≤ n) : Fmt.dec n = Fmt.dec (n / 10) ++ [Fmt.digit (n % 10)] := by
  rw [Fmt.dec]; exact if_neg (by omega)

theorem dec_lt (n : Nat) (h : n < 10) : Fmt.dec n = [Fmt.digit n] := by
  rw [Fmt.dec]; exact if_pos h

theorem digit_mod (n : Nat) : Fmt.digit (n % 10) = Fmt.digit n := by unfold Fmt.digit; rw [Nat.mod_mod]

theorem dec0_2 (n : Nat) (h : n < 100) : Fmt.dec0 2 n = [Fmt.digit (n / 10), Fmt.digit n] := by
  unfold Fmt.dec0
  rcases Nat.lt_or_ge n 10 with h1 | h1
  · rw [dec_lt n h1, show n / 10 = 0 by omega]; rfl
  · rw [dec_ge n h1, dec_lt (n / 10) (by omega), digit_mod]; rfl

theorem dec0_3 (n : Nat) (h : n < 1000) : Fmt.dec0 3 n = [Fmt.digit (n / 100), Fmt.digit (n / 10), Fmt.digit n] := by
  unfold Fmt.dec0
  rcases Nat.lt_or_ge n 10 with h1 | h1
  · rw [dec_lt n h1, show n / 10 = 0 by omega, show n / 100 = 0 by omega]; rfl
  · rcases Nat.lt_or_ge n 100 with h2 | h2
    · rw [dec_ge n h1, dec_lt (n / 10) (by omega), digit_mod, show n / 100 = 0 by omega]; rfl
    · rw [dec_ge n h1, dec_ge (n / 10) (by omega), dec_lt (n / 10 / 10) (by omega), digit_mod, digit_mod,
        Nat.div_div_eq_div_mul]; rfl

/-- Specification: six characters `ddd.dd` for a number of hundredths below 1000. -/
def sixDigits (k : Nat) : List Char :=
  [Fmt.digit (k / 10000), Fmt.digit (k / 1000), Fmt.digit (k / 100), '.', Fmt.digit (k / 10), Fmt.digit k]

theorem padded (k : Nat) (h : k < 100000) : padTo 6 '0' (Fmt.dec (k / 100) ++ '.' :: Fmt.dec0 2 (k % 100)) = sixDigits k := by
  rw [dec0_2 _ (by omega), show k % 100 / 10 = k / 10 % 10 by omega, digit_mod,
    show Fmt.digit (k % 100) = Fmt.digit k by unfold Fmt.digit; congr 2; omega]
  unfold sixDigits
  rcases Nat.lt_or_ge (k / 100) 10 with h1 | h1
  · rw [dec_lt _ h1, show k / 1000 = 0 by omega, show k / 10000 = 0 by omega]; rfl
  · rcases Nat.lt_or_ge (k / 100) 100 with h2 | h2
    · rw [dec_ge _ h1, dec_lt (k / 100 / 10) (by omega), digit_mod, Nat.div_div_eq_div_mul, show k / 10000 = 0 by omega]; rfl
    · rw [dec_ge _ h1, dec_ge (k / 100 / 10) (by omega), dec_lt (k / 100 / 10 / 10) (by omega), digit_mod, digit_mod,
        show k / 100 / 10 / 10 = k / 10000 by omega, show k / 100 / 10 = k / 1000 by omega]; rfl

theorem padded5 (k : Nat) (h : k < 10000) :
    padTo 5 '0' (Fmt.dec (k / 100) ++ '.' :: Fmt.dec0 2 (k % 100)) = (sixDigits k).tail := by
  rw [dec0_2 _ (by omega), show k % 100 / 10 = k / 10 % 10 by omega, digit_mod,
    show Fmt.digit (k % 100) = Fmt.digit k by unfold Fmt.digit; congr 2; omega]
  unfold sixDigits
  rcases Nat.lt_or_ge (k / 100) 10 with h1 | h1
  · rw [dec_lt _ h1, show k / 1000 = 0 by omega]; rfl
  · rw [dec_ge _ h1, dec_lt (k / 100 / 10) (by omega), digit_mod, Nat.div_div_eq_div_mul]; rfl

theorem digit_facts (n : Nat) : (Fmt.digit n).toNat - 48 = n % 10 ∧ Fmt.digit n ≠ '.' := by
  have h : ∀ m : Fin 10, (Char.ofNat (48 + m.val)).toNat - 48 = m.val ∧ Char.ofNat (48 + m.val) ≠ '.' := by decide
  exact h ⟨n % 10, Nat.mod_lt _ (by omega)⟩

/-- The digits can be read back. -/
theorem sixDigits_value (k : Nat) (h : k < 100000) : Fmt.value ((sixDigits k).filter (· ≠ '.')) = k := by
  unfold sixDigits
  simp only [List.filter_cons, ne_eq, (digit_facts _).2, not_false_eq_true, decide_true, if_true, not_true_eq_false,
    decide_false, Bool.false_eq_true, if_false, List.filter_nil, Fmt.value, List.foldl_cons, List.foldl_nil, (digit_facts _).1]
  omega

/-! ## The line -/

theorem shift_le {p q n : Nat} (h : p / q < 2 ^ n) : shift p q ≤ n - 53 := by
  unfold shift
  by_cases hz : p / q = 0
  · rw [hz]; simp
  · have := (Nat.log2_lt hz).2 h
    omega

/-- Volume times 100, in units. -/
def percent (v : Nat) : Nat := roundPos (v * 100) 1

/-- The number of hundredths of a percent that is shown. -/
def shown (v : Nat) : Nat := rhe (percent v * 100) one

theorem percent_le {v : Nat} (h : v < 16 * one) : percent v ≤ 2 ^ 11 * one := by
  apply round_le (by omega)
  · rw [Nat.mul_comm]; exact rep_mul_pow rep_one 11
  · omega

theorem times_100 {v : Nat} (h : v < 16 * one) : mul (.fin v) (ofInt 100) = .fin (percent v) := by
  have hpos := one_pos
  rw [ofInt_small 100 (by decide)]
  simp only [mul]
  have e : ((v : Int) * (100 * (one : Int))).natAbs = v * 100 * one := by
    rw [← Int.mul_assoc, Int.natAbs_mul, Int.natAbs_mul]; rfl
  have hx : roundPos ((v : Int) * (100 * (one : Int))).natAbs one = percent v := by
    rw [e]
    have := roundPos_ratio (v * 100) 1 one hpos
    rwa [Nat.one_mul] at this
  rw [round_fin (by rw [hx]; exact Nat.lt_of_le_of_lt (percent_le h) (one_lim 11 (by omega))), hx, if_neg]
  have := Int.mul_nonneg (show (0 : Int) ≤ v by omega) (show (0 : Int) ≤ 100 * one by omega)
  omega

theorem neg_times_100 {v : Nat} (h : v < 16 * one) (h0 : 0 < v) : mul (.fin (-(v : Int))) (ofInt 100) = .fin (-(percent v : Int)) := by
  have hpos := one_pos
  rw [ofInt_small 100 (by decide)]
  simp only [mul]
  have e : (-(v : Int) * (100 * (one : Int))).natAbs = v * 100 * one := by
    rw [← Int.mul_assoc, Int.natAbs_mul, Int.natAbs_mul, Int.natAbs_neg]; rfl
  have hx : roundPos (-(v : Int) * (100 * (one : Int))).natAbs one = percent v := by
    rw [e]
    have := roundPos_ratio (v * 100) 1 one hpos
    rwa [Nat.one_mul] at this
  rw [round_fin (by rw [hx]; exact Nat.lt_of_le_of_lt (percent_le h) (one_lim 11 (by omega))), hx, if_pos]
  exact Int.mul_neg_of_neg_of_pos (by omega) (by omega)

theorem sign_pos {b : UInt64} (hb : b.toNat < 2 ^ 63) : signBit b = false := by
  unfold signBit; simp; omega

theorem text_eq {b : UInt64} {v : Nat} (hv : ofBits b = .fin v) (hb : b.toNat < 2 ^ 63) : volumeText b = fixed 3 v := by
  unfold volumeText
  rw [hv, sign_pos hb]
  simp [fmtFloat, padTo]

theorem line_eq {b : UInt64} {v : Nat} (hv : ofBits b = .fin v) (hb : b.toNat < 2 ^ 63) (h : v < 16 * one)
    (hk : shown v < 100000) : volumeLine b = "Volume: ".toList ++ sixDigits (shown v) ++ ['%'] := by
  unfold volumeLine
  rw [hv, times_100 h]
  have hs : signBit b = false := by unfold signBit; simp; omega
  simp only [fmtFloat, hs, Bool.false_eq_true, if_false, Int.natAbs_natCast]
  congr 2
  exact padded (shown v) hk

/-- The rounding error of the product. -/
theorem percent_error {v : Nat} (h : v < 16 * one) : 2 * dist (percent v) (v * 100) ≤ 2 ^ 1032 := by
  have he := round_err (v * 100) 1 (by omega)
  rw [Nat.mul_one, Nat.one_mul] at he
  refine Nat.le_trans he (Nat.pow_le_pow_right (by omega) ?_)
  refine shift_le (n := 1085) ?_
  have ho : (2 : Nat) ^ 1085 = 2 ^ 11 * one := by rw [one_eq, ← Nat.pow_add]
  rw [Nat.div_one, ho]
  omega

theorem shown_near {v : Nat} (h : v < 16 * one) : 2 * dist (shown v * one) (10000 * v) ≤ one + 100 * 2 ^ 1032 := by
  have h1 := rhe_near (percent v * 100) one one_pos
  have h2 := percent_error h
  have e : shown v = rhe (percent v * 100) one := rfl
  rw [e]
  generalize rhe (percent v * 100) one * one = x at *
  generalize 2 ^ 1032 = u at *
  unfold dist at *
  omega

theorem aux_top {x v u o : Nat} (hn : 2 * dist x (10000 * v) ≤ o + 100 * u) (h2 : 100000 * o ≤ x) (h : 10000 * v ≤ 99999 * o)
    (ho : o = 2 ^ 42 * u) (hpos : 0 < o) : False := by
  unfold dist at hn
  omega

theorem aux_top' {x v u o : Nat} (hn : 2 * dist x (10000 * v) ≤ o + 100 * u) (h2 : 10000 * o ≤ x) (h : 10000 * v ≤ 9999 * o)
    (ho : o = 2 ^ 42 * u) (hpos : 0 < o) : False := by
  unfold dist at hn
  omega

theorem aux_typed {x v P w u o : Nat} (h1 : 2 * dist (v * 10000) x ≤ 10000 * w) (h2 : w ≤ u)
    (h3 : 2 * dist P (v * 100) ≤ 128 * u) (ho : o = 2 ^ 49 * u) (hu : 0 < u) : 2 * dist x (P * 100) < o := by
  unfold dist at *
  omega

theorem aux_reply {x v w u o : Nat} (h1 : 2 * dist (v * 1000) x ≤ 1000 * w) (h2 : w ≤ u) (ho : o = 2 ^ 21 * u)
    (hu : 0 < u) : 2 * dist x (v * 1000) < o := by
  unfold dist at *
  omega

/-! ## C111 -/

/-- C111: for volumes from 0 to 9.9999 the infoer's volume line has the form `Volume: ddd.dd%`; the number shown, a multiple
of 0.01, is within 0.005 (and 2^-35 of that) of 100 times the volume. -/
theorem C111_near (b : UInt64) (v : Nat) (hv : ofBits b = .fin v) (hb : b.toNat < 2 ^ 63) (h : 10000 * v ≤ 99999 * one) :
    ∃ k, k < 100000 ∧ volumeLine b = "Volume: ".toList ++ sixDigits k ++ ['%'] ∧
      2 * dist (k * one) (10000 * v) ≤ one + 100 * 2 ^ 1032 := by
  have hpos := one_pos
  have hn := shown_near (v := v) (by omega)
  have hk : shown v < 100000 := by
    rcases Nat.lt_or_ge (shown v) 100000 with h1 | h1
    · exact h1
    · exfalso
      have h2 := Nat.mul_le_mul_right one h1
      have ho : one = 2 ^ 42 * 2 ^ 1032 := by rw [one_eq, ← Nat.pow_add]
      exact aux_top hn h2 h ho hpos
  exact ⟨shown v, hk, line_eq hv hb (by omega) hk, hn⟩

/-- C111: a higher volume is never shown as a lower one. -/
theorem C111_monotone (b b' : UInt64) (v v' : Nat) (hv : ofBits b = .fin v) (hv' : ofBits b' = .fin v') (hb : b.toNat < 2 ^ 63)
    (hb' : b'.toNat < 2 ^ 63) (h : v ≤ v') (h' : 10000 * v' ≤ 99999 * one) :
    ∃ k k', k ≤ k' ∧ k' < 100000 ∧ volumeLine b = "Volume: ".toList ++ sixDigits k ++ ['%'] ∧
      volumeLine b' = "Volume: ".toList ++ sixDigits k' ++ ['%'] := by
  have hm : shown v ≤ shown v' := rhe_mono one_pos (Nat.mul_le_mul_right _
    (round_mono (by omega) (by omega) (Nat.mul_le_mul_right _ (Nat.mul_le_mul_right _ h))))
  have hpos := one_pos
  have hn := shown_near (v := v') (by omega)
  have hk : shown v' < 100000 := by
    rcases Nat.lt_or_ge (shown v') 100000 with h1 | h1
    · exact h1
    · exfalso
      have h2 := Nat.mul_le_mul_right one h1
      have ho : one = 2 ^ 42 * 2 ^ 1032 := by rw [one_eq, ← Nat.pow_add]
      exact aux_top hn h2 h' ho hpos
  exact ⟨shown v, shown v', hm, hk, line_eq hv hb (by omega) (by omega), line_eq hv' hb' (by omega) hk⟩

/-- Specification: the float64 a correct parser gives for the decimal fraction `n / d`, not a negative zero. -/
def Parsed (b : UInt64) (n d : Nat) : Prop := ofBits b = round (n * one) d ∧ b.toNat < 2 ^ 63

theorem parsed_fin {b : UInt64} {n d : Nat} (h : Parsed b n d) (hd : 0 < d) (hn : n < 2 ^ 53) :
    ofBits b = .fin (roundPos (n * one) d) ∧ roundPos (n * one) d ≤ n * one := by
  have hle : roundPos (n * one) d ≤ n * one := quot_le_num n d hn hd
  refine ⟨?_, hle⟩
  rw [h.1]
  have e : ((n : Int) * (one : Int)).natAbs = n * one := by rw [Int.natAbs_mul]; rfl
  rw [round_fin (by
    rw [e]; exact Nat.lt_of_le_of_lt hle (Nat.lt_trans (Nat.mul_lt_mul_of_pos_right hn one_pos) (one_lim 53 (by omega)))), e, if_neg]
  have := Int.mul_nonneg (show (0 : Int) ≤ n by omega) (show (0 : Int) ≤ one by omega)
  omega

/-- C111: a volume typed with up to four decimals, below 10, is shown exactly. -/
theorem C111_typed (b : UInt64) (k : Nat) (hk : k < 100000) (h : Parsed b k 10000) :
    volumeLine b = "Volume: ".toList ++ sixDigits k ++ ['%'] := by
  obtain ⟨hv, _⟩ := parsed_fin h (by omega) (by omega)
  have hpos := one_pos
  have hd : k * one / 10000 < 2 ^ 1078 := by
    have ho : (2 : Nat) ^ 1078 = 16 * one := by rw [one_eq, show (16 : Nat) = 2 ^ 4 from rfl, ← Nat.pow_add]
    rw [ho, Nat.div_lt_iff_lt_mul (by omega), Nat.mul_right_comm]
    exact Nat.mul_lt_mul_of_pos_right (by omega) hpos
  have h1 := round_err (k * one) 10000 (by omega)
  have h2 := Nat.pow_le_pow_right (show 0 < 2 by omega) (shift_le hd)
  have hlt : roundPos (k * one) 10000 ≤ 10 * one := by
    apply round_le (by omega) (rep_int (by decide))
    rw [Nat.mul_right_comm]
    exact Nat.mul_le_mul_right _ (by omega)
  generalize roundPos (k * one) 10000 = v at *
  have h3 := percent_error (v := v) (by omega)
  have hs : shown v = k := by
    apply rhe_unique
    have ho : one = 2 ^ 49 * 2 ^ 1025 := by rw [one_eq, ← Nat.pow_add]
    have p1 : (2 : Nat) ^ 1032 = 128 * 2 ^ 1025 := by rw [show (128 : Nat) = 2 ^ 7 from rfl, ← Nat.pow_add]
    rw [p1] at h3
    exact aux_typed (u := 2 ^ 1025) h1 h2 h3 ho (Nat.two_pow_pos 1025)
  have := line_eq hv h.2 (by omega) (by omega)
  rwa [hs] at this

/-- C111: the server's reply to the volume command: a volume typed with up to three decimals is printed exactly. -/
theorem C111_reply (b : UInt64) (k : Nat) (hk : k < 2 ^ 32) (h : Parsed b k 1000) :
    volumeText b = Fmt.dec (k / 1000) ++ ['.', Fmt.digit (k / 100), Fmt.digit (k / 10), Fmt.digit k] := by
  obtain ⟨hv, _⟩ := parsed_fin h (by omega) (by omega)
  have hpos := one_pos
  have hd : k * one / 1000 < 2 ^ 1106 := by
    have ho : (2 : Nat) ^ 1106 = 2 ^ 32 * one := by rw [one_eq, ← Nat.pow_add]
    rw [ho, Nat.div_lt_iff_lt_mul (by omega)]
    exact Nat.lt_of_lt_of_le (Nat.mul_lt_mul_of_pos_right hk hpos) (Nat.le_mul_of_pos_right _ (by omega))
  have h1 := round_err (k * one) 1000 (by omega)
  have h2 := Nat.pow_le_pow_right (show 0 < 2 by omega) (shift_le hd)
  generalize roundPos (k * one) 1000 = v at *
  have hs : rhe (v * 1000) one = k := by
    apply rhe_unique
    have ho : one = 2 ^ 21 * 2 ^ 1053 := by rw [one_eq, ← Nat.pow_add]
    exact aux_reply (u := 2 ^ 1053) h1 h2 ho (Nat.two_pow_pos 1053)
  rw [text_eq hv h.2]
  clear h1 h2 hd h hv
  unfold fixed
  simp only []
  rw [show (10 : Nat) ^ 3 = 1000 from rfl, hs, dec0_3 _ (by omega)]
  rw [show k % 1000 / 100 = k / 100 % 10 by omega, digit_mod,
    show Fmt.digit (k % 1000 / 10) = Fmt.digit (k / 10) by unfold Fmt.digit; congr 2; omega,
    show Fmt.digit (k % 1000) = Fmt.digit k by unfold Fmt.digit; congr 2; omega]

/-- C111: what else may be shown: NaN and the infinities by name, negative volumes with a sign. -/
theorem C111_special (b : UInt64) :
    (ofBits b = .nan → volumeLine b = "Volume:    NaN%".toList) ∧
    (ofBits b = .inf false → volumeLine b = "Volume:   +Inf%".toList) ∧
    (ofBits b = .inf true → volumeLine b = "Volume:   -Inf%".toList) ∧
    (∀ v : Nat, 0 < v → 10000 * v ≤ 9999 * one → ofBits b = .fin (-(v : Int)) →
      ∃ k, k < 10000 ∧ volumeLine b = "Volume: -".toList ++ (sixDigits k).tail ++ ['%'] ∧
        2 * dist (k * one) (10000 * v) ≤ one + 100 * 2 ^ 1032) := by
  have hpos := one_pos
  refine ⟨fun h => ?_, fun h => ?_, fun h => ?_, fun v h0 hl h => ?_⟩
  · unfold volumeLine; rw [h]; rfl
  · unfold volumeLine; rw [h, ofInt_small 100 (by decide)]; simp only [mul]; rw [if_neg (by omega), decide_eq_false (by omega)]; rfl
  · unfold volumeLine; rw [h, ofInt_small 100 (by decide)]; simp only [mul]; rw [if_neg (by omega), decide_eq_false (by omega)]; rfl
  · have hs : signBit b = true := by
      unfold signBit
      rw [decide_eq_true_iff]
      rcases Nat.lt_or_ge b.toNat (2 ^ 63) with h1 | h1
      · exfalso
        unfold ofBits at h
        simp only at h
        rw [decide_eq_false (by omega)] at h
        split at h
        · split at h <;> simp at h
        · injection h with h
          simp at h
          omega
      · exact h1
    unfold volumeLine
    have hn := shown_near (v := v) (by omega)
    have hk : shown v < 10000 := by
      rcases Nat.lt_or_ge (shown v) 10000 with h1 | h1
      · exact h1
      · exfalso
        have h2 := Nat.mul_le_mul_right one h1
        have ho : one = 2 ^ 42 * 2 ^ 1032 := by rw [one_eq, ← Nat.pow_add]
        exact aux_top' hn h2 hl ho hpos
    rw [h, neg_times_100 (by omega) h0]
    simp only [fmtFloat, hs, if_true, Int.natAbs_neg, Int.natAbs_natCast]
    refine ⟨shown v, hk, ?_, hn⟩
    have e : fixed 2 (percent v) = Fmt.dec (shown v / 100) ++ '.' :: Fmt.dec0 2 (shown v % 100) := rfl
    rw [show (6 : Nat) - 1 = 5 from rfl, e, padded5 _ hk]
    rfl

/-- C111, on the screen: the volume line is shown at the right, next to the frame, unless the title takes the space (its
UTF-8 bytes count). -/
theorem C111_screen (size : Nat) (w h : Int) (hw : 2 ≤ w) (v : View) (b : UInt64) (k : Nat) (hk : k < 100000)
    (hp : Parsed b k 10000) (hv : v.volumeLine = volumeLine b) (name : List Char)
    (hname : (v.title ≠ [] ∧ name = v.title) ∨ (v.title = [] ∧ name = v.filename))
    (hroom : (byteLen name : Int) + 15 ≤ w - 2) (i : Nat) (hi : i < 15) :
    cell (redraw size w h v) (w - 16 + i) (h - 4) = ("Volume: ".toList ++ sixDigits k ++ ['%'])[i]? := by
  have ht := C111_typed b k hk hp
  rw [ht] at hv
  have hn : songLineName v = name := by
    unfold songLineName
    rcases hname with ⟨h1, h2⟩ | ⟨h1, h2⟩
    · rw [if_pos h1, h2]
    · rw [if_neg (by simp [h1]), h2]
  have hlen : ("Volume: ".toList ++ sixDigits k ++ ['%']).length = 15 := rfl
  generalize hl : "Volume: ".toList ++ sixDigits k ++ ['%'] = line at *
  have hd : ∀ n, (Fmt.digit n).toNat < 128 := fun n => by
    have h : ∀ m : Fin 10, (Char.ofNat (48 + m.val)).toNat < 128 := by decide
    exact h ⟨n % 10, Nat.mod_lt _ (by omega)⟩
  have hta : Ascii line := by
    rw [← hl]
    refine ascii_append (ascii_append (by unfold Ascii; decide) ?_) (by unfold Ascii; decide)
    unfold sixDigits
    exact ascii_cons (hd _) (ascii_cons (hd _) (ascii_cons (hd _) (ascii_cons (by decide) (ascii_cons (hd _) (ascii_cons (hd _)
      (by simp [Ascii]))))))
  unfold redraw
  rw [cell_append, cell_rows_none (fun z hz => by have := lyrics_rows size w h v z hz; omega), Option.none_or]
  unfold drawPlaybackInfo
  rw [hv, byteLen_ascii hta, hlen]
  have hfr : frame 0 (h - 5) w 5 (w - 16 + i) (h - 4) = none := by
    unfold frame
    repeat' split
    all_goals first | rfl | omega
  have r1 : cell (drawString 2 (h - 5) (playingString v)) (w - 16 + i) (h - 4) = none :=
    cell_rows_none (fun z hz => by have := drawString_row z hz; omega)
  have r2 : cell (drawProgress 1 (h - 2) (w - 2) (v.progress (w - 2))) (w - 16 + i) (h - 4) = none := by
    rw [cell_progress, if_neg (by omega)]
  have r3 : cell (drawString 1 (h - 3) (songLineArtistAlbum v)) (w - 16 + i) (h - 4) = none :=
    cell_rows_none (fun z hz => by have := drawString_row z hz; omega)
  have r4 : cell (drawString (w - byteLen (timeLine v) - 1) (h - 3) (timeLine v)) (w - 16 + i) (h - 4) = none :=
    cell_rows_none (fun z hz => by have := drawString_row z hz; omega)
  have r5 : cell (drawString 1 (h - 4) (songLineName v)) (w - 16 + i) (h - 4) = none := by
    rw [hn]
    exact cell_none (fun z hz ⟨hx, _⟩ => by have := drawString_end z hz; omega)
  rw [cell_append, r1, cell_append, C48_box 0 (h - 5) w 5 hw (by omega), hfr, cell_append, r2, cell_append, r3, cell_append, r4,
    cell_append, r5, show w - ((15 : Nat) : Int) - 1 = w - 16 by omega,
    (C67_text_partial (w - 16) (h - 4) line hta).1 i (by omega), List.getElem?_eq_getElem (by omega)]
  rfl

/-- The hypotheses can be met: 0.5 is 5000/10000, shown as `Volume: 050.00%`, and 0.1, the volume at the start, is
`Volume: 010.00%`. -/
example : volumeLine 0x3FE0000000000000 = "Volume: 050.00%".toList :=
  C111_typed _ 5000 (by omega) ⟨by
    rw [bits_half]
    have h : round (5000 * one) 10000 = .fin (2 ^ 1073 : Nat) := by
      have e : ((5000 : Int) * (one : Int)).natAbs = 2 ^ 1073 * 10000 := by
        rw [Int.natAbs_mul, one_eq]; rfl
      have hr : roundPos ((5000 : Int) * (one : Int)).natAbs 10000 = 2 ^ 1073 := by
        rw [e]; exact round_exact (by omega) (rep_pow 1073)
      rw [round_fin (by rw [hr, one_eq, ← Nat.pow_add]; exact Nat.pow_lt_pow_right (by omega) (by omega)), hr, if_neg]
      have := one_pos
      omega
    exact h.symm, by decide⟩

end MS.Float64
