import Verif.Props.Float64
/-!
# Properties C108 and C109: the volume scales what is heard; at full volume a recording is played bit for bit
-/
set_option exponentiation.threshold 2100
namespace MS.Float64
open MS.Pcm
attribute [local irreducible] one

/-- Specification: the level (-32768 .. 32767) the sound device gets for a sample at a volume. -/
def heard (volume sample : UInt64) : Int := le16 (sampleBytes volume sample)

/-! ## The values of bit patterns -/

theorem lim_eq : 2 ^ 1024 * one = 2 ^ 53 * 2 ^ 2045 := by rw [one_eq]

/-- Every bit pattern that is not NaN or infinite stands for a value with 53 significant bits below 2^1024. -/
theorem ofBits_rep {b : UInt64} {z : Int} (h : ofBits b = .fin z) : Rep z.natAbs ∧ z.natAbs < 2 ^ 1024 * one := by
  simp only [ofBits] at h
  split at h
  · split at h <;> simp at h
  · rename_i he
    simp only [F.fin.injEq] at h
    generalize hm : (if b.toNat / 2 ^ 52 % 2 ^ 11 = 0 then b.toNat % 2 ^ 52
      else (2 ^ 52 + b.toNat % 2 ^ 52) * 2 ^ (b.toNat / 2 ^ 52 % 2 ^ 11 - 1)) = m at h
    have hz : z.natAbs = m := by rw [← h]; split <;> omega
    rw [hz]
    have hf : b.toNat % 2 ^ 52 < 2 ^ 52 := Nat.mod_lt _ (by decide)
    split at hm
    · refine ⟨rep_small (by omega), ?_⟩
      rw [lim_eq]
      have := Nat.two_pow_pos 2045
      omega
    · rename_i hne
      have hlt : b.toNat / 2 ^ 52 % 2 ^ 11 < 2 ^ 11 := Nat.mod_lt _ (by decide)
      generalize b.toNat / 2 ^ 52 % 2 ^ 11 = e at *
      generalize b.toNat % 2 ^ 52 = f at *
      refine ⟨⟨2 ^ 52 + f, e - 1, hm.symm, by omega⟩, ?_⟩
      rw [lim_eq, ← hm]
      calc (2 ^ 52 + f) * 2 ^ (e - 1) ≤ (2 ^ 52 + f) * 2 ^ 2045 :=
            Nat.mul_le_mul_left _ (Nat.pow_le_pow_right (by omega) (by omega))
        _ < 2 ^ 53 * 2 ^ 2045 := Nat.mul_lt_mul_of_pos_right (by omega) (Nat.two_pow_pos _)

theorem cast_one : ((2 : Int) ^ 1074) = (one : Int) := by rw [one_eq]; exact (Int.natCast_pow 2 1074).symm

/-- The level of a value in [-1, 1). -/
theorem level_fin {z : Int} (h1 : -(one : Int) ≤ z) (h2 : z < one) : le16 (convertF (.fin z)) = (z * 32768).tdiv one := by
  have := C17_value ⟨z, 1074⟩ (by simp only [cast_one]; exact h1) (by simp only [cast_one]; exact h2)
  simp only [cast_one] at this
  exact this

theorem level_high {z : Int} (h : (one : Int) ≤ z) : le16 (convertF (.fin z)) = -32768 :=
  C17_full_scale_flips_sign ⟨z, 1074⟩ (by simp only [cast_one]; exact h)

theorem level_low {z : Int} (h : z < -(one : Int)) : le16 (convertF (.fin z)) = -32768 :=
  C17_clip_low ⟨z, 1074⟩ (by simp only [cast_one]; exact h)

theorem level_inf (n : Bool) : le16 (convertF (.inf n)) = -32768 := by cases n <;> rfl

theorem one_lt_lim : one < 2 ^ 1024 * one := by
  have := one_pos
  have h2 : 2 * one ≤ 2 ^ 1024 * one := Nat.mul_le_mul_right _ (by
    rw [show (1024 : Nat) = 1023 + 1 from rfl, Nat.pow_succ]
    have := Nat.two_pow_pos 1023
    omega)
  omega

/-- Rounding of a magnitude that does not overflow. -/
theorem round_fin {p : Int} {q : Nat} (h : roundPos p.natAbs q < 2 ^ 1024 * one) :
    round p q = .fin (if p < 0 then -(roundPos p.natAbs q : Int) else roundPos p.natAbs q) := by
  simp only [round]
  rw [if_neg (by omega)]

/-- The magnitude of the product of two values, as rounded. -/
def prod (x v : Int) : Nat := roundPos (x * v).natAbs one

theorem prod_le {x v : Int} (h : (x * v).natAbs ≤ one * one) : prod x v ≤ one := round_le one_pos rep_one h

theorem mul_fin {x v : Int} (h : (x * v).natAbs ≤ one * one) :
    mul (.fin x) (.fin v) = .fin (if x * v < 0 then -(prod x v : Int) else prod x v) := by
  simp only [mul]
  exact round_fin (Nat.lt_of_le_of_lt (prod_le h) one_lt_lim)

/-- The largest float64 below 1. -/
theorem rep_lt_one {z : Nat} (h : Rep z) (hz : z < one) : z ≤ (2 ^ 53 - 1) * 2 ^ 1021 := by
  have ho : one = 2 ^ 53 * 2 ^ 1021 := by rw [one_eq]
  have hu := Nat.two_pow_pos 1021
  rcases rep_grid h 1021 with ⟨c, rfl⟩ | ⟨_, hlt⟩
  · rw [ho] at hz
    have := Nat.lt_of_mul_lt_mul_right hz
    exact Nat.mul_le_mul_right _ (by omega)
  · rw [Nat.pow_add] at hlt
    generalize 2 ^ 1021 = u at *
    omega

theorem mul_le_sq {a b : Nat} (ha : a ≤ one) (hb : b ≤ one) : a * b ≤ one * one := Nat.mul_le_mul ha hb

/-- A product of two values up to 1 is 1 only if both are. -/
theorem prod_lt_one {x v : Int} (hx : Rep x.natAbs) (hv : Rep v.natAbs) (hx1 : x.natAbs ≤ one) (hv1 : v.natAbs ≤ one)
    (hn : ¬ (x.natAbs = one ∧ v.natAbs = one)) : prod x v < one := by
  have ho : one = 2 ^ 53 * 2 ^ 1021 := by rw [one_eq]
  have hu := Nat.two_pow_pos 1021
  have hr : Rep ((2 ^ 53 - 1) * 2 ^ 1021) := ⟨_, _, rfl, by decide⟩
  have hlt : (2 ^ 53 - 1) * 2 ^ 1021 < one := by rw [ho]; exact Nat.mul_lt_mul_of_pos_right (by omega) hu
  refine Nat.lt_of_le_of_lt (round_le one_pos hr ?_) hlt
  rw [Int.natAbs_mul]
  rcases Nat.lt_or_ge x.natAbs one with h | h
  · exact Nat.mul_le_mul (rep_lt_one hx h) hv1
  · have h2 : v.natAbs < one := by omega
    rw [Nat.mul_comm]
    exact Nat.mul_le_mul (rep_lt_one hv h2) hx1

/-! ## C108 -/

/-- C108: at volume 0 nothing is heard, whatever the sample (also if it is NaN or infinite). -/
theorem C108_silent (volume sample : UInt64) (h : ofBits volume = .fin 0) : heard volume sample = 0 := by
  unfold heard sampleBytes
  rw [h]
  cases ofBits sample with
  | nan => rfl
  | inf n => simp [mul]; rfl
  | fin x =>
    rw [mul_fin (by simp)]
    have hp : prod x 0 = 0 := by
      unfold prod
      have := round_exact one_pos rep_zero
      simpa using this
    rw [hp]
    have := one_pos
    rw [level_fin (by simp) (by simp; omega)]
    simp

/-- C108: at volume 1 every sample is converted as it is. -/
theorem C108_unchanged (volume sample : UInt64) (h : ofBits volume = .fin one) :
    heard volume sample = le16 (convertF (ofBits sample)) := by
  unfold heard sampleBytes
  rw [h]
  have hpos := one_pos
  cases hs : ofBits sample with
  | nan => rfl
  | inf n =>
    simp only [mul]
    rw [if_neg (by omega), level_inf, level_inf]
  | fin x =>
    obtain ⟨hr, hl⟩ := ofBits_rep hs
    simp only [mul]
    have e : (x * one).natAbs = x.natAbs * one := by rw [Int.natAbs_mul]; simp
    have hx : roundPos (x * one).natAbs one = x.natAbs := by rw [e]; exact round_exact hpos hr
    rw [round_fin (by rw [hx]; exact hl), hx]
    have hneg : x * (one : Int) < 0 ↔ x < 0 := by
      constructor
      · intro h1
        rcases Int.lt_or_le x 0 with h2 | h2
        · exact h2
        · have := Int.mul_nonneg h2 (show (0 : Int) ≤ one by omega); omega
      · intro h1; exact Int.mul_neg_of_neg_of_pos h1 (by omega)
    congr 3
    by_cases h2 : x < 0
    · rw [if_pos (hneg.2 h2)]; omega
    · rw [if_neg (fun h3 => h2 (hneg.1 h3))]; omega

theorem natAbs_le {x : Int} (h1 : -(one : Int) ≤ x) (h2 : x ≤ one) : x.natAbs ≤ one := by omega

/-- What is heard, for values up to 1 (without the case of both being 1). -/
theorem heard_eq {volume sample : UInt64} {x v : Int} (hv : ofBits volume = .fin v) (hs : ofBits sample = .fin x)
    (hv0 : 0 ≤ v) (hv1 : v ≤ one) (hx0 : -(one : Int) ≤ x) (hx1 : x ≤ one) (hn : ¬ (x = one ∧ v = one)) :
    heard volume sample = ((if x < 0 then -(prod x v : Int) else prod x v) * 32768).tdiv one := by
  unfold heard sampleBytes
  rw [hv, hs]
  have hle : (x * v).natAbs ≤ one * one := by
    rw [Int.natAbs_mul]; exact mul_le_sq (natAbs_le hx0 hx1) (by omega)
  have hp := prod_le hle
  rw [mul_fin hle]
  have hpos := one_pos
  have e : (if x * v < 0 then -(prod x v : Int) else prod x v) = if x < 0 then -(prod x v : Int) else prod x v := by
    by_cases h : x < 0
    · rw [if_pos h]
      by_cases h2 : v = 0
      · subst h2
        have hp0 : prod x 0 = 0 := by
          unfold prod
          have := round_exact hpos rep_zero
          simpa using this
        simp [hp0]
      · rw [if_pos (Int.mul_neg_of_neg_of_pos h (by omega))]
    · rw [if_neg h, if_neg (by have := Int.mul_nonneg (show 0 ≤ x by omega) hv0; omega)]
  rw [e]
  apply level_fin
  · split <;> omega
  · split
    · omega
    · have := prod_lt_one (ofBits_rep hs).1 (ofBits_rep hv).1 (natAbs_le hx0 hx1) (by omega) (by omega)
      omega

/-- C108, the part that holds, 1: for a sample `x` between -1 and 1 and a volume `v` between 0 and 1 (in units of
2^-1074, `one` is 1.0) what is heard is `x * v`, in levels of 1/32768, with an error below 1 + 2^-38 levels.
Missing from the full property: `x = v = 1` (`C108_flips`). -/
theorem C108_scaled_partial (volume sample : UInt64) (x v : Int) (hv : ofBits volume = .fin v)
    (hs : ofBits sample = .fin x) (hv0 : 0 ≤ v) (hv1 : v ≤ one) (hx0 : -(one : Int) ≤ x) (hx1 : x ≤ one)
    (hn : ¬ (x = one ∧ v = one)) :
    (heard volume sample * one * one - 32768 * (x * v)).natAbs < one * one + one * 2 ^ 1036 := by
  rw [heard_eq hv hs hv0 hv1 hx0 hx1 hn]
  have hpos := one_pos
  have hle : (x * v).natAbs ≤ one * one := by
    rw [Int.natAbs_mul]; exact mul_le_sq (natAbs_le hx0 hx1) (by omega)
  -- the error of the product
  have hsh : shift (x * v).natAbs one ≤ 1022 := by
    unfold shift
    have h1 : (x * v).natAbs / one ≤ one := Nat.div_le_of_le_mul hle
    have h2 : (x * v).natAbs / one < 2 ^ 1075 := Nat.lt_of_le_of_lt h1 (by
      rw [one_eq]; exact Nat.pow_lt_pow_right (by omega) (by omega))
    by_cases h0 : (x * v).natAbs / one = 0
    · rw [h0]; simp
    · have := (Nat.log2_lt h0).2 h2
      omega
  have herr : dist (prod x v * one) (x * v).natAbs * 2 ≤ one * 2 ^ 1022 := by
    have hm : one * 2 ^ shift (x * v).natAbs one ≤ one * 2 ^ 1022 :=
      Nat.mul_le_mul_left _ (Nat.pow_le_pow_right (by omega) hsh)
    unfold dist prod
    rcases round_error (x * v).natAbs one hpos with h | h <;> omega
  have e22 : one * 2 ^ 1022 = 2 * (one * 2 ^ 1021) := by
    rw [show (1022 : Nat) = 1021 + 1 from rfl, Nat.pow_succ]
    rw [Nat.mul_comm (2 ^ 1021) 2, Nat.mul_left_comm]
  have e36 : one * 2 ^ 1036 = 32768 * (one * 2 ^ 1021) := by
    rw [show (1036 : Nat) = 15 + 1021 from rfl, Nat.pow_add, Nat.mul_left_comm]
  generalize hz : (if x < 0 then -(prod x v : Int) else prod x v) = z
  have hzp : (z * one - x * v).natAbs ≤ one * 2 ^ 1021 := by
    unfold dist at herr
    by_cases h : x < 0
    · rw [if_pos h] at hz
      have h2 : x * v ≤ 0 := Int.mul_nonpos_of_nonpos_of_nonneg (by omega) hv0
      have : z * one = -((prod x v * one : Nat) : Int) := by rw [← hz, Int.neg_mul]; rfl
      omega
    · rw [if_neg h] at hz
      have h2 : 0 ≤ x * v := Int.mul_nonneg (by omega) hv0
      have : z * one = ((prod x v * one : Nat) : Int) := by rw [← hz]; rfl
      omega
  -- the error of the truncation
  generalize ht : (z * 32768).tdiv one = t
  have h1 := Int.tmod_add_mul_tdiv (z * 32768) one
  rw [ht] at h1
  have h2 : ((z * 32768).tmod one).natAbs < one := by
    have := Int.natAbs_tmod (z * 32768) one
    rw [this]
    exact Nat.mod_lt _ hpos
  generalize hm : (z * 32768).tmod one = m at *
  have e1 : t * one * one = (z * one) * 32768 - m * one := by
    have : t * one = z * 32768 - m := by rw [Int.mul_comm]; omega
    rw [this, Int.sub_mul, Int.mul_right_comm]
  have e2 : (m * one).natAbs < one * one := by
    rw [Int.natAbs_mul]
    exact Nat.mul_lt_mul_of_pos_right h2 hpos
  rw [e1]
  omega

/-- C108, the part that holds, 2: a higher volume is never quieter, and the sign of the sample is kept.
Missing from the full property: a sample of 1 at volume 1 (`C108_flips`). -/
theorem C108_monotone_partial (volume volume' sample : UInt64) (x v w : Int) (hv : ofBits volume = .fin v)
    (hw : ofBits volume' = .fin w) (hs : ofBits sample = .fin x) (hv0 : 0 ≤ v) (hvw : v ≤ w) (hw1 : w ≤ one)
    (hx0 : -(one : Int) ≤ x) (hx1 : x ≤ one) (hn : ¬ (x = one ∧ w = one)) :
    if x < 0 then heard volume' sample ≤ heard volume sample ∧ heard volume sample ≤ 0
    else 0 ≤ heard volume sample ∧ heard volume sample ≤ heard volume' sample := by
  have hpos := one_pos
  rw [heard_eq hv hs hv0 (by omega) hx0 hx1 (by omega), heard_eq hw hs (by omega) hw1 hx0 hx1 hn]
  have hm : prod x v ≤ prod x w := by
    apply round_mono hpos hpos
    apply Nat.mul_le_mul_right
    rw [Int.natAbs_mul, Int.natAbs_mul]
    exact Nat.mul_le_mul_left _ (by omega)
  by_cases h : x < 0
  · rw [if_pos h, if_pos h, if_pos h]
    refine ⟨tdiv_mono_num (by omega) (by omega), ?_⟩
    have := tdiv_mono_num (a := -(prod x v : Int) * 32768) (c := 0) (b := one) (by omega) (by omega)
    simpa using this
  · rw [if_neg h, if_neg h, if_neg h]
    exact ⟨Int.tdiv_nonneg (by omega) (by omega), tdiv_mono_num (by omega) (by omega)⟩

theorem mul_big {x v : Int} (h : one * one ≤ (x * v).natAbs) :
    (∃ n, mul (.fin x) (.fin v) = .inf n) ∨ ∃ z, mul (.fin x) (.fin v) = .fin z ∧ one ≤ z.natAbs ∧ (z < 0 ↔ x * v < 0) := by
  have hpos := one_pos
  have hp : one ≤ prod x v := le_round hpos rep_one h
  simp only [mul]
  rcases Nat.lt_or_ge (prod x v) (2 ^ 1024 * one) with hl | hl
  · refine .inr ⟨_, round_fin hl, ?_⟩
    change one ≤ (if x * v < 0 then -(prod x v : Int) else prod x v).natAbs ∧
      ((if x * v < 0 then -(prod x v : Int) else prod x v) < 0 ↔ x * v < 0)
    split <;> omega
  · refine .inl ⟨decide (x * v < 0), ?_⟩
    simp only [round]
    exact if_pos hl

/-- C108 fails: whenever sample times volume is 1 or more - a full-scale sample at volume 1, and every loud one at a
volume above 1, which the volume command accepts - what is heard is the most negative level. -/
theorem C108_flips (volume sample : UInt64) (x v : Int) (hv : ofBits volume = .fin v) (hs : ofBits sample = .fin x)
    (h : ((one * one : Nat) : Int) ≤ x * v) : heard volume sample = -32768 := by
  unfold heard sampleBytes
  rw [hv, hs]
  rcases mul_big (x := x) (v := v) (by omega) with ⟨n, hm⟩ | ⟨z, hm, hz, hneg⟩
  · rw [hm]; exact level_inf n
  · rw [hm]; exact level_high (by omega)

/-- C108: products of -1 and less are clipped to the most negative level, as they should. -/
theorem C108_clipped (volume sample : UInt64) (x v : Int) (hv : ofBits volume = .fin v) (hs : ofBits sample = .fin x)
    (h : x * v ≤ -((one * one : Nat) : Int)) : heard volume sample = -32768 := by
  unfold heard sampleBytes
  rw [hv, hs]
  have hpos := one_pos
  rcases mul_big (x := x) (v := v) (by omega) with ⟨n, hm⟩ | ⟨z, hm, hz, hneg⟩
  · rw [hm]; exact level_inf n
  · rw [hm]
    have hsq : 0 < one * one := Nat.mul_pos hpos hpos
    have hz0 : z < 0 := hneg.2 (by omega)
    rcases Int.lt_or_le z (-(one : Int)) with h1 | h1
    · exact level_low h1
    · rw [level_fin h1 (by omega), show z = -(one : Int) by omega, Int.neg_mul, Int.neg_tdiv, Int.mul_comm,
        Int.mul_tdiv_cancel _ (by omega)]

/-- C108: a volume that is not a number, which the volume command accepts too, silences everything; an infinite one
turns every sample but 0 into the most negative level. -/
theorem C108_special (volume sample : UInt64) :
    (ofBits volume = .nan → heard volume sample = 0) ∧
    (∀ n x, ofBits volume = .inf n → ofBits sample = .fin x → heard volume sample = if x = 0 then 0 else -32768) := by
  unfold heard sampleBytes
  constructor
  · intro h
    rw [h]
    cases ofBits sample <;> rfl
  · intro n x h hs
    rw [h, hs]
    simp only [mul]
    split
    · rfl
    · exact level_inf _

/-- C108: the buffer for the sound device holds, for every sample in order, the two bytes of the first and the two of the
second channel, each scaled by the volume at that moment, whatever it held before. -/
theorem C108_buffer (volumes : Nat → UInt64) (samples : List (UInt64 × UInt64)) (old : List Int)
    (h : old.length = 4 * samples.length) :
    audioBufFrom volumes 0 samples old = (samples.mapIdx fun i s =>
      [(sampleBytes (volumes (2 * i)) s.1).1, (sampleBytes (volumes (2 * i)) s.1).2,
       (sampleBytes (volumes (2 * i + 1)) s.2).1, (sampleBytes (volumes (2 * i + 1)) s.2).2]).flatten := by
  have key : ∀ (samples : List (UInt64 × UInt64)) (pre old : List Int) (i : Nat), pre.length = 4 * i →
      old.length = 4 * samples.length → audioBufFrom volumes i samples (pre ++ old) = pre ++ (samples.mapIdx fun j s =>
        [(sampleBytes (volumes (2 * (i + j))) s.1).1, (sampleBytes (volumes (2 * (i + j))) s.1).2,
         (sampleBytes (volumes (2 * (i + j) + 1)) s.2).1, (sampleBytes (volumes (2 * (i + j) + 1)) s.2).2]).flatten := by
    intro samples
    induction samples with
    | nil => intro pre old i hp ho; simp at ho; simp [audioBufFrom, ho]
    | cons s rest ih =>
      intro pre old i hp ho
      obtain ⟨a, b⟩ := s
      match old, ho with
      | x0 :: x1 :: x2 :: x3 :: old', ho =>
        simp only [List.length_cons] at ho
        simp only [audioBufFrom, put]
        generalize hx : sampleBytes (volumes (2 * i)) a = x
        generalize hy : sampleBytes (volumes (2 * i + 1)) b = y
        have : (((((pre ++ x0 :: x1 :: x2 :: x3 :: old').set (i * 4 + 0 * 2 + 0) x.1).set (i * 4 + 0 * 2 + 1)
            x.2).set (i * 4 + 1 * 2 + 0) y.1).set (i * 4 + 1 * 2 + 1) y.2) =
            (pre ++ [x.1, x.2, y.1, y.2]) ++ old' := by
          have e : i * 4 = pre.length := by omega
          simp [e, Nat.add_assoc]
        rw [this, ih _ _ (i + 1) (by simp; omega) (by omega)]
        simp only [List.mapIdx_cons, List.flatten_cons, Nat.add_zero, hx, hy, List.append_assoc]
        simp only [Nat.add_assoc, Nat.add_comm 1]
      | [], ho => simp at ho
      | [_], ho => simp at ho; omega
      | [_, _], ho => simp at ho; omega
      | [_, _, _], ho => simp at ho; omega
  have := key samples [] old 0 rfl h
  simpa using this

/-! ## Which values bit patterns have -/

theorem ofBits_ofNat (sg : Bool) (e f : Nat) (he : e < 2047) (hf : f < 2 ^ 52) :
    ofBits (UInt64.ofNat ((if sg then 2 ^ 63 else 0) + e * 2 ^ 52 + f)) =
      .fin (if sg then -((if e = 0 then f else (2 ^ 52 + f) * 2 ^ (e - 1) : Nat) : Int)
        else ((if e = 0 then f else (2 ^ 52 + f) * 2 ^ (e - 1) : Nat) : Int)) := by
  generalize hb : (if sg then 2 ^ 63 else 0) + e * 2 ^ 52 + f = b
  have hlt : b < 2 ^ 64 := by rw [← hb]; split <;> omega
  have ht : (UInt64.ofNat b).toNat = b := UInt64.toNat_ofNat_of_lt' hlt
  have h1 : b / 2 ^ 52 % 2 ^ 11 = e := by rw [← hb]; split <;> omega
  have h2 : b % 2 ^ 52 = f := by rw [← hb]; split <;> omega
  have h3 : decide (2 ^ 63 ≤ b) = sg := by
    rw [← hb]
    cases sg
    · simp; omega
    · simp; omega
  unfold ofBits
  simp only [ht, h1, h2, h3]
  rw [if_neg (by omega)]

/-- The values of the finite bit patterns are exactly those with 53 significant bits below 2^1024. -/
theorem ofBits_iff (z : Int) : (∃ b, ofBits b = .fin z) ↔ Rep z.natAbs ∧ z.natAbs < 2 ^ 1024 * one := by
  refine ⟨fun ⟨b, h⟩ => ofBits_rep h, ?_⟩
  rintro ⟨hr, hl⟩
  have key : ∃ e f : Nat, e < 2047 ∧ f < 2 ^ 52 ∧ (if e = 0 then f else (2 ^ 52 + f) * 2 ^ (e - 1)) = z.natAbs := by
    generalize z.natAbs = n at *
    rcases Nat.lt_or_ge n (2 ^ 52) with h | h
    · exact ⟨0, n, by omega, h, by simp⟩
    · have hn : n ≠ 0 := by have := Nat.two_pow_pos 52; omega
      have hL : 52 ≤ n.log2 := (Nat.le_log2 hn).2 h
      have hU : n.log2 < 2098 := by
        apply (Nat.log2_lt hn).2
        rw [lim_eq, ← Nat.pow_add] at hl
        exact hl
      have h1 := Nat.log2_self_le hn
      have h2 := @Nat.lt_log2_self n
      rcases rep_grid hr (n.log2 - 52) with ⟨c, hc⟩ | ⟨_, hlt⟩
      · have hp := Nat.two_pow_pos (n.log2 - 52)
        have e1 : 2 ^ n.log2 = 2 ^ 52 * 2 ^ (n.log2 - 52) := by rw [← Nat.pow_add]; congr 1; omega
        have e2 : 2 ^ (n.log2 + 1) = 2 ^ 53 * 2 ^ (n.log2 - 52) := by rw [← Nat.pow_add]; congr 1; omega
        have g1 : 2 ^ 52 ≤ c := by
          rw [e1] at h1
          exact Nat.le_of_mul_le_mul_right (Nat.le_trans h1 (Nat.le_of_eq hc)) hp
        have g2 : c < 2 ^ 53 := by
          rw [e2] at h2
          exact Nat.lt_of_mul_lt_mul_right (Nat.lt_of_le_of_lt (Nat.le_of_eq hc.symm) h2)
        refine ⟨n.log2 - 52 + 1, c - 2 ^ 52, by omega, by omega, ?_⟩
        rw [if_neg (by omega), show 2 ^ 52 + (c - 2 ^ 52) = c by omega, Nat.add_sub_cancel]
        exact hc.symm
      · rw [show 52 + (n.log2 - 52) = n.log2 by omega] at hlt
        omega
  obtain ⟨e, f, he, hf, hz⟩ := key
  refine ⟨_, (ofBits_ofNat (decide (z < 0)) e f he hf).trans ?_⟩
  rw [hz]
  simp only [decide_eq_true_eq]
  congr 1
  split <;> omega

/-- The result of an operation is again the value of a bit pattern. -/
theorem round_is_float64 (p : Int) (q : Nat) (hq : 0 < q) (z : Int) (h : round p q = .fin z) : ∃ b, ofBits b = .fin z := by
  rw [ofBits_iff]
  simp only [round] at h
  split at h
  · simp at h
  · rename_i hl
    simp only [F.fin.injEq] at h
    have : z.natAbs = roundPos p.natAbs q := by rw [← h]; split <;> omega
    rw [this]
    exact ⟨rep_round _ _ hq, by omega⟩

/-- 1.0, 0.1, -0.5 and the smallest float64 as bit patterns. -/
example : ofBits 0x3FF0000000000000 = .fin one := by
  have := ofBits_ofNat false 1023 0 (by omega) (by omega)
  rw [show UInt64.ofNat ((if (false : Bool) = true then 2 ^ 63 else 0) + 1023 * 2 ^ 52 + 0) = 0x3FF0000000000000 by decide] at this
  rw [this, one_eq]
  rfl
example : ofBits 0 = .fin 0 ∧ ofBits 1 = .fin 1 ∧ ofBits 0x8000000000000001 = .fin (-1) ∧ ofBits 0x7FF0000000000000 = .inf false ∧
    ofBits 0xFFF0000000000000 = .inf true ∧ ofBits 0x7FF8000000000001 = .nan := by decide

theorem bits_half : ofBits 0x3FE0000000000000 = .fin (2 ^ 1073 : Nat) := by
  have := ofBits_ofNat false 1022 0 (by omega) (by omega)
  rw [show UInt64.ofNat ((if (false : Bool) = true then 2 ^ 63 else 0) + 1022 * 2 ^ 52 + 0) = 0x3FE0000000000000 by decide] at this
  rw [this]
  rfl
theorem bits_neg_half : ofBits 0xBFE0000000000000 = .fin (-(2 ^ 1073 : Nat)) := by
  have := ofBits_ofNat true 1022 0 (by omega) (by omega)
  rw [show UInt64.ofNat ((if (true : Bool) = true then 2 ^ 63 else 0) + 1022 * 2 ^ 52 + 0) = 0xBFE0000000000000 by decide] at this
  rw [this]
  rfl
theorem bits_one : ofBits 0x3FF0000000000000 = .fin one := by
  have := ofBits_ofNat false 1023 0 (by omega) (by omega)
  rw [show UInt64.ofNat ((if (false : Bool) = true then 2 ^ 63 else 0) + 1023 * 2 ^ 52 + 0) = 0x3FF0000000000000 by decide] at this
  rw [this, one_eq]
  rfl
theorem bits_two : ofBits 0x4000000000000000 = .fin (2 * one : Nat) := by
  have := ofBits_ofNat false 1024 0 (by omega) (by omega)
  rw [show UInt64.ofNat ((if (false : Bool) = true then 2 ^ 63 else 0) + 1024 * 2 ^ 52 + 0) = 0x4000000000000000 by decide] at this
  rw [this, one_eq]
  rfl

/-- The hypotheses of C108 are met by volume 1/2 and sample 1, heard as 16384; at volume 2 the sample 1/2 is heard as
-32768. -/
example : heard 0x3FE0000000000000 0x3FF0000000000000 = 16384 := by
  have hpos := one_pos
  have hu := Nat.two_pow_pos 1073
  have ho : one = 2 * 2 ^ 1073 := by rw [one_eq]
  have h2 := heard_eq bits_half bits_one (by omega)
    (by rw [ho]; exact Int.ofNat_le.2 (by omega)) (by omega) (by omega)
    (fun h => by have := Int.ofNat_inj.1 h.2; omega)
  have hp : prod one (2 ^ 1073 : Nat) = 2 ^ 1073 := by
    unfold prod
    rw [← Int.natCast_mul, Int.natAbs_natCast, Nat.mul_comm]
    exact round_exact hpos ⟨1, 1073, by rw [Nat.one_mul], by decide⟩
  rw [h2, hp, ho]
  generalize 2 ^ 1073 = u at hu
  rw [if_neg (by omega), show (u : Int) * 32768 = ((2 * u : Nat) : Int) * 16384 by omega]
  exact Int.mul_tdiv_cancel_left _ (by omega)

example : heard 0x4000000000000000 0x3FE0000000000000 = -32768 :=
  C108_flips _ _ _ _ bits_two bits_half (by
    rw [← Int.natCast_mul, Nat.mul_left_comm, ← Nat.mul_assoc, one_eq]
    exact Int.ofNat_le.2 (Nat.le_of_eq (by rw [Nat.mul_comm (2 * 2 ^ 1073)])))

/-! ## C109 -/

/-- What the decoder (faiface/beep, assumed) makes of a 16 bit level of the recording: level / 32767 in float64. -/
def decoded (n : Int) : F := div (ofInt n) (ofInt 32767)

theorem one_lim (k : Nat) (hk : k ≤ 1023) : 2 ^ k * one < 2 ^ 1024 * one :=
  Nat.mul_lt_mul_of_pos_right (Nat.pow_lt_pow_right (by omega) (by omega)) one_pos

theorem ofInt_small (n : Int) (h : n.natAbs < 2 ^ 53) : ofInt n = .fin (n * one) := by
  have hpos := one_pos
  have hr : Rep (n.natAbs * one) := by rw [one_eq]; exact ⟨n.natAbs, 1074, rfl, h⟩
  have e : (n * one).natAbs = n.natAbs * one := by rw [Int.natAbs_mul]; simp
  have hx : roundPos (n * one).natAbs 1 = n.natAbs * one := by
    rw [e]
    have := round_exact (q := 1) (by omega) hr
    rwa [Nat.mul_one] at this
  have hl : n.natAbs * one < 2 ^ 1024 * one := Nat.lt_trans (Nat.mul_lt_mul_of_pos_right h hpos) (one_lim 53 (by omega))
  unfold ofInt
  rw [round_fin (by rw [hx]; exact hl), hx]
  congr 1
  rcases Int.lt_or_le n 0 with h0 | h0
  · rw [if_pos (Int.mul_neg_of_neg_of_pos h0 (by omega))]
    have : (n.natAbs : Int) = -n := by omega
    rw [Int.natCast_mul, this, Int.neg_mul, Int.neg_neg]
  · rw [if_neg (by have := Int.mul_nonneg h0 (show (0 : Int) ≤ one by omega); omega)]
    have : (n.natAbs : Int) = n := by omega
    rw [Int.natCast_mul, this]

theorem aux_two {x o : Nat} (h : x ≤ 32768 * o) : x ≤ 2 ^ 1 * o * 32767 := by omega

theorem aux_lo {R y u : Nat} (g1 : u ≤ y) (h : 2 ^ 53 * y ≤ R * 32767 + 32767 * u) : 2 ^ 53 * y ≤ R * 32768 := by omega

theorem aux_hi {R y u : Nat} (h : R * 32767 ≤ 2 ^ 53 * y + 32767 * u) (g2 : y ≤ 32766 * u) (hu : 0 < u) :
    R * 32768 < 2 ^ 53 * y + 2 ^ 53 * u := by omega

theorem decoded_eq (n : Int) (h : n.natAbs ≤ 32768) :
    decoded n = .fin (if n < 0 then -(roundPos (n.natAbs * one) 32767 : Int) else roundPos (n.natAbs * one) 32767) := by
  have hpos := one_pos
  unfold decoded
  rw [ofInt_small n (by omega), ofInt_small 32767 (by decide)]
  simp only [div]
  rw [if_neg (by omega), if_neg (by omega)]
  have e1 : ((32767 : Int) * one).natAbs = 32767 * one := by rw [Int.natAbs_mul]; simp
  have e2 : (n * one * one).natAbs = n.natAbs * one * one := by rw [Int.natAbs_mul, Int.natAbs_mul]; simp
  have hx : roundPos (n * one * one).natAbs ((32767 : Int) * one).natAbs = roundPos (n.natAbs * one) 32767 := by
    rw [e1, e2]; exact roundPos_ratio _ _ _ hpos
  have hb : roundPos (n.natAbs * one) 32767 ≤ 2 ^ 1 * one := by
    apply round_le (by omega)
    · rw [Nat.mul_comm]; exact rep_mul_pow rep_one 1
    · exact aux_two (Nat.mul_le_mul_right _ h)
  rw [round_fin (by rw [hx]; exact Nat.lt_of_le_of_lt hb (one_lim 1 (by omega))), hx]
  congr 1
  rcases Int.lt_or_le n 0 with h0 | h0
  · rw [if_pos h0, if_pos (Int.mul_neg_of_neg_of_pos (Int.mul_neg_of_neg_of_pos h0 (by omega)) (by omega))]
  · rw [if_neg (show ¬ n < 0 by omega), if_neg (by
      have := Int.mul_nonneg (Int.mul_nonneg h0 (show (0 : Int) ≤ one by omega)) (show (0 : Int) ≤ one by omega); omega)]

/-- C109, the part that holds: at volume 1 every level of the recording between -32766 and 32766 is given to the sound
device unchanged. Missing from the full property: the levels of `C109_peaks`. -/
theorem C109_bit_for_bit_partial (volume sample : UInt64) (n : Int) (hv : ofBits volume = .fin one)
    (hs : ofBits sample = decoded n) (h1 : -32767 < n) (h2 : n < 32767) : heard volume sample = n := by
  rw [C108_unchanged volume sample hv, hs, decoded_eq n (by omega)]
  have hpos := one_pos
  generalize hR : roundPos (n.natAbs * one) 32767 = R
  have hle : R ≤ (2 ^ 53 - 1) * 2 ^ 1021 := by
    rw [← hR]
    apply round_le (by omega) ⟨_, _, rfl, by decide⟩
    have ho : one = 2 ^ 53 * 2 ^ 1021 := by rw [one_eq]
    have : n.natAbs * one ≤ 32766 * one := Nat.mul_le_mul_right _ (by omega)
    rw [ho] at this ⊢
    generalize 2 ^ 1021 = u at *
    omega
  have ho : one = 2 ^ 53 * 2 ^ 1021 := by rw [one_eq]
  have hu := Nat.two_pow_pos 1021
  have hlt : R < one := by
    rw [ho]
    exact Nat.lt_of_le_of_lt hle (Nat.mul_lt_mul_of_pos_right (by omega) hu)
  -- the level of the magnitude
  have key : R * 32768 / one = n.natAbs := by
    by_cases h0 : n.natAbs = 0
    · rw [h0] at hR ⊢
      have hR0 : R = 0 := by
        rw [← hR]
        have := round_exact (q := 32767) (by omega) rep_zero
        simpa using this
      rw [hR0]; simp
    · have hsh : 2 ^ shift (n.natAbs * one) 32767 ≤ 2 ^ 1021 := by
        apply Nat.pow_le_pow_right (by omega)
        unfold shift
        have hd : n.natAbs * one / 32767 < 2 ^ 1074 := by
          rw [Nat.div_lt_iff_lt_mul (by omega), ← one_eq]
          have : n.natAbs * one ≤ 32766 * one := Nat.mul_le_mul_right _ (by omega)
          omega
        by_cases hz : n.natAbs * one / 32767 = 0
        · rw [hz]; simp
        · have := (Nat.log2_lt hz).2 hd
          omega
      have herr := round_error (n.natAbs * one) 32767 (by omega)
      rw [hR] at herr
      have g1 : 1 * 2 ^ 1021 ≤ n.natAbs * 2 ^ 1021 := Nat.mul_le_mul_right _ (by omega)
      have g2 : n.natAbs * 2 ^ 1021 ≤ 32766 * 2 ^ 1021 := Nat.mul_le_mul_right _ (by omega)
      have e : n.natAbs * one = 2 ^ 53 * (n.natAbs * 2 ^ 1021) := by rw [ho, Nat.mul_left_comm]
      have hbd : R * 32767 ≤ n.natAbs * one + 32767 * 2 ^ 1021 ∧ n.natAbs * one ≤ R * 32767 + 32767 * 2 ^ 1021 := by
        generalize 2 ^ shift (n.natAbs * one) 32767 = w at *
        generalize 2 ^ 1021 = u at *
        rcases herr with h | h <;> omega
      rw [e] at hbd
      apply Nat.div_eq_of_lt_le
      · rw [e]
        exact aux_lo (by omega) hbd.2 
      · rw [Nat.succ_mul, e, ho]
        exact aux_hi hbd.1 g2 hu
  rw [level_fin (by split <;> omega) (by split <;> omega)]
  have e : ((R : Int) * 32768).tdiv one = n.natAbs := by
    rw [Int.tdiv_eq_ediv_of_nonneg (by omega)]
    show ((R : Int) * ((32768 : Nat) : Int)) / (one : Int) = _
    rw [← Int.natCast_mul, ← Int.natCast_ediv, key]
  split
  · rw [Int.neg_mul, Int.neg_tdiv, e]; omega
  · rw [e]; omega

/-- C109 fails: the highest level of the recording, 32767, is given to the sound device as the lowest, -32768; and so is
-32767, which is one off. (-32768 is kept.) -/
theorem C109_peaks (volume sample : UInt64) (n : Int) (hv : ofBits volume = .fin one)
    (hs : ofBits sample = decoded n) (hn : n = 32767 ∨ n = -32767 ∨ n = -32768) : heard volume sample = -32768 := by
  rw [C108_unchanged volume sample hv, hs, decoded_eq n (by omega)]
  have hpos := one_pos
  have h67 : roundPos (32767 * one) 32767 = one := by
    have := round_exact (q := 32767) (by omega) rep_one
    rwa [Nat.mul_comm] at this
  have h68 : one ≤ roundPos (32768 * one) 32767 := le_round (by omega) rep_one (by omega)
  have hm1 : le16 (convertF (.fin (-(one : Int)))) = -32768 := by
    rw [level_fin (by omega) (by omega), Int.neg_mul, Int.neg_tdiv, Int.mul_comm, Int.mul_tdiv_cancel _ (by omega)]
  rcases hn with rfl | rfl | rfl
  · rw [show ((32767 : Int).natAbs) = 32767 from rfl, h67]
    exact level_high (by simp)
  · rw [show ((-32767 : Int).natAbs) = 32767 from rfl, h67]
    simpa using hm1
  · rw [show ((-32768 : Int).natAbs) = 32768 from rfl]
    rw [if_pos (by omega)]
    rcases Nat.lt_or_ge one (roundPos (32768 * one) 32767) with h | h
    · exact level_low (by omega)
    · rw [show roundPos (32768 * one) 32767 = one by omega]; exact hm1

/-- Every level of a recording has a bit pattern, so the hypotheses of C109 can be met. -/
theorem decoded_exists (n : Int) (h : n.natAbs ≤ 32768) : ∃ b, ofBits b = decoded n := by
  have hd := decoded_eq n h
  rw [hd]
  rw [ofBits_iff]
  have hb : roundPos (n.natAbs * one) 32767 ≤ 2 ^ 1 * one := by
    apply round_le (by omega)
    · rw [Nat.mul_comm]; exact rep_mul_pow rep_one 1
    · exact aux_two (Nat.mul_le_mul_right _ h)
  have e : (if n < 0 then -(roundPos (n.natAbs * one) 32767 : Int) else roundPos (n.natAbs * one) 32767).natAbs =
      roundPos (n.natAbs * one) 32767 := by split <;> omega
  rw [e]
  exact ⟨rep_round _ _ (by omega), Nat.lt_of_le_of_lt hb (one_lim 1 (by omega))⟩

end MS.Float64
