import Verif.Model.Pcm
/-!
# Property C17: sample to PCM conversion
-/
namespace MS.Pcm

/-- Specification: the value of two bytes read as a little-endian two's complement 16 bit number. -/
def le16 (b : Int × Int) : Int :=
  let u := b.1 + 256 * b.2
  if u < 32768 then u else u - 65536

/-- Specification: `v <= w` for dyadic values. -/
def Le (v w : Dy) : Prop := v.num * 2 ^ w.k ≤ w.num * 2 ^ v.k

theorem pow_pos' (k : Nat) : (0 : Int) < 2 ^ k := by
  exact_mod_cast Nat.two_pow_pos k

theorem le16_split (x : Int) (h1 : -32768 ≤ x) (h2 : x < 32768) : le16 (x % 256, (x / 256) % 256) = x := by
  simp only [le16]
  split <;> omega

theorem bmod_small (x : Int) (h1 : -32768 ≤ x) (h2 : x < 32768) : Int.bmod x (2 ^ 16) = x := by
  apply Int.bmod_eq_of_le_mul_two <;> omega

/-- `trunc(v*32768)`. -/
def level (v : Dy) : Int := (v.num * 32768).tdiv (2 ^ v.k)

theorem tdiv_lt {a b c : Int} (hb : 0 < b) (hc : 0 < c) (h : a < c * b) : a.tdiv b < c := by
  rcases Int.lt_or_le a 0 with h0 | h0
  · have : a.tdiv b ≤ 0 := by
      have h1 := Int.neg_tdiv a b
      have h2 : 0 ≤ (-a).tdiv b := Int.tdiv_nonneg (by omega) (by omega)
      omega
    omega
  · rw [Int.tdiv_eq_ediv_of_nonneg h0]
    exact Int.ediv_lt_of_lt_mul hb h

theorem le_tdiv {a b c : Int} (hb : 0 < b) (hc : c ≤ 0) (h : c * b ≤ a) : c ≤ a.tdiv b := by
  rcases Int.lt_or_le a 0 with h0 | h0
  · have e : a.tdiv b = -((-a).tdiv b) := by rw [Int.neg_tdiv]; omega
    have : (-a).tdiv b ≤ -c := by
      rw [Int.tdiv_eq_ediv_of_nonneg (by omega)]
      apply Int.ediv_le_of_le_mul hb
      rw [Int.neg_mul]; omega
    omega
  · have := Int.tdiv_nonneg h0 (show (0 : Int) ≤ b by omega)
    omega

theorem tdiv_mono_num {a c b : Int} (hb : 0 < b) (h : a ≤ c) : a.tdiv b ≤ c.tdiv b := by
  rcases Int.lt_or_le a 0 with h0 | h0
  · rcases Int.lt_or_le c 0 with h1 | h1
    · have e1 : a.tdiv b = -((-a).tdiv b) := by rw [Int.neg_tdiv]; omega
      have e2 : c.tdiv b = -((-c).tdiv b) := by rw [Int.neg_tdiv]; omega
      rw [e1, e2, Int.tdiv_eq_ediv_of_nonneg (by omega), Int.tdiv_eq_ediv_of_nonneg (by omega)]
      have := Int.ediv_le_ediv hb (show -c ≤ -a by omega)
      omega
    · have e1 : a.tdiv b = -((-a).tdiv b) := by rw [Int.neg_tdiv]; omega
      have h2 := Int.tdiv_nonneg (show (0 : Int) ≤ -a by omega) (show (0 : Int) ≤ b by omega)
      have h3 := Int.tdiv_nonneg h1 (show (0 : Int) ≤ b by omega)
      omega
  · rw [Int.tdiv_eq_ediv_of_nonneg h0, Int.tdiv_eq_ediv_of_nonneg (by omega)]
    exact Int.ediv_le_ediv hb h

theorem level_range {v : Dy} (h1 : -(2 ^ v.k) ≤ v.num) (h2 : v.num < 2 ^ v.k) :
    -32768 ≤ level v ∧ level v < 32768 := by
  have hp := pow_pos' v.k
  refine ⟨le_tdiv hp (by omega) (by omega), tdiv_lt hp (by omega) (by omega)⟩

/-- C17. A value in [-1, 1) is written as the two's complement little-endian bytes of trunc(v * 32768). -/
theorem C17_value (v : Dy) (h1 : -(2 ^ v.k) ≤ v.num) (h2 : v.num < 2 ^ v.k) :
    le16 (convert v) = (v.num * 32768).tdiv (2 ^ v.k) := by
  have hr := level_range h1 h2
  have hc : clip v = v := by
    simp only [clip]
    rw [if_neg (show ¬ v.num < -(2 ^ v.k) by omega), if_neg (by omega)]
  simp only [convert, hc, toInt16]
  rw [show (2 : Int) ^ 15 = 32768 from rfl]
  simp only [level] at hr
  rw [bmod_small _ hr.1 hr.2]
  exact le16_split _ hr.1 hr.2

/-- C17. Both bytes are bytes. -/
theorem C17_bytes (v : Dy) : 0 ≤ (convert v).1 ∧ (convert v).1 < 256 ∧ 0 ≤ (convert v).2 ∧ (convert v).2 < 256 := by
  simp only [convert]
  omega

/-- C17. Values below -1 are clipped to the most negative level. -/
theorem C17_clip_low (v : Dy) (h : v.num < -(2 ^ v.k)) : le16 (convert v) = -32768 := by
  have hc : clip v = ⟨-1, 0⟩ := by
    simp only [clip]
    rw [if_pos h]
    simp
  simp only [convert, hc]
  rfl

/-- C17, refuted at full scale: every value of 1 or more (in particular exactly full-scale positive input) is written
as the most NEGATIVE level -32768: the sign flips. -/
theorem C17_full_scale_flips_sign (v : Dy) (h : 2 ^ v.k ≤ v.num) : le16 (convert v) = -32768 := by
  have hp := pow_pos' v.k
  by_cases h2 : 2 ^ v.k < v.num
  · have hc : clip v = ⟨1, 0⟩ := by
      simp only [clip]
      rw [if_neg (show ¬ v.num < -(2 ^ v.k) by omega), if_pos h2]
    simp only [convert, hc]
    rfl
  · have he : v.num = 2 ^ v.k := by omega
    have hc : clip v = v := by
      simp only [clip]
      rw [if_neg (show ¬ v.num < -(2 ^ v.k) by omega), if_neg (by omega)]
    simp only [convert, hc, toInt16]
    have : (v.num * 2 ^ 15).tdiv (2 ^ v.k) = 32768 := by
      rw [he, Int.mul_comm, Int.mul_tdiv_cancel _ (by omega)]; rfl
    rw [this]
    rfl

/-- C17, partial: conversion is monotone below +1 (it is not at +1, see `C17_full_scale_flips_sign`). -/
theorem C17_monotone_partial (v w : Dy) (hv : v.num < 2 ^ v.k) (hw : w.num < 2 ^ w.k) (h : Le v w) :
    le16 (convert v) ≤ le16 (convert w) := by
  have pv := pow_pos' v.k
  have pw := pow_pos' w.k
  by_cases h1 : v.num < -(2 ^ v.k)
  · rw [C17_clip_low v h1]
    by_cases h2 : w.num < -(2 ^ w.k)
    · rw [C17_clip_low w h2]; omega
    · rw [C17_value w (by omega) hw]
      exact (level_range (by omega) hw).1
  · rw [C17_value v (by omega) hv]
    have h2 : ¬ w.num < -(2 ^ w.k) := by
      intro h2
      simp only [Le] at h
      have e1 : w.num * 2 ^ v.k < -(2 ^ w.k) * 2 ^ v.k := Int.mul_lt_mul_of_pos_right h2 pv
      have e2 : -(2 ^ v.k) * 2 ^ w.k ≤ v.num * 2 ^ w.k := Int.mul_le_mul_of_nonneg_right (by omega) (by omega)
      have e3 : -(2 ^ w.k : Int) * 2 ^ v.k = -(2 ^ v.k) * 2 ^ w.k := by
        rw [Int.neg_mul, Int.neg_mul, Int.mul_comm]
      omega
    rw [C17_value w (by omega) hw]
    -- bring to the common denominator
    have ev : (v.num * 32768).tdiv (2 ^ v.k) = (v.num * 32768 * 2 ^ w.k).tdiv (2 ^ v.k * 2 ^ w.k) := by
      rw [Int.mul_tdiv_mul_of_pos_left _ _ pw]
    have ew : (w.num * 32768).tdiv (2 ^ w.k) = (w.num * 32768 * 2 ^ v.k).tdiv (2 ^ v.k * 2 ^ w.k) := by
      rw [Int.mul_comm (2 ^ v.k), Int.mul_tdiv_mul_of_pos_left _ _ pv]
    rw [ev, ew]
    apply tdiv_mono_num (Int.mul_pos pv pw)
    simp only [Le] at h
    have : v.num * 2 ^ w.k * 32768 ≤ w.num * 2 ^ v.k * 32768 := by omega
    rw [Int.mul_right_comm v.num, Int.mul_right_comm w.num]
    exact this

/-- C17. Every one of the 65536 PCM levels survives: decoding level n to n/32768 and converting gives n back. -/
theorem C17_levels_preserved (n : Int) (h1 : -32768 ≤ n) (h2 : n < 32768) : le16 (convert ⟨n, 15⟩) = n := by
  rw [C17_value ⟨n, 15⟩ (by simp only; omega) (by simp only; omega)]
  simp only
  rw [show (2 : Int) ^ 15 = 32768 from rfl, Int.mul_tdiv_cancel _ (by omega)]

/-- Specification: interleaved left/right little-endian frames. -/
def frames (samples : List (Dy × Dy)) : List Int :=
  samples.flatMap (fun s => [(convert s.1).1, (convert s.1).2, (convert s.2).1, (convert s.2).2])

theorem toAudioBufFrom_eq (samples : List (Dy × Dy)) : ∀ (pre old : List Int) (i : Nat), pre.length = 4 * i →
    old.length = 4 * samples.length → toAudioBufFrom i samples (pre ++ old) = pre ++ frames samples := by
  induction samples with
  | nil => intro pre old i hp ho; simp at ho; simp [toAudioBufFrom, frames, ho]
  | cons s rest ih =>
    intro pre old i hp ho
    obtain ⟨a, b⟩ := s
    match old, ho with
    | x0 :: x1 :: x2 :: x3 :: old', ho =>
      simp only [List.length_cons] at ho
      simp only [toAudioBufFrom, put]
      have : (((((pre ++ x0 :: x1 :: x2 :: x3 :: old').set (i * 4 + 0 * 2 + 0) (convert a).1).set (i * 4 + 0 * 2 + 1)
          (convert a).2).set (i * 4 + 1 * 2 + 0) (convert b).1).set (i * 4 + 1 * 2 + 1) (convert b).2) =
          (pre ++ [(convert a).1, (convert a).2, (convert b).1, (convert b).2]) ++ old' := by
        have e : i * 4 = pre.length := by omega
        simp [e, Nat.add_assoc]
      rw [this, ih _ _ (i + 1) (by simp; omega) (by omega)]
      simp [frames]
    | [], ho => simp at ho
    | [_], ho => simp at ho; omega
    | [_, _], ho => simp at ho; omega
    | [_, _, _], ho => simp at ho; omega

/-- C17, the output buffer: for every block of samples and whatever an equally sized buffer (4 bytes per sample) held
before, afterwards it holds exactly the interleaved left/right little-endian frames. -/
theorem C17_buffer_layout (samples : List (Dy × Dy)) (old : List Int) (h : old.length = 4 * samples.length) :
    toAudioBufFrom 0 samples old = frames samples := by
  have := toAudioBufFrom_eq samples [] old 0 rfl h
  simpa using this

/-- Non-vacuity. -/
example : le16 (convert ⟨-1, 1⟩) = -16384 ∧ le16 (convert ⟨1, 0⟩) = -32768 ∧ le16 (convert ⟨-5, 0⟩) = -32768 ∧
    convert ⟨1, 15⟩ = (1, 0) ∧ convert ⟨-1, 15⟩ = (255, 255) ∧ le16 (convert ⟨-1, 16⟩) = 0 := by decide

example : toAudioBufFrom 0 [(⟨1, 15⟩, ⟨-1, 15⟩)] [9, 9, 9, 9] = [1, 0, 255, 255] := by decide

end MS.Pcm
