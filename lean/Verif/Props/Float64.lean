import Verif.Model.Float64
import Verif.Props.Pcm
/-!
# float64 rounding: the model rounds to the nearest float64

Used by C108 to C111. The specification of rounding: `Rep` are the values with 53 significant bits.
-/
set_option exponentiation.threshold 2100
namespace MS.Float64
open MS.Pcm

/-- Specification: a number of units of 2^-1074 with at most 53 significant bits. -/
def Rep (z : Nat) : Prop := ∃ m t, z = m * 2 ^ t ∧ m < 2 ^ 53

theorem one_eq : one = 2 ^ 1074 := rfl

theorem one_pos : 0 < one := Nat.two_pow_pos 1074

attribute [local irreducible] one

/-! ## Rounding to integers -/

theorem rhe_cases (p d : Nat) (hd : 0 < d) : (rhe p d = p / d ∧ 2 * (p % d) ≤ d) ∨
    (rhe p d = p / d + 1 ∧ d ≤ 2 * (p % d)) := by
  unfold rhe
  have := Nat.mod_lt p hd
  split
  · left; omega
  · split
    · right; omega
    · rcases Nat.mod_two_eq_zero_or_one (p / d) with h | h <;> omega

theorem le_rhe {p d m : Nat} (hd : 0 < d) (h : m * d ≤ p) : m ≤ rhe p d := by
  have : m ≤ p / d := (Nat.le_div_iff_mul_le hd).2 h
  rcases rhe_cases p d hd with h1 | h1 <;> omega

theorem rhe_le {p d m : Nat} (hd : 0 < d) (h : p ≤ m * d) : rhe p d ≤ m := by
  have h1 : p / d ≤ m := Nat.div_le_of_le_mul (by rw [Nat.mul_comm]; exact h)
  rcases rhe_cases p d hd with h2 | h2
  · omega
  · have h3 := Nat.div_add_mod p d
    have h4 := Nat.mod_lt p hd
    rcases Nat.lt_or_ge (p / d) m with h5 | h5
    · omega
    · have h6 : p / d = m := by omega
      rw [h6, Nat.mul_comm] at h3
      omega

/-- Rounding depends on the ratio only. -/
theorem rhe_ratio (p d c : Nat) (hc : 0 < c) : rhe (p * c) (d * c) = rhe p d := by
  unfold rhe
  rw [Nat.mul_div_mul_right _ _ hc, Nat.mul_mod_mul_right]
  have e1 : (2 * (p % d * c) < d * c) ↔ 2 * (p % d) < d := by
    rw [← Nat.mul_assoc]; exact Nat.mul_lt_mul_right hc
  have e2 : (d * c < 2 * (p % d * c)) ↔ d < 2 * (p % d) := by
    rw [← Nat.mul_assoc]; exact Nat.mul_lt_mul_right hc
  simp only [e1, e2]

/-! ## Rounding to 53 bits -/

/-- How many bits are dropped. -/
def shift (p q : Nat) : Nat := (p / q).log2 - 52

theorem roundPos_eq (p q : Nat) : roundPos p q = rhe p (q * 2 ^ shift p q) * 2 ^ shift p q := rfl

theorem shift_spec (p q : Nat) (_ : 0 < q) :
    (shift p q ≠ 0 → 2 ^ (52 + shift p q) ≤ p / q) ∧ p / q < 2 ^ (53 + shift p q) := by
  unfold shift
  constructor
  · intro h
    have hne : p / q ≠ 0 := by intro h0; rw [h0] at h; simp at h
    rw [show 52 + ((p / q).log2 - 52) = (p / q).log2 by omega]
    exact Nat.log2_self_le hne
  · refine Nat.lt_of_lt_of_le Nat.lt_log2_self (Nat.pow_le_pow_right (by omega) (by omega))

theorem unit_pos (q s : Nat) (hq : 0 < q) : 0 < q * 2 ^ s := Nat.mul_pos hq (Nat.two_pow_pos s)

/-- The bounds of the rounded significand. -/
theorem signif (p q : Nat) (hq : 0 < q) :
    (shift p q ≠ 0 → 2 ^ 52 ≤ p / (q * 2 ^ shift p q)) ∧ rhe p (q * 2 ^ shift p q) ≤ 2 ^ 53 := by
  obtain ⟨h1, h2⟩ := shift_spec p q hq
  have hp := Nat.two_pow_pos (shift p q)
  constructor
  · intro h
    rw [← Nat.div_div_eq_div_mul]
    rw [Nat.le_div_iff_mul_le hp, ← Nat.pow_add]
    exact h1 h
  · apply rhe_le (unit_pos _ _ hq)
    have : p < 2 ^ (53 + shift p q) * q := (Nat.div_lt_iff_lt_mul hq).1 h2
    rw [Nat.pow_add] at this
    rw [Nat.mul_comm q, ← Nat.mul_assoc]
    omega

/-- The result has 53 significant bits. -/
theorem rep_round (p q : Nat) (hq : 0 < q) : Rep (roundPos p q) := by
  rw [roundPos_eq]
  have h := (signif p q hq).2
  rcases Nat.lt_or_ge (rhe p (q * 2 ^ shift p q)) (2 ^ 53) with hlt | hge
  · exact ⟨_, _, rfl, hlt⟩
  · refine ⟨2 ^ 52, shift p q + 1, ?_, by decide⟩
    rw [show rhe p (q * 2 ^ shift p q) = 2 ^ 53 by omega, Nat.pow_succ 2 (shift p q)]
    rw [show (2 : Nat) ^ 53 = 2 ^ 52 * 2 by decide, Nat.mul_assoc, Nat.mul_comm 2]

/-- A representable value is a multiple of the unit, or below all values with that unit. -/
theorem rep_grid {z : Nat} (h : Rep z) (s : Nat) : (∃ c, z = c * 2 ^ s) ∨ (s ≠ 0 ∧ z < 2 ^ (52 + s)) := by
  obtain ⟨m, t, rfl, hm⟩ := h
  rcases Nat.lt_or_ge t s with hlt | hge
  · refine .inr ⟨by omega, ?_⟩
    calc m * 2 ^ t < 2 ^ 53 * 2 ^ t := Nat.mul_lt_mul_of_pos_right hm (Nat.two_pow_pos t)
      _ = 2 ^ (53 + t) := by rw [Nat.pow_add]
      _ ≤ 2 ^ (52 + s) := Nat.pow_le_pow_right (by omega) (by omega)
  · refine .inl ⟨m * 2 ^ (t - s), ?_⟩
    rw [Nat.mul_assoc, ← Nat.pow_add]
    congr 2; omega

/-- The largest multiple of the unit that is not above. -/
def below (p q : Nat) : Nat := p / (q * 2 ^ shift p q) * 2 ^ shift p q

theorem le_below {p q z : Nat} (hq : 0 < q) (hz : Rep z) (h : z * q ≤ p) : z ≤ below p q := by
  rcases rep_grid hz (shift p q) with ⟨c, rfl⟩ | ⟨hs, hlt⟩
  · apply Nat.mul_le_mul_right
    rw [Nat.le_div_iff_mul_le (unit_pos _ _ hq)]
    rw [Nat.mul_assoc, Nat.mul_comm (2 ^ shift p q)] at h
    exact h
  · have := (signif p q hq).1 hs
    have h2 : 2 ^ 52 * 2 ^ shift p q ≤ below p q := Nat.mul_le_mul_right _ this
    rw [← Nat.pow_add] at h2
    omega

theorem below_le_round {p q : Nat} (hq : 0 < q) : below p q ≤ roundPos p q := by
  rw [roundPos_eq]
  apply Nat.mul_le_mul_right
  rcases rhe_cases p _ (unit_pos q (shift p q) hq) with h | h <;> omega

/-- Rounding does not go below a representable value that is not above. -/
theorem le_round {p q z : Nat} (hq : 0 < q) (hz : Rep z) (h : z * q ≤ p) : z ≤ roundPos p q :=
  Nat.le_trans (le_below hq hz h) (below_le_round hq)

/-- Rounding does not go above a representable value that is not below. -/
theorem round_le {p q z : Nat} (hq : 0 < q) (hz : Rep z) (h : p ≤ z * q) : roundPos p q ≤ z := by
  rcases rep_grid hz (shift p q) with ⟨c, rfl⟩ | ⟨hs, hlt⟩
  · rw [roundPos_eq]
    apply Nat.mul_le_mul_right
    apply rhe_le (unit_pos _ _ hq)
    rw [Nat.mul_assoc, Nat.mul_comm (2 ^ shift p q)] at h
    exact h
  · have h1 := (shift_spec p q hq).1 hs
    have h2 : p / q ≤ z := Nat.div_le_of_le_mul (by rw [Nat.mul_comm]; exact h)
    omega

/-- Representable values are not changed. -/
theorem round_exact {q z : Nat} (hq : 0 < q) (hz : Rep z) : roundPos (z * q) q = z :=
  Nat.le_antisymm (round_le hq hz (Nat.le_refl _)) (le_round hq hz (Nat.le_refl _))

/-- Twice the error is at most the unit. -/
theorem round_error (p q : Nat) (hq : 0 < q) :
    (roundPos p q * q ≤ p ∧ 2 * (p - roundPos p q * q) ≤ q * 2 ^ shift p q ∧ roundPos p q = below p q) ∨
    (p ≤ roundPos p q * q ∧ 2 * (roundPos p q * q - p) ≤ q * 2 ^ shift p q ∧ roundPos p q = below p q + 2 ^ shift p q ∧
      q * 2 ^ shift p q ≤ 2 * (p - below p q * q)) := by
  have hd := unit_pos q (shift p q) hq
  have hdm := Nat.div_add_mod p (q * 2 ^ shift p q)
  have hml := Nat.mod_lt p hd
  have e : below p q * q = q * 2 ^ shift p q * (p / (q * 2 ^ shift p q)) := by
    unfold below
    rw [Nat.mul_assoc, Nat.mul_comm, Nat.mul_comm (2 ^ shift p q)]
  rcases rhe_cases p _ hd with h | h
  · left
    have hr : roundPos p q = below p q := by rw [roundPos_eq, h.1]; rfl
    rw [hr, e]
    refine ⟨by omega, by omega, rfl⟩
  · right
    have hr : roundPos p q = below p q + 2 ^ shift p q := by
      rw [roundPos_eq, h.1, Nat.add_mul, Nat.one_mul]; rfl
    have hr' : roundPos p q * q = below p q * q + q * 2 ^ shift p q := by
      rw [hr, Nat.add_mul, Nat.mul_comm (2 ^ shift p q)]
    rw [hr', e]
    refine ⟨by omega, by omega, hr, by omega⟩

/-- Specification: the distance. -/
def dist (a b : Nat) : Nat := (a - b) + (b - a)

/-- The model rounds to nearest: no representable value is nearer to `p / q` than the result. -/
theorem round_nearest (p q z : Nat) (hq : 0 < q) (hz : Rep z) : dist (roundPos p q * q) p ≤ dist (z * q) p := by
  unfold dist
  rcases Nat.le_total (z * q) p with h | h
  · have h1 := Nat.mul_le_mul_right q (le_below hq hz h)
    rcases round_error p q hq with h2 | h2
    · rw [h2.2.2] at *; omega
    · omega
  · have h1 := Nat.mul_le_mul_right q (round_le hq hz h)
    rcases round_error p q hq with h2 | h2
    · -- rounded down, `z` is above: compare with the next grid point
      rcases Nat.lt_or_ge (z * q) (below p q * q + q * 2 ^ shift p q) with h3 | h3
      · -- then `z` is the grid point below, so exact
        have : z = below p q := by
          rcases rep_grid hz (shift p q) with ⟨c, hc⟩ | ⟨hs, hlt⟩
          · have hb : below p q = p / (q * 2 ^ shift p q) * 2 ^ shift p q := rfl
            have hp := Nat.two_pow_pos (shift p q)
            have hle : below p q ≤ z := by rw [← h2.2.2]; exact Nat.le_of_mul_le_mul_right h1 hq
            have hlt : z < below p q + 2 ^ shift p q := by
              rw [Nat.mul_comm q, ← Nat.add_mul] at h3
              exact Nat.lt_of_mul_lt_mul_right h3
            rw [hc, hb] at hle hlt ⊢
            rw [← Nat.succ_mul] at hlt
            have a := Nat.le_of_mul_le_mul_right hle hp
            have b := Nat.lt_of_mul_lt_mul_right hlt
            rw [show c = p / (q * 2 ^ shift p q) by omega]
          · have h4 := (shift_spec p q hq).1 hs
            have h5 : p / q ≤ z := Nat.div_le_of_le_mul (by rw [Nat.mul_comm]; exact h)
            omega
        rw [h2.2.2, this]; omega
      · have : below p q * q = roundPos p q * q := by rw [h2.2.2]
        omega
    · omega

/-- Rounding depends on the ratio only. -/
theorem roundPos_ratio (p q c : Nat) (hc : 0 < c) : roundPos (p * c) (q * c) = roundPos p q := by
  have : shift (p * c) (q * c) = shift p q := by unfold shift; rw [Nat.mul_div_mul_right _ _ hc]
  rw [roundPos_eq, roundPos_eq, this, Nat.mul_right_comm, rhe_ratio _ _ _ hc]

/-- Rounding is monotone. -/
theorem round_mono {p q p' q' : Nat} (hq : 0 < q) (hq' : 0 < q') (h : p * q' ≤ p' * q) :
    roundPos p q ≤ roundPos p' q' := by
  -- common denominator
  rw [← roundPos_ratio p q q' hq', ← roundPos_ratio p' q' q hq, Nat.mul_comm q' q]
  generalize hd : q * q' = d
  have hdp : 0 < d := by rw [← hd]; exact Nat.mul_pos hq hq'
  generalize p * q' = x at *
  generalize p' * q = y at *
  clear hq hq' hd
  rcases Nat.lt_or_ge (roundPos y d * d) x with h1 | h1
  · rcases Nat.lt_or_ge y (roundPos x d * d) with h2 | h2
    · have n1 := round_nearest x d (roundPos y d) hdp (rep_round y d hdp)
      have n2 := round_nearest y d (roundPos x d) hdp (rep_round x d hdp)
      unfold dist at n1 n2
      have : x = y := by omega
      rw [this]; exact Nat.le_refl _
    · exact le_round hdp (rep_round x d hdp) h2
  · exact round_le hdp (rep_round y d hdp) h1

theorem rep_zero : Rep 0 := ⟨0, 0, by simp, by decide⟩

theorem rep_one : Rep one := ⟨1, 1074, by rw [Nat.one_mul]; exact one_eq, by decide⟩

theorem rep_pow (k : Nat) : Rep (2 ^ k) := ⟨1, k, by rw [Nat.one_mul], by decide⟩

theorem rep_mul_pow {z : Nat} (h : Rep z) (k : Nat) : Rep (z * 2 ^ k) := by
  obtain ⟨m, t, rfl, hm⟩ := h
  exact ⟨m, t + k, by rw [Nat.mul_assoc, Nat.pow_add], hm⟩

theorem rep_small {n : Nat} (h : n < 2 ^ 53) : Rep n := ⟨n, 0, by simp, h⟩

/-- Ties go to the even significand. -/
example : roundPos (2 ^ 53 * 1 + 1) 1 = 2 ^ 53 ∧ roundPos (2 ^ 53 + 3) 1 = 2 ^ 53 + 4 ∧ roundPos 7 2 = 4 ∧ roundPos 5 2 = 2 := by
  decide

end MS.Float64
