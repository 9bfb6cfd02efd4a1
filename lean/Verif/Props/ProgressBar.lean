import Verif.Model.ProgressBar
import Verif.Props.Volume
import Verif.Props.Drawing
/-!
# Property C110: the progress bar shows how much of the song has been played, in spite of rounding
-/
set_option exponentiation.threshold 2100
namespace MS.Float64
open MS.Display

/-- The constants of the model of the drawing are the float64 nearest to 0.3 and 0.7. -/
theorem const_03 : round (3 * one) 10 = .fin (5404319552844595 * 2 ^ 1020) ∧ c03 = value (round (3 * one) 10) := by
  have h : round (3 * one) 10 = .fin (5404319552844595 * 2 ^ 1020) := by decide +kernel
  refine ⟨h, ?_⟩
  rw [h]
  decide +kernel

theorem const_07 : round (7 * one) 10 = .fin (3152519739159347 * 2 ^ 1022) ∧ c07 = value (round (7 * one) 10) := by
  have h : round (7 * one) 10 = .fin (3152519739159347 * 2 ^ 1022) := by decide +kernel
  refine ⟨h, ?_⟩
  rw [h]
  decide +kernel

theorem bar_49 : barF 49 (progressF (some (1, 49))) = .fin ((2 ^ 53 - 1) * 2 ^ 1021) := by decide +kernel

attribute [local irreducible] one

/-! ## The computation in units -/

/-- The progress in units of 2^-1074. -/
def quot (a b : Nat) : Nat := roundPos (a * one) b

/-- The bar in units of 2^-1074. -/
def bar (w a b : Nat) : Nat := roundPos (w * quot a b) 1

theorem quot_le_num (a b : Nat) (ha : a < 2 ^ 53) (hb : 0 < b) : quot a b ≤ a * one := by
  apply round_le hb
  · rw [one_eq]; exact ⟨a, 1074, rfl, ha⟩
  · exact Nat.le_mul_of_pos_right _ hb

theorem div_ints (a b : Int) (ha : a.natAbs < 2 ^ 53) (hb0 : 0 < b) (hb : b < 2 ^ 53) :
    div (ofInt a) (ofInt b) = .fin (if a < 0 then -(quot a.natAbs b.natAbs : Int) else quot a.natAbs b.natAbs) := by
  have hpos := one_pos
  have hbo : 0 < b * (one : Int) := Int.mul_pos hb0 (by omega)
  rw [ofInt_small a ha, ofInt_small b (by omega)]
  simp only [div]
  rw [if_neg (by omega), if_neg (by omega)]
  have e1 : (b * (one : Int)).natAbs = b.natAbs * one := by rw [Int.natAbs_mul]; simp
  have e2 : (a * one * one).natAbs = a.natAbs * one * one := by rw [Int.natAbs_mul, Int.natAbs_mul]; simp
  have hx : roundPos (a * one * one).natAbs (b * (one : Int)).natAbs = quot a.natAbs b.natAbs := by
    rw [e1, e2]; exact roundPos_ratio _ _ _ hpos
  have hl : quot a.natAbs b.natAbs < 2 ^ 1024 * one :=
    Nat.lt_of_le_of_lt (quot_le_num _ _ ha (by omega)) (Nat.lt_trans (Nat.mul_lt_mul_of_pos_right ha hpos) (one_lim 53 (by omega)))
  rw [round_fin (by rw [hx]; exact hl), hx]
  congr 1
  rcases Int.lt_or_le a 0 with h0 | h0
  · rw [if_pos h0, if_pos (Int.mul_neg_of_neg_of_pos (Int.mul_neg_of_neg_of_pos h0 (by omega)) (by omega))]
  · rw [if_neg (show ¬ a < 0 by omega), if_neg (by
      have := Int.mul_nonneg (Int.mul_nonneg h0 (show (0 : Int) ≤ one by omega)) (show (0 : Int) ≤ one by omega); omega)]

theorem bar_le (w a b : Nat) (hw : w < 2 ^ 53) (ha : a < 2 ^ 53) (hb : 0 < b) : bar w a b ≤ 2 ^ 106 * one := by
  have h1 := quot_le_num a b ha hb
  apply round_le (by omega)
  · rw [Nat.mul_comm]; exact rep_mul_pow rep_one 106
  · rw [Nat.mul_one, show (106 : Nat) = 53 + 53 from rfl, Nat.pow_add, Nat.mul_assoc]
    exact Nat.mul_le_mul (by omega) (Nat.le_trans h1 (Nat.mul_le_mul_right _ (by omega)))

/-- The value drawn: no NaN, no infinity. -/
theorem bar_eq (w a b : Int) (hw0 : 0 ≤ w) (hw : w < 2 ^ 53) (ha : a.natAbs < 2 ^ 53) (hb0 : 0 < b) (hb : b < 2 ^ 53) :
    barF w (progressF (some (a, b))) =
      .fin (if a < 0 then -(bar w.toNat a.natAbs b.natAbs : Int) else bar w.toNat a.natAbs b.natAbs) := by
  have hpos := one_pos
  simp only [barF, progressF]
  rw [div_ints a b ha hb0 hb, ofInt_small w (by omega)]
  simp only [mul]
  have ew : w.natAbs = w.toNat := by omega
  generalize hq : quot a.natAbs b.natAbs = Q
  have e : (w * (one : Int) * (if a < 0 then -(Q : Int) else Q)).natAbs = w.toNat * Q * one := by
    rw [Int.natAbs_mul, Int.natAbs_mul, ew]
    have : (if a < 0 then -(Q : Int) else Q).natAbs = Q := by split <;> omega
    rw [this, Int.natAbs_natCast, Nat.mul_right_comm]
  have hx : roundPos (w * (one : Int) * (if a < 0 then -(Q : Int) else Q)).natAbs one = bar w.toNat a.natAbs b.natAbs := by
    rw [e]
    have := roundPos_ratio (w.toNat * Q) 1 one hpos
    rw [Nat.one_mul] at this
    rw [this, bar, hq]
  have hl : bar w.toNat a.natAbs b.natAbs < 2 ^ 1024 * one :=
    Nat.lt_of_le_of_lt (bar_le _ _ _ (by omega) ha (by omega)) (one_lim 106 (by omega))
  rw [round_fin (by rw [hx]; exact hl), hx]
  congr 1
  have hwo : 0 ≤ w * (one : Int) := Int.mul_nonneg hw0 (by omega)
  by_cases h0 : a < 0
  · rw [if_pos h0, if_pos h0]
    by_cases hz : w * (one : Int) * -(Q : Int) < 0
    · rw [if_pos hz]
    · rw [if_neg hz]
      have : w * (one : Int) * -(Q : Int) = 0 := by
        have := Int.mul_nonneg hwo (show (0 : Int) ≤ Q by omega)
        rw [Int.mul_neg] at hz ⊢
        omega
      rw [if_pos h0] at e
      rw [this] at e
      have hb0 : bar w.toNat a.natAbs b.natAbs = 0 := by
        have := roundPos_ratio (w.toNat * Q) 1 one hpos
        rw [← e, Nat.one_mul] at this
        rw [bar, hq, ← this]
        have := round_exact hpos rep_zero
        simpa using this
      rw [hb0]; rfl
  · rw [if_neg h0, if_neg h0, if_neg (by
      have := Int.mul_nonneg hwo (show (0 : Int) ≤ Q by omega); omega)]

/-! ## Bounds -/

theorem quot_mono {a a' : Nat} (b : Nat) (hb : 0 < b) (h : a ≤ a') : quot a b ≤ quot a' b :=
  round_mono hb hb (Nat.mul_le_mul_right _ (Nat.mul_le_mul_right _ h))

theorem bar_mono {a a' : Nat} (w b : Nat) (hb : 0 < b) (h : a ≤ a') : bar w a b ≤ bar w a' b :=
  round_mono (by omega) (by omega) (Nat.mul_le_mul_right _ (Nat.mul_le_mul_left _ (quot_mono b hb h)))

theorem quot_end (b : Nat) (hb : 0 < b) : quot b b = one := by
  unfold quot
  rw [Nat.mul_comm]
  exact round_exact hb rep_one

theorem rep_int {n : Nat} (h : n < 2 ^ 53) : Rep (n * one) := by rw [one_eq]; exact ⟨n, 1074, rfl, h⟩

theorem bar_end (w b : Nat) (hw : w < 2 ^ 53) (hb : 0 < b) : bar w b b = w * one := by
  unfold bar
  rw [quot_end b hb]
  have := round_exact (q := 1) (by omega) (rep_int hw)
  rwa [Nat.mul_one] at this

theorem bar_zero (w b : Nat) (hb : 0 < b) : bar w 0 b = 0 := by
  have h1 : quot 0 b = 0 := by
    unfold quot
    have := round_exact (q := b) hb rep_zero
    simpa using this
  unfold bar
  rw [h1]
  have := round_exact (q := 1) (by omega) rep_zero
  simpa using this

/-- Before the end the quotient is below 1. -/
theorem quot_lt (a b : Nat) (h : a < b) (hb : b ≤ 2 ^ 53) : quot a b ≤ (2 ^ 53 - 1) * 2 ^ 1021 := by
  have ho : one = 2 ^ 53 * 2 ^ 1021 := by rw [one_eq]
  apply round_le (by omega) ⟨_, _, rfl, by decide⟩
  rw [ho]
  generalize 2 ^ 1021 = u
  calc a * (2 ^ 53 * u) = (a * 2 ^ 53) * u := by rw [Nat.mul_assoc]
    _ ≤ ((2 ^ 53 - 1) * b) * u := Nat.mul_le_mul_right _ (by omega)
    _ = (2 ^ 53 - 1) * u * b := Nat.mul_right_comm _ _ _

/-- Before the end the bar is below its length. -/
theorem bar_lt (w a b : Nat) (hw0 : 0 < w) (hw : w < 2 ^ 53) (h : a < b) (hb : b ≤ 2 ^ 53) : bar w a b < w * one := by
  have ho : one = 2 ^ 53 * 2 ^ 1021 := by rw [one_eq]
  have hu := Nat.two_pow_pos 1021
  have hY : bar w a b ≤ roundPos (w * ((2 ^ 53 - 1) * 2 ^ 1021)) 1 :=
    round_mono (by omega) (by omega) (Nat.mul_le_mul_right _ (Nat.mul_le_mul_left _ (quot_lt a b h hb)))
  refine Nat.lt_of_le_of_lt hY ?_
  have hle : roundPos (w * ((2 ^ 53 - 1) * 2 ^ 1021)) 1 ≤ w * one := by
    apply round_le (by omega) (rep_int hw)
    rw [Nat.mul_one, ho]
    exact Nat.mul_le_mul_left _ (Nat.mul_le_mul_right _ (by omega))
  rcases Nat.lt_or_ge (roundPos (w * ((2 ^ 53 - 1) * 2 ^ 1021)) 1) (w * one) with hlt | hge
  · exact hlt
  exfalso
  have heq : roundPos (w * ((2 ^ 53 - 1) * 2 ^ 1021)) 1 = w * one := by omega
  obtain ⟨k, hk1, hk2⟩ : ∃ k, 2 ^ k ≤ w ∧ w < 2 ^ (k + 1) := ⟨w.log2, Nat.log2_self_le (by omega), Nat.lt_log2_self⟩
  have hk : k < 53 := by
    rcases Nat.lt_or_ge k 53 with h | h
    · exact h
    · have := Nat.pow_le_pow_right (show 0 < 2 by omega) h; omega
  by_cases hp : w = 2 ^ k
  · -- exact
    have hr : Rep (w * ((2 ^ 53 - 1) * 2 ^ 1021)) := by
      rw [hp, Nat.mul_comm]
      exact rep_mul_pow ⟨_, _, rfl, by decide⟩ k
    have := round_exact (q := 1) (by omega) hr
    rw [Nat.mul_one] at this
    rw [this, ho] at heq
    have h2 := Nat.eq_of_mul_eq_mul_left hw0 heq
    have := Nat.eq_of_mul_eq_mul_right hu h2
    omega
  · -- the representable value below is nearer
    have hpk := Nat.two_pow_pos (k + 1)
    have hsplit : (2 : Nat) ^ 53 = 2 ^ (52 - k) * 2 ^ (k + 1) := by rw [← Nat.pow_add]; congr 1; omega
    have hk3 : w * 2 ^ (52 - k) - 1 < 2 ^ 53 := by
      have : w * 2 ^ (52 - k) < 2 ^ (k + 1) * 2 ^ (52 - k) := Nat.mul_lt_mul_of_pos_right hk2 (Nat.two_pow_pos _)
      rw [Nat.mul_comm (2 ^ (k + 1)), ← hsplit] at this
      omega
    have hr : Rep ((w * 2 ^ (52 - k) - 1) * 2 ^ (k + 1 + 1021)) := ⟨_, _, rfl, hk3⟩
    have hn := round_nearest (w * ((2 ^ 53 - 1) * 2 ^ 1021)) 1 _ (by omega) hr
    have e1 : (w * 2 ^ (52 - k) - 1) * 2 ^ (k + 1 + 1021) = (w * 2 ^ 53 - 2 ^ (k + 1)) * 2 ^ 1021 := by
      rw [Nat.pow_add 2 (k + 1), ← Nat.mul_assoc, Nat.sub_mul, Nat.one_mul, Nat.mul_assoc w, ← hsplit]
    have e2 : w * ((2 ^ 53 - 1) * 2 ^ 1021) = (w * (2 ^ 53 - 1)) * 2 ^ 1021 := by rw [Nat.mul_assoc]
    have e3 : w * one = (w * 2 ^ 53) * 2 ^ 1021 := by rw [ho, Nat.mul_assoc]
    rw [heq, Nat.mul_one, Nat.mul_one, e1, e2, e3] at hn
    clear e1 e2 e3 hr heq hge hle hY hsplit hk3
    have hpow : 2 ^ (k + 1) = 2 * 2 ^ k := by rw [Nat.pow_succ]; omega
    unfold dist at hn
    rw [← Nat.sub_mul, ← Nat.sub_mul, ← Nat.sub_mul, ← Nat.sub_mul, ← Nat.add_mul, ← Nat.add_mul] at hn
    have := Nat.le_of_mul_le_mul_right hn hu
    omega

theorem round_err (p q : Nat) (hq : 0 < q) : 2 * dist (roundPos p q * q) p ≤ q * 2 ^ shift p q := by
  unfold dist
  rcases round_error p q hq with h | h <;> omega

theorem dist_mul_left (c x y : Nat) : c * dist x y = dist (c * x) (c * y) := by
  unfold dist
  rw [Nat.mul_add, Nat.mul_sub, Nat.mul_sub]

theorem dist_chain {x y z m n : Nat} (h1 : dist y z ≤ m) (h2 : dist x y ≤ n) : dist x z ≤ m + n := by
  unfold dist at *
  omega

/-- The rounding errors of the two operations, together. -/
theorem bar_error (w a b : Nat) (hw0 : 0 < w) (hw : w < 2 ^ 53) (hb0 : 0 < b) (h : a ≤ b) :
    dist (bar w a b * b) (w * a * one) ≤ w * b * 2 ^ 1020 + w * b * 2 ^ 1021 := by
  have hpos := one_pos
  have hq1 : quot a b ≤ one := by rw [← quot_end b hb0]; exact quot_mono b hb0 h
  have h1 : 2 * dist (quot a b * b) (a * one) ≤ b * 2 ^ 1021 := by
    rcases Nat.lt_or_ge a b with hlt | hge
    · have hd : a * one / b < 2 ^ 1074 := by
        rw [Nat.div_lt_iff_lt_mul hb0, ← one_eq, Nat.mul_comm one]
        exact Nat.mul_lt_mul_of_pos_right hlt hpos
      refine Nat.le_trans (round_err (a * one) b hb0) (Nat.mul_le_mul_left _ (Nat.pow_le_pow_right (by omega) ?_))
      unfold shift
      by_cases hz : a * one / b = 0
      · rw [hz]; simp
      · have := (Nat.log2_lt hz).2 hd
        omega
    · have : a = b := by omega
      subst this
      rw [quot_end a hb0, Nat.mul_comm one a]
      have : dist (a * one) (a * one) = 0 := by unfold dist; omega
      rw [this]; exact Nat.zero_le _
  have h2 : 2 * dist (bar w a b) (w * quot a b) ≤ w * 2 ^ 1022 := by
    have he := round_err (w * quot a b) 1 (by omega)
    rw [Nat.mul_one, Nat.one_mul] at he
    refine Nat.le_trans he ?_
    by_cases hs : shift (w * quot a b) 1 = 0
    · rw [hs]; exact Nat.le_trans (Nat.pow_le_pow_right (by omega) (by omega)) (Nat.le_mul_of_pos_left _ hw0)
    · have hs2 := (shift_spec (w * quot a b) 1 (by omega)).1 hs
      rw [Nat.div_one, Nat.pow_add] at hs2
      have h3 : w * quot a b ≤ 2 ^ 52 * (w * 2 ^ 1022) := by
        rw [Nat.mul_left_comm, ← Nat.pow_add, ← one_eq]
        exact Nat.mul_le_mul_left _ hq1
      exact Nat.le_of_mul_le_mul_left (Nat.le_trans hs2 h3) (Nat.two_pow_pos 52)
  -- combine
  have t1 := Nat.mul_le_mul_left w h1
  have t2 := Nat.mul_le_mul_right b h2
  have d1 : w * (2 * dist (quot a b * b) (a * one)) = 2 * dist (w * quot a b * b) (w * a * one) := by
    rw [Nat.mul_left_comm, dist_mul_left, Nat.mul_assoc, Nat.mul_assoc]
  have d2 : 2 * dist (bar w a b) (w * quot a b) * b = 2 * dist (bar w a b * b) (w * quot a b * b) := by
    rw [Nat.mul_assoc, Nat.mul_comm _ b, dist_mul_left, Nat.mul_comm b, Nat.mul_comm b]
  rw [d1, ← Nat.mul_assoc] at t1
  rw [d2, Nat.mul_right_comm w (2 ^ 1022) b] at t2
  have p1 : (2 : Nat) ^ 1021 = 2 * 2 ^ 1020 := by rw [← Nat.pow_succ']
  have p2 : (2 : Nat) ^ 1022 = 2 * 2 ^ 1021 := by rw [← Nat.pow_succ']
  rw [p1, Nat.mul_left_comm (w * b) 2] at t1
  rw [p2, Nat.mul_left_comm (w * b) 2] at t2
  exact dist_chain (y := w * quot a b * b) (by omega) (by omega)

/-! ## Values -/

theorem one_rat_pos : (0 : Rat) < (one : Nat) := Rat.natCast_pos.2 one_pos

theorem value_lt_iff (z x : Int) : value (.fin z) < x ↔ z < x * one := by
  simp only [value]
  rw [Rat.div_lt_iff one_rat_pos, ← Rat.intCast_natCast, ← Rat.intCast_mul, Rat.intCast_lt_intCast]

theorem floor_value (z : Int) : (value (.fin z)).floor = z / one := by
  have hpos := one_pos
  have h : ∀ x : Int, (value (.fin z)).floor < x ↔ z / one < x := fun x => by
    rw [Rat.floor_lt_iff, value_lt_iff, Int.ediv_lt_iff_lt_mul (by omega)]
  have h1 := h (z / one)
  have h2 := h (value (.fin z)).floor
  omega

theorem value_mul (z : Int) : value (.fin z) * (one : Nat) = z := by
  simp only [value]
  exact Rat.div_mul_cancel (by have := one_rat_pos; grind)

theorem value_mono {z z' : Int} (h : z ≤ z') : value (.fin z) ≤ value (.fin z') := by
  rw [← Rat.not_lt]
  intro hlt
  have := Rat.mul_lt_mul_of_pos_right hlt one_rat_pos
  rw [value_mul, value_mul, Rat.intCast_lt_intCast] at this
  omega

/-- Specification: the range of sizes. A window of up to 1023 columns and a song of up to 72 days at 44100 Hz are in it. -/
def Sizes (w len : Int) : Prop := 2 ≤ w ∧ 0 < len ∧ w * len ≤ 2 ^ 48

example : Sizes 1021 (72 * 24 * 3600 * 44100) := by unfold Sizes; omega

theorem sizes_bounds {w len : Int} (h : Sizes w len) : w < 2 ^ 53 ∧ len < 2 ^ 53 := by
  obtain ⟨h1, h2, h3⟩ := h
  have a := Int.mul_le_mul_of_nonneg_left (show (1 : Int) ≤ len by omega) (show 0 ≤ w by omega)
  have b := Int.mul_le_mul_of_nonneg_right h1 (show 0 ≤ len by omega)
  constructor <;> omega

theorem barValue_eq {w played len : Int} (hs : Sizes w len) (ha : played.natAbs < 2 ^ 53) :
    barValue (some (played, len)) w =
      value (.fin (if played < 0 then -(bar w.toNat played.natAbs len.natAbs : Int) else bar w.toNat played.natAbs len.natAbs)) := by
  have := sizes_bounds hs
  unfold barValue
  rw [bar_eq w played len (by have := hs.1; omega) this.1 ha hs.2.1 this.2]

theorem barValue_mono {w played played' len : Int} (hs : Sizes w len) (ha : played.natAbs < 2 ^ 53)
    (ha' : played'.natAbs < 2 ^ 53) (h : played ≤ played') :
    barValue (some (played, len)) w ≤ barValue (some (played', len)) w := by
  have hl : 0 < len.natAbs := by have := hs.2.1; omega
  rw [barValue_eq hs ha, barValue_eq hs ha']
  apply value_mono
  split <;> split
  · have := bar_mono (a := played'.natAbs) (a' := played.natAbs) w.toNat len.natAbs hl (by omega); omega
  · omega
  · omega
  · have := bar_mono (a := played.natAbs) (a' := played'.natAbs) w.toNat len.natAbs hl (by omega); omega

theorem barValue_zero {w len : Int} (hs : Sizes w len) : barValue (some (0, len)) w = 0 := by
  rw [barValue_eq hs (by decide), if_neg (by omega), show (0 : Int).natAbs = 0 from rfl, bar_zero _ _ (by have := hs.2.1; omega)]
  simp [value, Rat.div_def]

theorem barValue_end {w len : Int} (hs : Sizes w len) : barValue (some (len, len)) w = w := by
  have hb := sizes_bounds hs
  obtain ⟨h1, h2, h3⟩ := hs
  rw [barValue_eq ⟨h1, h2, h3⟩ (by omega), if_neg (by omega), bar_end _ _ (by omega) (by omega)]
  simp only [value]
  rw [Int.natCast_mul, Rat.intCast_mul, Rat.intCast_natCast one, Rat.mul_div_cancel (by have := one_rat_pos; grind)]
  congr 1
  omega

/-! ## C110 -/

/-- C110: the more has been played, the longer the bar. -/
theorem C110_grows (x y w played played' len : Int) (hs : Sizes w len) (ha : played.natAbs < 2 ^ 53)
    (ha' : played'.natAbs < 2 ^ 53) (h : played ≤ played') :
    fullCells x y w (barValue (some (played, len)) w) ≤ fullCells x y w (barValue (some (played', len)) w) :=
  C48_grows x y w _ _ (barValue_mono hs ha ha' h)

/-- C110: at the beginning (and before) the bar is empty, at the end (and after) it is full. -/
theorem C110_ends (x y w played len : Int) (hs : Sizes w len) (ha : played.natAbs < 2 ^ 53) :
    (played ≤ 0 → fullCells x y w (barValue (some (played, len)) w) = 0) ∧
    (len ≤ played → (fullCells x y w (barValue (some (played, len)) w) : Int) = w) := by
  have hb := sizes_bounds hs
  constructor
  · intro h
    have h1 := C110_grows x y w played 0 len hs ha (by decide) h
    rw [barValue_zero hs] at h1
    have h2 := (C48_accurate x y w 0 (by grind) (by
      have : ((0 : Int) : Rat) ≤ w := Rat.intCast_le_intCast.2 (by have := hs.1; omega)
      simpa using this)).1 (by
        have : ((0 : Int) : Rat) < ((w - 1 : Int) : Rat) := Rat.intCast_lt_intCast.2 (by have := hs.1; omega)
        simpa using this)
    have h3 : (fullCells x y w 0 : Int) < 1 := by
      rw [← Rat.intCast_lt_intCast]
      have := h2.2
      have e : ((1 : Int) : Rat) = 1 := rfl
      rw [e]
      grind
    omega
  · intro h
    have h1 := C110_grows x y w len played len hs (by have := hs.2.1; omega) ha h
    rw [barValue_end hs] at h1
    have h2 := (C48_accurate x y w w (by
      have : ((0 : Int) : Rat) ≤ w := Rat.intCast_le_intCast.2 (by have := hs.1; omega)
      simpa using this) (by grind)).2 (Rat.intCast_le_intCast.2 (by omega))
    have h3 := fullCells_eq x y w (barValue (some (played, len)) w)
    omega

/-- The total error of the bar value: 3/64 of the progress that one sample makes. -/
theorem bar_error' {w played len : Int} (hs : Sizes w len) (h0 : 0 ≤ played) (h : played ≤ len) :
    64 * dist (bar w.toNat played.natAbs len.natAbs * len.natAbs) (w.toNat * played.natAbs * one) ≤ 3 * one := by
  have hb := sizes_bounds hs
  obtain ⟨h1, h2, h3⟩ := hs
  have he := bar_error w.toNat played.natAbs len.natAbs (by omega) (by omega) (by omega) (by omega)
  have hwl : w.toNat * len.natAbs ≤ 2 ^ 48 := by
    have e : ((w.toNat * len.natAbs : Nat) : Int) = w * len := by
      rw [Int.natCast_mul]; congr 1 <;> omega
    omega
  have h4 := Nat.mul_le_mul_right (2 ^ 1020) hwl
  have h5 := Nat.mul_le_mul_right (2 ^ 1021) hwl
  have p1 : (2 : Nat) ^ 1021 = 2 * 2 ^ 1020 := by rw [← Nat.pow_succ']
  have ho : one = 64 * (2 ^ 48 * 2 ^ 1020) := by rw [one_eq]
  rw [p1] at he h5
  rw [Nat.mul_left_comm] at h5
  rw [Nat.mul_left_comm (w.toNat * len.natAbs) 2] at he
  generalize dist (bar w.toNat played.natAbs len.natAbs * len.natAbs) (w.toNat * played.natAbs * one) = d at *
  rw [ho]
  clear hb h0 h ho p1
  generalize 2 ^ 1020 = u at *
  generalize w.toNat * len.natAbs = m at *
  omega

/-- C110: where the last full cell begins. It is the exact place, rounded down to a cell; only if the exact place is
between two cells, it may be one cell less. -/
theorem C110_marker (w played len : Int) (hs : Sizes w len) (h0 : 0 ≤ played) (h : played ≤ len) :
    (barValue (some (played, len)) w).floor = w * played / len ∨
    (len ∣ w * played ∧ (barValue (some (played, len)) w).floor = w * played / len - 1) := by
  have hpos := one_pos
  have hb := sizes_bounds hs
  have he := bar_error' hs h0 h
  rw [barValue_eq hs (by omega), if_neg (by omega), floor_value]
  obtain ⟨h1, h2, h3⟩ := hs
  generalize hZ : bar w.toNat played.natAbs len.natAbs = Z at *
  have hel : ((len.natAbs : Nat) : Int) = len := by omega
  have hew : ((w.toNat * played.natAbs : Nat) : Int) = w * played := by rw [Int.natCast_mul]; congr 1 <;> omega
  generalize hE : w * played = E at *
  generalize w.toNat * played.natAbs = E' at *
  generalize len.natAbs = L at *
  subst hel hew
  -- bounds of Z in units
  have hd := Int.emod_add_mul_ediv (E' : Int) L
  have hm0 := Int.emod_nonneg (E' : Int) (show (L : Int) ≠ 0 by omega)
  have hm1 := Int.emod_lt_of_pos (E' : Int) (show (0 : Int) < L by omega)
  have hu : Z * L < (E' + 1) * one ∧ E' * one < Z * L + one := by
    unfold dist at he
    rw [Nat.add_mul, Nat.one_mul]
    omega
  generalize hq : (E' : Int) / L = q at *
  generalize hr : (E' : Int) % L = r at *
  have hq0 : 0 ≤ q := by rw [← hq]; exact Int.ediv_nonneg (by omega) (by omega)
  have up : (Z : Int) / one < q + 1 := by
    rw [Int.ediv_lt_iff_lt_mul (by omega)]
    have k1 : ((E' + 1 : Nat) : Int) ≤ (q + 1) * L := by
      rw [Int.add_mul, Int.mul_comm q, Int.one_mul]; omega
    have k2 : ((Z * L : Nat) : Int) < ((E' + 1) * one : Nat) := by omega
    rw [Int.natCast_mul, Int.natCast_mul] at k2
    have k3 := Int.mul_le_mul_of_nonneg_right k1 (show (0 : Int) ≤ one by omega)
    have k4 := Int.lt_of_lt_of_le k2 k3
    rw [Int.mul_right_comm] at k4
    exact Int.lt_of_mul_lt_mul_right k4 (by omega)
  by_cases hr0 : r = 0
  · have lo : q - 1 ≤ (Z : Int) / one := by
      rw [Int.le_ediv_iff_mul_le (by omega)]
      have k2 : ((E' * one : Nat) : Int) < ((Z * L : Nat) : Int) + one := by omega
      rw [Int.natCast_mul, Int.natCast_mul] at k2
      have k1 : (E' : Int) = q * L := by rw [Int.mul_comm]; omega
      have k3 : (q - 1) * one * L ≤ Z * L := by
        rw [Int.sub_mul, Int.sub_mul, Int.one_mul, Int.mul_right_comm, ← k1]
        have : (one : Int) * 1 ≤ one * L := Int.mul_le_mul_of_nonneg_left (by omega) (by omega)
        omega
      exact Int.le_of_mul_le_mul_right k3 (by omega)
    have hdv : (L : Int) ∣ E' := Int.dvd_of_emod_eq_zero (by omega)
    by_cases h7 : (Z : Int) / one = q
    · exact .inl h7
    · exact .inr ⟨hdv, by omega⟩
  · left
    have lo : q ≤ (Z : Int) / one := by
      rw [Int.le_ediv_iff_mul_le (by omega)]
      have k2 : ((E' * one : Nat) : Int) < ((Z * L : Nat) : Int) + one := by omega
      rw [Int.natCast_mul, Int.natCast_mul] at k2
      have k1 : q * L + 1 ≤ (E' : Int) := by rw [Int.mul_comm]; omega
      have k5 := Int.mul_le_mul_of_nonneg_right k1 (show (0 : Int) ≤ one by omega)
      rw [Int.add_mul, Int.one_mul] at k5
      have k3 : q * one * L ≤ Z * L := by
        rw [Int.mul_right_comm]
        omega
      exact Int.le_of_mul_le_mul_right k3 (by omega)
    omega

/-- The exception exists: 1 of 49 samples on a bar of 49 cells. -/
theorem C110_marker_low : (barValue (some (1, 49)) 49).floor = 0 ∧ (49 : Int) * 1 / 49 = 1 := by
  refine ⟨?_, by decide⟩
  unfold barValue
  rw [bar_49, floor_value, one_eq]
  decide +kernel

/-- C110: until the song is over, the marker is inside the bar. -/
theorem C110_inside (w played len : Int) (hs : Sizes w len) (h0 : 0 ≤ played) (h : played < len) :
    0 ≤ (barValue (some (played, len)) w).floor ∧ (barValue (some (played, len)) w).floor < w := by
  have hpos := one_pos
  have hb := sizes_bounds hs
  rw [barValue_eq hs (by omega), if_neg (by omega), floor_value]
  obtain ⟨h1, h2, h3⟩ := hs
  refine ⟨Int.ediv_nonneg (by omega) (by omega), ?_⟩
  rw [Int.ediv_lt_iff_lt_mul (by omega)]
  have := bar_lt w.toNat played.natAbs len.natAbs (by omega) (by omega) (by omega) (by omega)
  have e : ((w.toNat * one : Nat) : Int) = w * one := by rw [Int.natCast_mul]; congr 1; omega
  omega

theorem le_of_scaled {X n o : Int} (ho : 0 < o) (h : X * o < (n + 1) * o) : X ≤ n := by
  have := Int.lt_of_mul_lt_mul_right h (Int.le_of_lt ho)
  omega

theorem combine1 {f Z E o : Int} {L' : Nat} (ho : 0 < o) (hL : 0 < (L' : Int)) (d1 : 10 * Z * L' < (10 * f + 7) * o * L')
    (d2 : 100 * (f * o) * L' ≤ (100 * Z + 31 * o) * L') (u1 : 64 * (Z * L') ≤ 64 * (E * o) + 3 * o)
    (u2 : 64 * (E * o) ≤ 64 * (Z * L') + 3 * o) : (f * L' - E).natAbs ≤ L' := by
  have hD : o * 1 ≤ o * L' := Int.mul_le_mul_of_nonneg_left (by omega) (by omega)
  have e1 : 10 * Z * (L' : Int) = 10 * (Z * L') := Int.mul_assoc ..
  have e2 : (10 * f + 7) * o * (L' : Int) = 10 * (f * L' * o) + 7 * (o * L') := by grind
  have e3 : 100 * (f * o) * (L' : Int) = 100 * (f * L' * o) := by grind
  have e4 : (100 * Z + 31 * o) * (L' : Int) = 100 * (Z * L') + 31 * (o * L') := by grind
  rw [e1, e2] at d1
  rw [e3, e4] at d2
  have r1 : f * L' - E ≤ L' := le_of_scaled ho (by
    have : (f * L' - E) * o = f * L' * o - E * o := Int.sub_mul ..
    have : ((L' : Int) + 1) * o = o * L' + o := by grind
    omega)
  have r2 : -(f * L' - E) ≤ L' := le_of_scaled ho (by
    have : -(f * L' - E) * o = E * o - f * L' * o := by grind
    have : ((L' : Int) + 1) * o = o * L' + o := by grind
    omega)
  omega

theorem combine2 {w Z E o : Int} {L' : Nat} (ho : 0 < o) (hL : 0 < (L' : Int)) (d1 : (w - 1) * o * L' ≤ Z * L')
    (d2 : Z * L' ≤ w * o * L') (u1 : 64 * (Z * L') ≤ 64 * (E * o) + 3 * o)
    (u2 : 64 * (E * o) ≤ 64 * (Z * L') + 3 * o) : (w * L' - E).natAbs ≤ L' := by
  have e1 : (w - 1) * o * (L' : Int) = w * L' * o - o * L' := by grind
  have e2 : w * o * (L' : Int) = w * L' * o := by grind
  have hD : o * 1 ≤ o * L' := Int.mul_le_mul_of_nonneg_left (by omega) (by omega)
  rw [e1] at d1
  rw [e2] at d2
  have r1 : w * L' - E ≤ L' := le_of_scaled ho (by
    have : (w * L' - E) * o = w * L' * o - E * o := Int.sub_mul ..
    have : ((L' : Int) + 1) * o = o * L' + o := by grind
    omega)
  have r2 : -(w * L' - E) ≤ L' := le_of_scaled ho (by
    have : -(w * L' - E) * o = E * o - w * L' * o := by grind
    have : ((L' : Int) + 1) * o = o * L' + o := by grind
    omega)
  omega

/-- C110: the number of full cells is true to within one cell: `fullCells / w` differs from `played / len` by at most
`1 / w`. -/
theorem C110_true (x y w played len : Int) (hs : Sizes w len) (h0 : 0 ≤ played) (h : played ≤ len) :
    ((fullCells x y w (barValue (some (played, len)) w) : Int) * len - w * played).natAbs ≤ len.natAbs := by
  have hpos := one_pos
  have hb := sizes_bounds hs
  have he := bar_error' hs h0 h
  have hp0 : 0 ≤ barValue (some (played, len)) w := by
    rw [← barValue_zero hs]; exact barValue_mono hs (by decide) (by omega) h0
  have hp1 : barValue (some (played, len)) w ≤ w := by
    rw [← barValue_end hs]; exact barValue_mono hs (by omega) (by omega) h
  obtain ⟨a1, a2⟩ := C48_accurate x y w _ hp0 hp1
  generalize fullCells x y w (barValue (some (played, len)) w) = f at *
  rw [barValue_eq hs (by omega), if_neg (by omega)] at *
  obtain ⟨h1, h2, h3⟩ := hs
  generalize hZ : bar w.toNat played.natAbs len.natAbs = Z at *
  have hel : ((len.natAbs : Nat) : Int) = len := by omega
  have hew : ((w.toNat * played.natAbs : Nat) : Int) = w * played := by rw [Int.natCast_mul]; congr 1 <;> omega
  generalize hE : w * played = E at *
  generalize w.toNat * played.natAbs = E' at *
  generalize len.natAbs = L at *
  subst hel hew
  have hu : 64 * (Z * L) ≤ 64 * (E' * one) + 3 * one ∧ 64 * (E' * one) ≤ 64 * (Z * L) + 3 * one := by
    unfold dist at he
    omega
  rw [value_lt_iff] at a1
  rw [← Rat.not_lt, value_lt_iff] at a2
  by_cases hc : (Z : Int) < (w - 1) * one
  · obtain ⟨b1, b2⟩ := a1 hc
    -- to integers
    have c1 : 10 * (Z : Int) < (10 * f + 7) * one := by
      have := Rat.mul_lt_mul_of_pos_right (show value (.fin (Z : Int)) < ((f : Int) : Rat) + 7 / 10 by grind) one_rat_pos
      rw [value_mul] at this
      rw [← Rat.intCast_lt_intCast]
      simp only [Rat.intCast_mul, Rat.intCast_add, ← Rat.intCast_natCast] at this ⊢
      grind
    have c2 : 100 * (f * one : Int) ≤ 100 * Z + 31 * one := by
      have := Rat.mul_le_mul_of_nonneg_right (show ((f : Int) : Rat) ≤ value (.fin (Z : Int)) + 31 / 100 by grind)
        (Rat.le_of_lt one_rat_pos)
      rw [Rat.add_mul, value_mul] at this
      rw [← Rat.intCast_le_intCast]
      simp only [Rat.intCast_mul, Rat.intCast_add, ← Rat.intCast_natCast] at this ⊢
      grind
    have d1 := Int.mul_lt_mul_of_pos_right c1 h2
    have d2 := Int.mul_le_mul_of_nonneg_right c2 (Int.le_of_lt h2)
    have u1 : 64 * ((Z : Int) * L) ≤ 64 * (E' * one) + 3 * one := by have := hu.1; norm_cast
    have u2 : 64 * ((E' : Int) * one) ≤ 64 * (Z * L) + 3 * one := by have := hu.2; norm_cast
    exact combine1 (by omega) h2 d1 d2 u1 u2
  · have hf := a2 hc
    have u1 : 64 * ((Z : Int) * L) ≤ 64 * (E' * one) + 3 * one := by have := hu.1; norm_cast
    have u2 : 64 * ((E' : Int) * one) ≤ 64 * (Z * L) + 3 * one := by have := hu.2; norm_cast
    have c3 : (Z : Int) ≤ w * one := by
      have := Rat.mul_le_mul_of_nonneg_right hp1 (Rat.le_of_lt one_rat_pos)
      rw [value_mul, ← Rat.intCast_natCast, ← Rat.intCast_mul, Rat.intCast_le_intCast] at this
      exact this
    rw [hf]
    have d1 := Int.mul_le_mul_of_nonneg_right (Int.not_lt.1 hc) (Int.le_of_lt h2)
    have d2 := Int.mul_le_mul_of_nonneg_right c3 (Int.le_of_lt h2)
    exact combine2 (by omega) h2 d1 d2 u1 u2

/-- C110: without a progress (no song, or one of unknown length) the bar is empty. -/
theorem C110_none (x y w : Int) (hw : 2 ≤ w) (hw1 : w < 2 ^ 53) : fullCells x y w (barValue none w) = 0 := by
  have h0 : barValue none w = barValue (some (0, 1)) w := by
    have : barValue (some (0, 1)) w = value (barF w (div (ofInt 0) (ofInt 1))) := rfl
    rw [this, div_ints 0 1 (by decide) (by decide) (by decide)]
    have e : quot (0 : Int).natAbs (1 : Int).natAbs = 0 := by
      unfold quot
      have := round_exact (q := 1) (by omega) rep_zero
      simpa using this
    rw [if_neg (by omega), e]
    rfl
  rw [h0]
  have hs : barValue (some (0, 1)) w = 0 := by
    unfold barValue
    rw [bar_eq w 0 1 (by omega) hw1 (by decide) (by decide) (by decide), if_neg (by omega)]
    rw [show (0 : Int).natAbs = 0 from rfl, bar_zero _ _ (by decide)]
    simp [value, Rat.div_def]
  rw [hs]
  have h2 := (C48_accurate x y w 0 (by grind) (by
    have : ((0 : Int) : Rat) ≤ w := Rat.intCast_le_intCast.2 (by omega)
    simpa using this)).1 (by
      have : ((0 : Int) : Rat) < ((w - 1 : Int) : Rat) := Rat.intCast_lt_intCast.2 (by omega)
      simpa using this)
  have h3 : (fullCells x y w 0 : Int) < 1 := by
    rw [← Rat.intCast_lt_intCast]
    have := h2.2
    have e : ((1 : Int) : Rat) = 1 := rfl
    rw [e]
    grind
  omega

/-- Specification: the number of full cells between the first and the last column in the bar's row of the window. -/
def shownCells (size : Nat) (w h : Int) (v : View) : Nat :=
  ((List.range (w - 2).toNat).filter fun (i : Nat) => cell (redraw size w h v) (1 + i) (h - 2) = some '█').length

/-- C110, on the screen: in a window of `w` columns the bar has `w - 2` cells; what is shown is the song's progress to
within one of them, whatever else is shown. -/
theorem C110_screen (size : Nat) (w h played len : Int) (v : View) (hv : v.progress = barValue (some (played, len)))
    (hs : Sizes (w - 2) len) (h0 : 0 ≤ played) (h1 : played ≤ len) :
    ((shownCells size w h v : Int) * len - (w - 2) * played).natAbs ≤ len.natAbs := by
  have e : shownCells size w h v = fullCells 1 (h - 2) (w - 2) (barValue (some (played, len)) (w - 2)) := by
    unfold shownCells fullCells
    congr 1
    apply List.filter_congr
    intro i hi
    rw [List.mem_range] at hi
    rw [C68_bar size w h (by have := hs.1; omega) v (1 + i) (by omega) (by omega), hv]
  rw [e]
  exact C110_true 1 (h - 2) (w - 2) played len hs h0 h1

/-- A case: a third of a song on a window of 80 columns. -/
example (size : Nat) (h : Int) (v : View) (hv : v.progress = barValue (some (44100, 132300))) :
    25 ≤ shownCells size 80 h v ∧ shownCells size 80 h v ≤ 27 := by
  have := C110_screen size 80 h 44100 132300 v hv (by unfold Sizes; omega) (by omega) (by omega)
  omega

end MS.Float64
