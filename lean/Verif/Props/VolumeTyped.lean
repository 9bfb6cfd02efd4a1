import Verif.Props.NumberText
import Verif.Props.Numbers
import Verif.Props.VolumeLine
/-!
# Property C118: the volume typed is the volume set
-/
set_option linter.unusedSimpArgs false
set_option exponentiation.threshold 2100
namespace MS.Numbers
open MS.Commands MS.Float64

attribute [local irreducible] one

/-! ## Rounding -/

theorem nearest_eq (n base : Nat) (e : Int) :
    nearest n base e = round ((n * base ^ e.toNat * one : Nat) : Int) (base ^ (-e).toNat) := by
  unfold nearest
  split
  · rename_i h
    rw [show (-e).toNat = 0 by omega, Nat.pow_zero]
  · rename_i h
    rw [show e.toNat = 0 by omega, Nat.pow_zero, Nat.mul_one]

theorem round_nat (p q : Nat) : round (p : Int) q =
    if 2 ^ 1024 * one ≤ roundPos p q then .inf false else .fin (roundPos p q) := by
  unfold round
  simp only [Int.natAbs_natCast]
  rw [decide_eq_false (by omega), if_neg (show ¬ (p : Int) < 0 by omega)]

theorem roundPos_tiny {p q : Nat} (h : 2 * p < q) : roundPos p q = 0 := by
  have hd : p / q = 0 := Nat.div_eq_of_lt (by omega)
  have hs : shift p q = 0 := by unfold shift; rw [hd]; rfl
  rw [roundPos_eq, hs, Nat.pow_zero, Nat.mul_one, Nat.mul_one]
  unfold rhe
  rw [Nat.mod_eq_of_lt (by omega), if_pos h, hd]

theorem rep_lim : Rep (2 ^ 1024 * one) := ⟨1, 2098, by rw [Nat.one_mul, one_eq, ← Nat.pow_add], by decide⟩

theorem nearest_zero (base : Nat) (e : Int) (hb : 1 ≤ base) : nearest 0 base e = .fin 0 := by
  rw [nearest_eq, round_nat, Nat.zero_mul, Nat.zero_mul, roundPos_tiny (by have := Nat.pow_pos (n := (-e).toNat) hb; omega),
    if_neg]
  · rfl
  · have := one_pos
    have := Nat.mul_pos (Nat.two_pow_pos 1024) one_pos
    omega

theorem nearest_big {n base : Nat} {e : Int} (hn : 1 ≤ n) (hb : 2 ≤ base) (he : 2000 ≤ e) : nearest n base e = .inf false := by
  rw [nearest_eq, round_nat, if_pos]
  have hq : (-e).toNat = 0 := by omega
  rw [hq, Nat.pow_zero]
  apply le_round (by omega) rep_lim
  rw [Nat.mul_one]
  apply Nat.mul_le_mul_right
  have h1 : 2 ^ 1024 ≤ base ^ e.toNat :=
    Nat.le_trans (Nat.pow_le_pow_right (by omega) (show 1024 ≤ e.toNat by omega)) (Nat.pow_le_pow_left hb _)
  exact Nat.le_trans h1 (Nat.le_mul_of_pos_left _ hn)

theorem nearest_tiny {n base : Nat} {e : Int} (hn : n < 2 ^ 8000) (hb : 2 ≤ base) (he : e ≤ -10000) :
    nearest n base e = .fin 0 := by
  rw [nearest_eq, round_nat]
  have hq : e.toNat = 0 := by omega
  rw [hq, Nat.pow_zero, Nat.mul_one, roundPos_tiny, if_neg]
  · rfl
  · have := Nat.mul_pos (Nat.two_pow_pos 1024) one_pos
    omega
  · refine Nat.lt_of_lt_of_le ?_
      (Nat.le_trans (Nat.pow_le_pow_right (show 0 < 2 by omega) (show 10000 ≤ (-e).toNat by omega)) (Nat.pow_le_pow_left hb _))
    have h2 : 2 * (n * one) < 2 * (2 ^ 8000 * one) :=
      Nat.mul_lt_mul_of_pos_left (Nat.mul_lt_mul_of_pos_right hn one_pos) (by omega)
    refine Nat.lt_of_lt_of_le h2 ?_
    rw [one_eq, ← Nat.pow_add, Nat.mul_comm 2, ← Nat.pow_succ]
    exact Nat.pow_le_pow_right (by omega) (by omega)

/-! ## The largest numbers -/

/-- the largest finite float64, in units -/
def top : Nat := (2 ^ 53 - 1) * 2 ^ 2045

theorem rep_top : Rep top := ⟨2 ^ 53 - 1, 2045, rfl, by decide⟩

theorem rep_lt_lim {z : Nat} (h : Rep z) (hz : z < 2 ^ 1024 * one) : z ≤ top := by
  rw [lim_eq] at hz
  unfold top
  have hu := Nat.two_pow_pos 2045
  rcases rep_grid h 2045 with ⟨c, rfl⟩ | ⟨_, hlt⟩
  · have := Nat.lt_of_mul_lt_mul_right hz
    exact Nat.mul_le_mul_right _ (by omega)
  · rw [Nat.pow_add] at hlt
    generalize 2 ^ 2045 = u at *
    omega

theorem tie_up : roundPos ((2 ^ 54 - 1) * 2 ^ 2044) 1 = 2 ^ 2098 := by decide +kernel

/-- Where infinity begins: halfway between the largest finite float64 and 2^1024. -/
theorem overflow_iff (p q : Nat) (hq : 0 < q) : 2 ^ 1024 * one ≤ roundPos p q ↔ (2 ^ 54 - 1) * 2 ^ 2044 * q ≤ p := by
  have hl : 2 ^ 1024 * one = (2 ^ 54 - 1) * 2 ^ 2044 + 2 ^ 2044 := by
    rw [one_eq]
  have ht : top + 2 ^ 2044 = (2 ^ 54 - 1) * 2 ^ 2044 := by
    rfl
  have hn1 := round_nearest p q (2 ^ 1024 * one) hq rep_lim
  have hn2 := round_nearest p q top hq rep_top
  have e1 : 2 ^ 1024 * one * q = (2 ^ 54 - 1) * 2 ^ 2044 * q + 2 ^ 2044 * q := by rw [hl, Nat.add_mul]
  have e2 : top * q + 2 ^ 2044 * q = (2 ^ 54 - 1) * 2 ^ 2044 * q := by rw [← Nat.add_mul, ht]
  constructor
  · intro h
    rcases Nat.lt_or_ge p ((2 ^ 54 - 1) * 2 ^ 2044 * q) with hp | hp
    · exfalso
      have h1 := Nat.mul_le_mul_right q h
      rw [e1] at h1
      rcases Nat.lt_or_ge (top * q) p with h2 | h2
      · generalize roundPos p q * q = a at *
        generalize (2 ^ 54 - 1) * 2 ^ 2044 * q = m at *
        generalize 2 ^ 2044 * q = u at *
        generalize top * q = t at *
        clear hn1 e1
        unfold dist at hn2
        omega
      · have h3 := round_le hq rep_top h2
        rw [hl] at h
        have := Nat.two_pow_pos 2044
        omega
    · exact hp
  · intro hp
    rcases Nat.lt_or_ge (roundPos p q) (2 ^ 1024 * one) with h | h
    · exfalso
      have h1 := Nat.mul_le_mul_right q (rep_lt_lim (rep_round p q hq) h)
      rcases Nat.lt_or_ge p (2 ^ 1024 * one * q) with h2 | h2
      · have he : p = (2 ^ 54 - 1) * 2 ^ 2044 * q := by
          rw [e1] at hn1 h2
          generalize roundPos p q * q = a at *
          generalize (2 ^ 54 - 1) * 2 ^ 2044 * q = m at *
          generalize 2 ^ 2044 * q = u at *
          generalize top * q = t at *
          unfold dist at hn1
          omega
        have := roundPos_ratio ((2 ^ 54 - 1) * 2 ^ 2044) 1 q hq
        rw [Nat.one_mul, ← he, tie_up] at this
        rw [this, one_eq, ← Nat.pow_add] at h
        exact Nat.lt_irrefl _ h
      · have := le_round hq rep_lim h2
        omega
    · exact h

/-! ## Bits -/

theorem bits_toBits {neg : Bool} {m : Nat} (hr : Rep m) (hl : m < 2 ^ 1024 * one) :
    ofBits (toBits neg m) = .fin (sgn neg m) ∧ signBit (toBits neg m) = neg := by
  have key : ∃ e f : Nat, e < 2047 ∧ f < 2 ^ 52 ∧ (if e = 0 then f else (2 ^ 52 + f) * 2 ^ (e - 1)) = m ∧
      (if m < 2 ^ 52 then m else (m.log2 - 51) * 2 ^ 52 + (m / 2 ^ (m.log2 - 52) - 2 ^ 52)) = e * 2 ^ 52 + f := by
    rcases Nat.lt_or_ge m (2 ^ 52) with h | h
    · exact ⟨0, m, by omega, h, by simp, by rw [if_pos h]; omega⟩
    · have hn : m ≠ 0 := by have := Nat.two_pow_pos 52; omega
      have hL : 52 ≤ m.log2 := (Nat.le_log2 hn).2 h
      have hU : m.log2 < 2098 := by
        apply (Nat.log2_lt hn).2
        rw [lim_eq, ← Nat.pow_add] at hl
        exact hl
      have h1 := Nat.log2_self_le hn
      have h2 := @Nat.lt_log2_self m
      rcases rep_grid hr (m.log2 - 52) with ⟨c, hc⟩ | ⟨_, hlt⟩
      · have hp := Nat.two_pow_pos (m.log2 - 52)
        have e1 : 2 ^ m.log2 = 2 ^ 52 * 2 ^ (m.log2 - 52) := by rw [← Nat.pow_add]; congr 1; omega
        have e2 : 2 ^ (m.log2 + 1) = 2 ^ 53 * 2 ^ (m.log2 - 52) := by rw [← Nat.pow_add]; congr 1; omega
        have g1 : 2 ^ 52 ≤ c := by
          rw [e1] at h1
          exact Nat.le_of_mul_le_mul_right (Nat.le_trans h1 (Nat.le_of_eq hc)) hp
        have g2 : c < 2 ^ 53 := by
          rw [e2] at h2
          exact Nat.lt_of_mul_lt_mul_right (Nat.lt_of_le_of_lt (Nat.le_of_eq hc.symm) h2)
        refine ⟨m.log2 - 51, c - 2 ^ 52, by omega, by omega, ?_, ?_⟩
        · rw [if_neg (by omega), show 2 ^ 52 + (c - 2 ^ 52) = c by omega, show m.log2 - 51 - 1 = m.log2 - 52 by omega]
          exact hc.symm
        · rw [if_neg (by omega)]
          have : m / 2 ^ (m.log2 - 52) = c := by
            conv => lhs; lhs; rw [hc]
            exact Nat.mul_div_cancel _ hp
          rw [this]
      · rw [show 52 + (m.log2 - 52) = m.log2 by omega] at hlt
        omega
  obtain ⟨e, f, he, hf, h1, h2⟩ := key
  unfold toBits
  rw [h2, ← Nat.add_assoc]
  constructor
  · rw [ofBits_ofNat neg e f he hf, h1]
    rfl
  · unfold signBit
    have hlt : (if neg then 2 ^ 63 else 0) + e * 2 ^ 52 + f < 2 ^ 64 := by split <;> omega
    rw [UInt64.toNat_ofNat_of_lt' hlt]
    cases neg
    · simp; omega
    · simp; omega

/-! ## How long numbers are -/

theorem clipped_spec (ds : List Nat) : clipped ds = num 10 ds ∨ (10000 ≤ clipped ds ∧ 10000 ≤ num 10 ds) := by
  have big : ∀ (l : List Nat) (a : Nat), 10000 ≤ a → 10000 ≤ l.foldl (fun e d => if e < 10000 then e * 10 + d else e) a := by
    intro l
    induction l with
    | nil => intro a h; exact h
    | cons d l ih => intro a h; rw [List.foldl_cons, if_neg (by omega)]; exact ih a h
  have big' : ∀ (l : List Nat) (a : Nat), 10000 ≤ a → 10000 ≤ l.foldl (fun v d => v * 10 + d) a := by
    intro l
    induction l with
    | nil => intro a h; exact h
    | cons d l ih => intro a h; rw [List.foldl_cons]; exact ih _ (by omega)
  have key : ∀ (l : List Nat) (a : Nat), l.foldl (fun e d => if e < 10000 then e * 10 + d else e) a =
      l.foldl (fun v d => v * 10 + d) a ∨ (10000 ≤ l.foldl (fun e d => if e < 10000 then e * 10 + d else e) a ∧
        10000 ≤ l.foldl (fun v d => v * 10 + d) a) := by
    intro l
    induction l with
    | nil => intro a; exact .inl rfl
    | cons d l ih =>
      intro a
      rcases Nat.lt_or_ge a 10000 with h | h
      · rw [List.foldl_cons, List.foldl_cons, if_pos h]; exact ih _
      · exact .inr ⟨big _ _ h, big' _ _ h⟩
  exact key ds 0

theorem digitVal_lt {hex : Bool} {c : Char} {d : Nat} (h : digitVal hex c = some d) : d < radix hex := by
  unfold digitVal isDec at h
  unfold radix
  cases hex
  · split at h
    · rename_i h1
      rw [decide_eq_true_iff] at h1
      injection h with h
      simp; omega
    · simp at h
  · simp only [if_true]
    split at h
    · rename_i h1
      rw [decide_eq_true_iff] at h1
      injection h with h
      omega
    · split at h
      · rename_i h1
        simp at h1
        injection h with h
        omega
      · split at h
        · rename_i h1
          simp at h1
          injection h with h
          omega
        · cases h

theorem digits_size {hex : Bool} {s : List Char} {ds : List Nat} (h : Digits hex s ds) :
    ds.length ≤ s.length ∧ ∀ d ∈ ds, d < radix hex := by
  induction h with
  | last h =>
    rw [digit_iff] at h
    exact ⟨by simp, fun d hd => by rw [List.mem_singleton.1 hd]; exact digitVal_lt h⟩
  | next h _ ih =>
    rw [digit_iff] at h
    refine ⟨by simp; exact ih.1, fun d hd => ?_⟩
    rcases List.mem_cons.1 hd with rfl | hd
    · exact digitVal_lt h
    · exact ih.2 d hd
  | separated h _ ih =>
    rw [digit_iff] at h
    refine ⟨by simp; omega, fun d hd => ?_⟩
    rcases List.mem_cons.1 hd with rfl | hd
    · exact digitVal_lt h
    · exact ih.2 d hd

theorem mantissa_size {hex : Bool} {s : List Char} {i f : List Nat} (h : Mantissa hex s i f) :
    (i ++ f).length ≤ s.length ∧ ∀ d ∈ i ++ f, d < radix hex := by
  cases h with
  | whole h => rw [List.append_nil]; exact digits_size h
  | pointed h =>
    rw [List.append_nil]
    have := digits_size h
    exact ⟨by simp; omega, this.2⟩
  | fraction h =>
    have := digits_size h
    exact ⟨by simp; omega, this.2⟩
  | both h1 h2 =>
    have h1 := digits_size h1
    have h2 := digits_size h2
    refine ⟨by simp; omega, fun d hd => ?_⟩
    rcases List.mem_append.1 hd with hd | hd
    · exact h1.2 d hd
    · exact h2.2 d hd

theorem num_lt {base : Nat} (ds : List Nat) (h : ∀ d ∈ ds, d < base) : num base ds < base ^ ds.length := by
  have key : ∀ (l : List Nat) (a : Nat), (∀ d ∈ l, d < base) → l.foldl (fun v d => v * base + d) a < (a + 1) * base ^ l.length := by
    intro l
    induction l with
    | nil => intro a _; simp
    | cons d l ih =>
      intro a h
      rw [List.foldl_cons]
      refine Nat.lt_of_lt_of_le (ih _ (fun x hx => h x (List.mem_cons_of_mem _ hx))) ?_
      rw [List.length_cons, Nat.pow_succ, Nat.mul_comm (base ^ _), ← Nat.mul_assoc]
      apply Nat.mul_le_mul_right
      have := h d (List.mem_cons_self ..)
      rw [Nat.add_mul, Nat.one_mul]
      omega
  have := key ds 0 h
  rwa [Nat.zero_add, Nat.one_mul] at this

theorem shape_size {s : List Char} {neg hex : Bool} {i f : List Nat} {o : Option Bool} {ds : List Nat}
    (h : Shape s neg hex i f o ds) : i.length + f.length ≤ s.length ∧ ∀ d ∈ i ++ f, d < radix hex := by
  obtain ⟨sg, t, -, ⟨u, m, R, rfl, -, hm, -⟩, h⟩ := h
  have h1 := mantissa_size hm
  rw [List.length_append] at h1
  refine ⟨?_, h1.2⟩
  rcases h with ⟨-, rfl⟩ | ⟨x0, -, -, rfl⟩ <;> simp only [List.length_append, List.length_cons] <;> omega

/-- The clipped exponent makes no difference. -/
theorem nearest_clipped {s : List Char} {neg hex : Bool} {i f : List Nat} {o : Option Bool} {ds : List Nat}
    (h : Shape s neg hex i f o ds) (hl : s.length ≤ 2000) :
    nearest (num (radix hex) (i ++ f)) (if hex then 2 else 10)
      (if num (radix hex) (i ++ f) = 0 then 0 else expOf clipped o ds - places hex * f.length) =
    nearest (num (radix hex) (i ++ f)) (if hex then 2 else 10) (expOf (num 10) o ds - places hex * f.length) := by
  obtain ⟨h1, h2⟩ := shape_size h
  have hb : 2 ≤ (if hex then 2 else 10) := by split <;> omega
  have hr : radix hex ≤ 2 ^ 4 ∧ 0 < radix hex := by unfold radix; split <;> omega
  have hp : places hex * f.length ≤ 8000 ∧ 0 ≤ places hex * f.length := by unfold places; split <;> omega
  have hn := num_lt _ h2
  have hn : num (radix hex) (i ++ f) < 2 ^ 8000 := by
    refine Nat.lt_of_lt_of_le hn (Nat.le_trans (Nat.pow_le_pow_left hr.1 _) ?_)
    rw [← Nat.pow_mul]
    apply Nat.pow_le_pow_right (by omega)
    rw [List.length_append]
    omega
  generalize hN : num (radix hex) (i ++ f) = n at *
  generalize hB : (if hex then 2 else 10 : Nat) = base at *
  by_cases h0 : n = 0
  · subst h0
    rw [if_pos rfl, nearest_zero _ _ (by omega), nearest_zero _ _ (by omega)]
  · rw [if_neg h0]
    cases o with
    | none => rfl
    | some en =>
      simp only [expOf]
      rcases clipped_spec ds with h3 | ⟨h3, h4⟩
      · rw [h3]
      · cases en
        · rw [nearest_big (by omega) hb (by simp only [sgn, Bool.false_eq_true, if_false]; omega),
            nearest_big (by omega) hb (by simp only [sgn, Bool.false_eq_true, if_false]; omega)]
        · rw [nearest_tiny hn hb (by simp only [sgn, if_true]; omega), nearest_tiny hn hb (by simp only [sgn, if_true]; omega)]

/-! ## The names -/

/-- Specification: the names of the float64 that are no numbers, in small or capital letters. -/
def Named (s : List Char) (v : F) : Prop :=
  (v = .nan ∧ s.map Char.toLower = "nan".toList) ∨
  (v = .inf false ∧ s.map Char.toLower ∈ ["inf".toList, "+inf".toList, "infinity".toList, "+infinity".toList]) ∨
  (v = .inf true ∧ s.map Char.toLower ∈ ["-inf".toList, "-infinity".toList])

theorem lower_eq (c : Char) : lower c = c.toLower := by
  unfold lower Char.toLower
  by_cases h : 65 ≤ c.toNat ∧ c.toNat ≤ 90
  · have h' : c.val ≥ 'A'.val ∧ c.val ≤ 'Z'.val := h
    rw [if_pos h, dif_pos h']
    apply Char.ext
    apply UInt32.toNat_inj.1
    have e1 : (Char.ofNat (c.toNat + 32)).toNat = c.toNat + 32 := by
      have : Nat.isValidChar (c.toNat + 32) := .inl (by omega)
      rw [Char.ofNat, dif_pos this]
      rfl
    have e2 : (c.val + 32).toNat = c.toNat + 32 := by
      rw [UInt32.toNat_add, show UInt32.toNat 32 = 32 from rfl, show c.val.toNat = c.toNat from rfl]
      omega
    exact e1.trans e2.symm
  · have h' : ¬ (c.val ≥ 'A'.val ∧ c.val ≤ 'Z'.val) := h
    rw [if_neg h, dif_neg h']

theorem special_named (s : List Char) :
    (∀ v, Named s v → ∃ b, special s = some b ∧ ofBits b = v) ∧ ((∀ v, ¬ Named s v) → special s = none) := by
  have e : s.map lower = s.map Char.toLower := by congr 1; funext c; exact lower_eq c
  unfold special Named
  rw [e]
  generalize s.map Char.toLower = l
  simp only [List.mem_cons, List.not_mem_nil, or_false]
  constructor
  · rintro v (⟨rfl, rfl⟩ | ⟨rfl, h⟩ | ⟨rfl, h⟩)
    · exact ⟨_, rfl, by decide⟩
    · refine ⟨_, if_pos ?_, by decide⟩
      rcases h with h | h | h | h <;> simp [h]
    · rcases h with rfl | rfl
      · exact ⟨0xFFF0000000000000, rfl, by decide⟩
      · exact ⟨0xFFF0000000000000, rfl, by decide⟩
  · intro h
    have h1 := h .nan
    have h2 := h (.inf false)
    have h3 := h (.inf true)
    simp only [reduceCtorEq, false_and, or_false, false_or, true_and, F.inf.injEq, Bool.false_eq_true] at h1 h2 h3
    rw [if_neg, if_neg, if_neg h1]
    · exact h3
    · rintro (h | h | h | h) <;> simp [h] at h2

/-- No number is a name. -/
theorem special_none {s : List Char} {neg hex : Bool} {i f : List Nat} {o : Option Bool} {ds : List Nat}
    (h : Shape s neg hex i f o ds) : special s = none := by
  -- the first character behind the sign
  have hh : ∃ sg c cs, Sign sg neg ∧ s = sg ++ c :: cs ∧ (inRun false c = true ∨ c = '.') := by
    obtain ⟨sg, t, hsg, hw, ⟨rfl, rfl⟩ | ⟨x0, rfl, hx0, rfl⟩⟩ := h
    · obtain ⟨c, cs, rfl, hc⟩ := written_head hw
      exact ⟨sg, c, cs, hsg, rfl, hc⟩
    · exact ⟨sg, '0', x0 :: t, hsg, rfl, .inl rfl⟩
  obtain ⟨sg, c, cs, hsg, rfl, hc⟩ := hh
  have hlow : c.toNat ≤ 57 ∨ c.toNat = 95 := by
    rcases hc with hc | rfl
    · unfold inRun at hc
      by_cases hu : c = '_'
      · right; rw [hu]; rfl
      · left
        have hd : (digitVal false c).isSome = true := by simpa [hu] using hc
        obtain ⟨d, hd⟩ := Option.isSome_iff_exists.1 hd
        have := dec_of hd
        unfold isDec at this
        rw [decide_eq_true_iff] at this
        exact this.2
    · left; decide
  have hl : lower c = c := by unfold lower; rw [if_neg (by omega)]
  have hi : lower c ≠ 'i' := by rw [hl]; rintro rfl; revert hlow; decide
  have hn : lower c ≠ 'n' := by rw [hl]; rintro rfl; revert hlow; decide
  unfold special
  have hp : c ≠ '+' := by rintro rfl; revert hc; decide
  have hm : c ≠ '-' := by rintro rfl; revert hc; decide
  rw [hl] at hi hn
  have e1 : lower '+' = '+' := by decide
  have e2 : lower '-' = '-' := by decide
  have n1 : "+inf".toList = '+' :: 'i' :: "nf".toList := rfl
  have n2 : "+infinity".toList = '+' :: 'i' :: "nfinity".toList := rfl
  have n3 : "inf".toList = 'i' :: "nf".toList := rfl
  have n4 : "infinity".toList = 'i' :: "nfinity".toList := rfl
  have n5 : "-inf".toList = '-' :: 'i' :: "nf".toList := rfl
  have n6 : "-infinity".toList = '-' :: 'i' :: "nfinity".toList := rfl
  have n7 : "nan".toList = 'n' :: "an".toList := rfl
  rw [n1, n2, n3, n4, n5, n6, n7]
  rcases hsg with ⟨rfl, -⟩ | ⟨rfl, -⟩ | ⟨rfl, -⟩ <;>
    simp only [List.nil_append, List.cons_append, List.map_cons, List.cons.injEq, hl, e1, e2, hi, hn, hp, hm, false_and,
      and_false, or_self, if_false] <;> simp

/-- What the parser gives for a number. -/
theorem parse_number {s : List Char} {neg : Bool} {n base : Nat} {e : Int} (h : Numeral s neg n base e) (hl : s.length ≤ 2000) :
    parseFloat s = match nearest n base e with | .fin z => some (toBits neg z.natAbs) | _ => none := by
  obtain ⟨hex, i, f, o, ds, hs, rfl, rfl, rfl⟩ := (numeral_iff s neg n base e).1 h
  unfold parseFloat
  rw [special_none hs]
  simp only
  rw [readFloat_of hs]
  simp only
  rw [nearest_clipped hs hl]
  cases nearest (num (radix hex) (i ++ f)) (if hex = true then 2 else 10) (expOf (num 10) o ds - places hex * f.length) <;> rfl

theorem numeral_base {s : List Char} {neg : Bool} {n base : Nat} {e : Int} (h : Numeral s neg n base e) : 0 < base := by
  cases h <;> decide

theorem refuse_eq : (2 ^ 54 - 1) * 2 ^ 2044 = (2 ^ 1024 - 2 ^ 970) * 2 ^ 1074 := by decide +kernel

theorem overflow_iff' (p q : Nat) (hq : 0 < q) : 2 ^ 1024 * one ≤ roundPos (p * one) q ↔ (2 ^ 1024 - 2 ^ 970) * q ≤ p := by
  rw [overflow_iff _ _ hq, refuse_eq, ← one_eq]
  generalize 2 ^ 1024 - 2 ^ 970 = x
  rw [Nat.mul_right_comm]
  exact Nat.mul_le_mul_right_iff one_pos

/-! ## C118 -/

/-- C118: a number is read as the float64 nearest to it (of two, the one with the even significand), with the sign typed;
from halfway between the largest float64 and 2^1024 on it is refused. For texts of up to 2000 characters: exponents beyond
10000 are cut. -/
theorem C118_number (s : List Char) (neg : Bool) (n base : Nat) (e : Int) (h : Numeral s neg n base e) (hl : s.length ≤ 2000)
    (p q : Nat) (hp : p = n * base ^ e.toNat) (hq : q = base ^ (-e).toNat) :
    (p < (2 ^ 1024 - 2 ^ 970) * q → ∃ b v, parseFloat s = some b ∧ ofBits b = .fin (sgn neg v) ∧ signBit b = neg ∧
      v = roundPos (p * one) q ∧ ∀ z, Rep z → dist (v * q) (p * one) ≤ dist (z * q) (p * one)) ∧
    ((2 ^ 1024 - 2 ^ 970) * q ≤ p → parseFloat s = none) := by
  have hb := numeral_base h
  have hq0 : 0 < q := by rw [hq]; exact Nat.pow_pos hb
  have hn : nearest n base e = if 2 ^ 1024 * one ≤ roundPos (p * one) q then .inf false else .fin (roundPos (p * one) q) := by
    rw [nearest_eq, ← hp, ← hq]
    exact round_nat _ _
  have ho := overflow_iff' p q hq0
  have hr := rep_round (p * one) q hq0
  have hx := fun z hz => round_nearest (p * one) q z hq0 hz
  have hs := parse_number h hl
  generalize roundPos (p * one) q = v at *
  rw [hs]
  clear hs h hp hq
  generalize (2 ^ 1024 - 2 ^ 970) * q = w at *
  constructor
  · intro hlt
    have hge : ¬ 2 ^ 1024 * one ≤ v := fun hge => Nat.lt_irrefl _ (Nat.lt_of_lt_of_le hlt (ho.1 hge))
    rw [if_neg hge] at hn
    rw [hn]
    obtain ⟨b1, b2⟩ := bits_toBits (neg := neg) hr (Nat.lt_of_not_le hge)
    exact ⟨toBits neg v, v, congrArg (fun m => some (toBits neg m)) (Int.natAbs_natCast v), b1, b2, rfl, hx⟩
  · intro hge
    rw [if_pos (ho.2 hge)] at hn
    rw [hn]

/-- C118: besides numbers only the names of NaN and the infinities are read, as what they name; everything else is
refused. -/
theorem C118_other (s : List Char) :
    (∀ v, Named s v → ∃ b, parseFloat s = some b ∧ ofBits b = v) ∧
    ((∀ v, ¬ Named s v) → (¬ ∃ neg n base e, Numeral s neg n base e) → parseFloat s = none) := by
  obtain ⟨h1, h2⟩ := special_named s
  constructor
  · intro v hv
    obtain ⟨b, hb, hv⟩ := h1 v hv
    exact ⟨b, by unfold parseFloat; rw [hb], hv⟩
  · intro hn hx
    unfold parseFloat
    rw [h2 hn]
    simp only
    cases hr : readFloat s with
    | none => rfl
    | some w =>
      exfalso
      obtain ⟨neg, hex, i, f, o, ds, hs⟩ := shape_of (s := s) (by rw [hr]; rfl)
      exact hx ⟨neg, _, _, _, (numeral_iff s neg _ _ _).2 ⟨hex, i, f, o, ds, hs, rfl, rfl, rfl⟩⟩

variable (glob : String → Except (List Char) (List String))

/-- Specification: `s` denotes the non-negative fraction `k / d`. -/
def Fraction (s : List Char) (k d : Nat) : Prop :=
  ∃ n base e, Numeral s false n base e ∧ n * base ^ e.toNat * d = k * base ^ (-e).toNat

theorem fraction_parsed {s : List Char} {k d : Nat} (h : Fraction s k d) (hd : 0 < d) (hk : k < 2 ^ 53) (hl : s.length ≤ 2000) :
    ∃ b, parseFloat s = some b ∧ Parsed b k d := by
  obtain ⟨n, base, e, h, he⟩ := h
  have hb := numeral_base h
  have hq0 : 0 < base ^ (-e).toNat := Nat.pow_pos hb
  have hr : n * base ^ e.toNat < (2 ^ 1024 - 2 ^ 970) * base ^ (-e).toNat := by
    have h1 : n * base ^ e.toNat ≤ k * base ^ (-e).toNat := by rw [← he]; exact Nat.le_mul_of_pos_right _ hd
    refine Nat.lt_of_le_of_lt h1 (Nat.mul_lt_mul_of_pos_right (Nat.lt_trans hk (by decide +kernel)) hq0)
  obtain ⟨b, v, h1, h2, h3, h4, -⟩ := (C118_number s false n base e h hl _ _ rfl rfl).1 hr
  refine ⟨b, h1, ?_, ?_⟩
  · have hv : v = roundPos (k * one) d := by
      have a := roundPos_ratio (n * base ^ e.toNat * one) (base ^ (-e).toNat) d hd
      have c := roundPos_ratio (k * one) d (base ^ (-e).toNat) hq0
      rw [Nat.mul_right_comm, he, Nat.mul_right_comm, Nat.mul_comm _ d] at a
      rw [h4, ← a, c]
    rw [h2, ← Int.natCast_mul, round_nat, if_neg, ← hv]
    · rfl
    · rw [← hv]
      have := (ofBits_rep h2).2
      simp only [sgn, Bool.false_eq_true, if_false, Int.natAbs_natCast] at this
      omega
  · unfold signBit at h3
    rw [decide_eq_false_iff_not] at h3
    omega

/-- C118, `volume`: the volume set and sent to the clients is the float64 nearest to the number typed, whatever its sign and
size. -/
theorem C118_volume (sendError : Option (List Char)) (a : String) (rest : List String) (c : Ctl) (neg : Bool) (n base : Nat)
    (e : Int) (h : Numeral a.toList neg n base e) (hl : a.toList.length ≤ 2000) (p q : Nat) (hp : p = n * base ^ e.toNat)
    (hq : q = base ^ (-e).toNat) (hr : p < (2 ^ 1024 - 2 ^ 970) * q) :
    ∃ b v t, exec (ext glob sendError) .volume (a :: rest) c =
        .done { c with volume := b, sent := c.sent ++ [b] } (.text t) ∧ ofBits b = .fin (sgn neg v) ∧
      ∀ z, Rep z → dist (v * q) (p * one) ≤ dist (z * q) (p * one) := by
  obtain ⟨b, v, h1, h2, -, -, h5⟩ := (C118_number _ neg n base e h hl p q hp hq).1 hr
  have hf : (ext glob sendError).parseFloat a = some b := h1
  simp only [exec, volume, parseFloatParam, List.getElem?_cons_zero, hf]
  cases hs : (ext glob sendError).sendError with
  | some t => exact ⟨b, v, _, rfl, h2, h5⟩
  | none => exact ⟨b, v, _, rfl, h2, h5⟩

/-- C118, `volume`: NaN and the infinities are set and sent as well. -/
theorem C118_volume_named (sendError : Option (List Char)) (a : String) (rest : List String) (c : Ctl) (v : F)
    (h : Named a.toList v) :
    ∃ b t, exec (ext glob sendError) .volume (a :: rest) c =
        .done { c with volume := b, sent := c.sent ++ [b] } (.text t) ∧ ofBits b = v := by
  obtain ⟨b, h1, h2⟩ := (C118_other a.toList).1 v h
  have hf : (ext glob sendError).parseFloat a = some b := h1
  simp only [exec, volume, parseFloatParam, List.getElem?_cons_zero, hf]
  cases hs : (ext glob sendError).sendError with
  | some t => exact ⟨b, _, rfl, h2⟩
  | none => exact ⟨b, _, rfl, h2⟩

/-- C118, `volume`: anything else is refused, which sets the volume to 0 (C33) and sends nothing. -/
theorem C118_volume_refused (sendError : Option (List Char)) (a : String) (rest : List String) (c : Ctl)
    (h : ∀ v, ¬ Named a.toList v)
    (h' : ∀ neg n base e, Numeral a.toList neg n base e → a.toList.length ≤ 2000 ∧
      (2 ^ 1024 - 2 ^ 970) * base ^ (-e).toNat ≤ n * base ^ e.toNat) :
    exec (ext glob sendError) .volume (a :: rest) c = .done { c with volume := 0 } .usage := by
  apply C33_volume_rejected_sets_zero
  change (Option.some a).bind (fun s => parseFloat s.toList) = none
  rw [Option.bind_some]
  by_cases hx : ∃ neg n base e, Numeral a.toList neg n base e
  · obtain ⟨neg, n, base, e, hx⟩ := hx
    obtain ⟨h1, h2⟩ := h' neg n base e hx
    exact (C118_number _ neg n base e hx h1 _ _ rfl rfl).2 h2
  · exact (C118_other a.toList).2 h hx

/-- C118, the reply: a volume of up to three decimals is written back exactly. -/
theorem C118_reply (a : String) (rest : List String) (c : Ctl) (k : Nat) (hk : k < 2 ^ 32) (h : Fraction a.toList k 1000)
    (hl : a.toList.length ≤ 2000) :
    ∃ b, exec (ext glob none) .volume (a :: rest) c = .done { c with volume := b, sent := c.sent ++ [b] }
      (.text ("setting volume to ".toList ++
        (Fmt.dec (k / 1000) ++ ['.', Fmt.digit (k / 100), Fmt.digit (k / 10), Fmt.digit k]))) := by
  obtain ⟨b, h1, h2⟩ := fraction_parsed h (by omega) (by omega) hl
  have hf : (ext glob none).parseFloat a = some b := h1
  refine ⟨b, ?_⟩
  simp only [exec, volume, parseFloatParam, List.getElem?_cons_zero, hf]
  have ht := C111_reply b k hk h2
  change Run.done _ (.text ("setting volume to ".toList ++ volumeText b)) = _
  rw [ht]

/-- C118, the infoer: a volume of up to four decimals, below 10, is shown exactly, as a percentage. -/
theorem C118_shown (sendError : Option (List Char)) (a : String) (rest : List String) (c : Ctl) (k : Nat) (hk : k < 100000)
    (h : Fraction a.toList k 10000) (hl : a.toList.length ≤ 2000) :
    ∃ b t, exec (ext glob sendError) .volume (a :: rest) c = .done { c with volume := b, sent := c.sent ++ [b] } (.text t) ∧
      volumeLine b = "Volume: ".toList ++ sixDigits k ++ ['%'] := by
  obtain ⟨b, h1, h2⟩ := fraction_parsed h (by omega) (by omega) hl
  have hf : (ext glob sendError).parseFloat a = some b := h1
  have ht := C111_typed b k hk h2
  simp only [exec, volume, parseFloatParam, List.getElem?_cons_zero, hf]
  cases hs : (ext glob sendError).sendError with
  | some t => exact ⟨b, _, rfl, ht⟩
  | none => exact ⟨b, _, rfl, ht⟩

/-- C118, what is heard (C108): 0, however it is written, is silence; 1 leaves every sample as it is. -/
theorem C118_heard (sendError : Option (List Char)) (a : String) (rest : List String) (c : Ctl) (hl : a.toList.length ≤ 2000) :
    (Fraction a.toList 0 1 → ∃ b t, exec (ext glob sendError) .volume (a :: rest) c =
      .done { c with volume := b, sent := c.sent ++ [b] } (.text t) ∧ ∀ sample, heard b sample = 0) ∧
    (Fraction a.toList 1 1 → ∃ b t, exec (ext glob sendError) .volume (a :: rest) c =
      .done { c with volume := b, sent := c.sent ++ [b] } (.text t) ∧
      ∀ sample, heard b sample = Pcm.le16 (convertF (ofBits sample))) := by
  have key : ∀ k, k < 2 ^ 53 → Fraction a.toList k 1 → ∃ b t, exec (ext glob sendError) .volume (a :: rest) c =
      .done { c with volume := b, sent := c.sent ++ [b] } (.text t) ∧ ofBits b = .fin (k * one : Nat) := by
    intro k hk h
    obtain ⟨b, h1, h2⟩ := fraction_parsed h (by omega) hk hl
    have h3 := (parsed_fin h2 (by omega) hk).1
    have hr := round_exact (q := 1) (by omega) (rep_int hk)
    rw [Nat.mul_one] at hr
    rw [hr] at h3
    have hf : (ext glob sendError).parseFloat a = some b := h1
    simp only [exec, volume, parseFloatParam, List.getElem?_cons_zero, hf]
    cases hs : (ext glob sendError).sendError with
    | some t => exact ⟨b, _, rfl, h3⟩
    | none => exact ⟨b, _, rfl, h3⟩
  constructor
  · intro h
    obtain ⟨b, t, h1, h2⟩ := key 0 (by omega) h
    refine ⟨b, t, h1, fun sample => C108_silent b sample (h2.trans ?_)⟩
    rw [Nat.zero_mul]; rfl
  · intro h
    obtain ⟨b, t, h1, h2⟩ := key 1 (by omega) h
    refine ⟨b, t, h1, fun sample => C108_unchanged b sample (h2.trans ?_)⟩
    rw [Nat.one_mul]

/-! Cases. -/

/-- `half` is no number. -/
example (sendError : Option (List Char)) (c : Ctl) :
    exec (ext glob sendError) .volume ["half"] c = .done { c with volume := 0 } .usage := by
  apply C118_volume_refused
  · intro v h
    have : "half".toList.map Char.toLower = "half".toList := by decide
    unfold Named at h
    rw [this] at h
    revert h
    simp
  · intro neg n base e h
    exfalso
    obtain ⟨hex, i, f, o, ds, hs, -⟩ := (numeral_iff _ neg n base e).1 h
    have := readFloat_of hs
    rw [show readFloat "half".toList = none by decide] at this
    cases this

theorem digits_of {hex : Bool} {c : Char} {d : Nat} (h : digitVal hex c = some d) : Digits hex [c] [d] :=
  .last ((digit_iff ..).2 h)

/-- `.5`, `5e-1` and `0x8p-4` are numbers, one half each. -/
theorem half_1 : Fraction ".5".toList 500 1000 :=
  ⟨_, _, _, .decimal (.inl ⟨rfl, rfl⟩) (.fraction (digits_of (show digitVal false '5' = some 5 by decide))), by decide⟩

example : Fraction "5e-1".toList 500 1000 :=
  ⟨_, _, _, .scientific (sg := []) (m := ['5']) (c := 'e') (es := ['-']) (x := ['1']) (.inl ⟨rfl, rfl⟩)
    (.whole (digits_of (show digitVal false '5' = some 5 by decide))) (.inl rfl) (.inr (.inr ⟨rfl, rfl⟩))
    (digits_of (show digitVal false '1' = some 1 by decide)), by decide⟩

example : Fraction "0x8p-4".toList 5000 10000 :=
  ⟨_, _, _, .hexadecimal (sg := []) (x0 := 'x') (u := []) (m := ['8']) (c := 'p') (es := ['-']) (x := ['4']) (.inl ⟨rfl, rfl⟩)
    (.inl rfl) (.inl rfl) (.whole (digits_of (show digitVal true '8' = some 8 by decide))) (.inl rfl) (.inr (.inr ⟨rfl, rfl⟩))
    (digits_of (show digitVal false '4' = some 4 by decide)), by decide⟩

example (c : Ctl) : ∃ b, exec (ext glob none) .volume [".5"] c = .done { c with volume := b, sent := c.sent ++ [b] }
    (.text "setting volume to 0.500".toList) := by
  have h := C118_reply glob ".5" [] c 500 (by omega) half_1 (by decide)
  rw [dec_lt _ (by omega)] at h
  exact h

/-- What the parser computes for a few texts. -/
example : parseFloat "0.5".toList = some 0x3FE0000000000000 ∧ parseFloat "-0".toList = some 0x8000000000000000 ∧
    parseFloat "0.1".toList = some 0x3FB999999999999A ∧ parseFloat "1e400".toList = none ∧
    parseFloat "1e-400".toList = some 0 ∧ parseFloat "1_0".toList = some 0x4024000000000000 ∧ parseFloat "1__0".toList = none ∧
    parseFloat "0x1p-1".toList = some 0x3FE0000000000000 ∧ parseFloat "0x1".toList = none ∧ parseFloat "".toList = none ∧
    parseFloat "1e".toList = none ∧ parseFloat "half".toList = none ∧ parseFloat "Inf".toList = some 0x7FF0000000000000 := by
  decide +kernel

example : Named "NaN".toList .nan ∧ Named "-Infinity".toList (.inf true) := by
  refine ⟨.inl ⟨rfl, by decide⟩, .inr (.inr ⟨rfl, by decide⟩)⟩

end MS.Numbers
