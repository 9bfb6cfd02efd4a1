import Verif.Model.Numbers
import Verif.Props.Replies
/-!
# Property C117: a position typed is the position used
-/
set_option linter.unusedSimpArgs false
namespace MS.Numbers
open MS.Commands MS.Playlist

/-! ## Specification -/

/-- `s` is a whole number in decimal digits, with or without a sign; its value is `z`. -/
def Integer (s : List Char) (z : Int) : Prop :=
  ∃ ds, ds ≠ [] ∧ (∀ d ∈ ds, '0' ≤ d ∧ d ≤ '9') ∧
    ((s = ds ∧ z = Fmt.value ds) ∨ (s = '+' :: ds ∧ z = Fmt.value ds) ∨ (s = '-' :: ds ∧ z = -(Fmt.value ds : Int)))

/-! ## Lemmas -/

theorem isDec_iff (c : Char) : isDec c = true ↔ '0' ≤ c ∧ c ≤ '9' := by
  unfold isDec
  rw [decide_eq_true_iff]
  exact Iff.rfl

theorem isDec_val {c : Char} (h : isDec c = true) : c.toNat - 48 ≤ 9 := by
  unfold isDec at h
  rw [decide_eq_true_iff] at h
  omega

/-- the number denoted by digits that follow the number `n` -/
def val (n : Nat) (s : List Char) : Nat := s.foldl (fun v c => 10 * v + (c.toNat - 48)) n

theorem val_le (s : List Char) : ∀ n, n ≤ val n s := by
  induction s with
  | nil => intro n; exact Nat.le_refl n
  | cons c cs ih =>
    intro n
    have := ih (10 * n + (c.toNat - 48))
    simp only [val, List.foldl_cons] at this ⊢
    omega

theorem val_lt (s : List Char) (h : ∀ d ∈ s, isDec d = true) : ∀ n, val n s < (n + 1) * 10 ^ s.length := by
  induction s with
  | nil => intro n; simp [val]
  | cons c cs ih =>
    intro n
    have h1 := ih (fun d hd => h d (List.mem_cons_of_mem _ hd)) (10 * n + (c.toNat - 48))
    have h2 := isDec_val (h c (List.mem_cons_self ..))
    simp only [val, List.foldl_cons, List.length_cons] at h1 ⊢
    refine Nat.lt_of_lt_of_le h1 ?_
    rw [Nat.pow_succ, show (n + 1) * (10 ^ cs.length * 10) = (10 * (n + 1)) * 10 ^ cs.length by
      rw [Nat.mul_comm (10 ^ _) 10, ← Nat.mul_assoc, Nat.mul_comm (n + 1) 10]]
    exact Nat.mul_le_mul_right _ (by omega)

theorem fast_none {s : List Char} (h : ¬ ∀ d ∈ s, isDec d = true) : ∀ n, fast n s = none := by
  induction s with
  | nil => exact absurd (by simp) h
  | cons c cs ih =>
    intro n
    rw [fast]
    by_cases hc : isDec c = true
    · rw [if_pos hc]
      exact ih (fun hh => h (by
        intro d hd
        rcases List.mem_cons.1 hd with rfl | hd
        · exact hc
        · exact hh d hd)) _
    · rw [if_neg hc]

theorem fast_some (s : List Char) (h : ∀ d ∈ s, isDec d = true) : ∀ n : Nat, val n s < 2 ^ 63 → fast n s = some (val n s : Int) := by
  induction s with
  | nil => intro n _; rfl
  | cons c cs ih =>
    intro n hn
    have hle := val_le cs (10 * n + (c.toNat - 48))
    have hn' : val (10 * n + (c.toNat - 48)) cs < 2 ^ 63 := hn
    rw [fast, if_pos (h c (List.mem_cons_self ..))]
    rw [wrap64_id (x := (n : Int) * 10) (by omega) (by omega), wrap64_id (by omega) (by omega)]
    have := ih (fun d hd => h d (List.mem_cons_of_mem _ hd)) (10 * n + (c.toNat - 48)) hn'
    rw [show ((n : Int) * 10 + ((c.toNat - 48 : Nat) : Int)) = ((10 * n + (c.toNat - 48) : Nat) : Int) by omega]
    exact this

theorem parseUint_none {s : List Char} (h : ¬ ∀ d ∈ s, isDec d = true) : ∀ n, parseUint n s = none := by
  induction s with
  | nil => exact absurd (by simp) h
  | cons c cs ih =>
    intro n
    rw [parseUint]
    by_cases hc : isDec c = true
    · rw [if_pos hc]
      split
      · rfl
      · simp only
        split
        · rfl
        · exact ih (fun hh => h (by
            intro d hd
            rcases List.mem_cons.1 hd with rfl | hd
            · exact hc
            · exact hh d hd)) _
    · rw [if_neg hc]

theorem parseUint_eq (s : List Char) (h : ∀ d ∈ s, isDec d = true) : ∀ n : Nat, n < 2 ^ 64 →
    parseUint n s = if val n s < 2 ^ 64 then some (val n s) else none := by
  induction s with
  | nil => intro n hn; rw [if_pos (show val n [] < 2 ^ 64 from hn)]; rfl
  | cons c cs ih =>
    intro n hn
    have hd := isDec_val (h c (List.mem_cons_self ..))
    have hle := val_le cs (10 * n + (c.toNat - 48))
    have hval : val n (c :: cs) = val (10 * n + (c.toNat - 48)) cs := rfl
    rw [parseUint, if_pos (h c (List.mem_cons_self ..)), hval]
    by_cases h1 : 1844674407370955162 ≤ n
    · rw [if_pos h1, if_neg (by omega)]
    · rw [if_neg h1]
      simp only
      have e10 : n * 10 % 2 ^ 64 = n * 10 := Nat.mod_eq_of_lt (by omega)
      rw [e10]
      by_cases h2 : n * 10 + (c.toNat - 48) < 2 ^ 64
      · rw [Nat.mod_eq_of_lt h2, if_neg (by omega), show n * 10 + (c.toNat - 48) = 10 * n + (c.toNat - 48) by omega]
        exact ih (fun d hd => h d (List.mem_cons_of_mem _ hd)) _ (by omega)
      · rw [if_pos (by omega), if_neg (by omega)]

theorem sign_spec (s : List Char) : (sign s = (true, (sign s).2) ∧ s = '-' :: (sign s).2) ∨
    (sign s = (false, (sign s).2) ∧ s = '+' :: (sign s).2) ∨
    (sign s = (false, s) ∧ s.head? ≠ some '-' ∧ s.head? ≠ some '+') := by
  unfold sign
  split
  · exact .inl ⟨rfl, rfl⟩
  · exact .inr (.inl ⟨rfl, rfl⟩)
  · rename_i h1 h2
    refine .inr (.inr ⟨rfl, ?_, ?_⟩) <;> intro h <;> cases s with
      | nil => simp at h
      | cons a l => simp at h; subst h; first | exact h1 l rfl | exact h2 l rfl

/-- what a sign and digits denote -/
def signed (neg : Bool) (n : Nat) : Int := if neg then -(n : Int) else n

theorem integer_iff (s : List Char) (z : Int) : Integer s z ↔
    (sign s).2 ≠ [] ∧ (∀ d ∈ (sign s).2, isDec d = true) ∧ z = signed (sign s).1 (val 0 (sign s).2) := by
  constructor
  · rintro ⟨ds, h0, h1, h | h | h⟩
    · obtain ⟨rfl, rfl⟩ := h
      have hs : sign s = (false, s) := by
        rcases sign_spec s with h | h | h
        · exfalso
          rw [h.2] at h1
          exact absurd (h1 '-' (List.mem_cons_self ..)) (by decide)
        · exfalso
          rw [h.2] at h1
          exact absurd (h1 '+' (List.mem_cons_self ..)) (by decide)
        · exact h.1
      rw [hs]
      exact ⟨h0, fun d hd => (isDec_iff d).2 (h1 d hd), rfl⟩
    · obtain ⟨rfl, rfl⟩ := h
      exact ⟨h0, fun d hd => (isDec_iff d).2 (h1 d hd), rfl⟩
    · obtain ⟨rfl, rfl⟩ := h
      exact ⟨h0, fun d hd => (isDec_iff d).2 (h1 d hd), rfl⟩
  · rintro ⟨h0, h1, h2⟩
    have hd : ∀ d ∈ (sign s).2, '0' ≤ d ∧ d ≤ '9' := fun d hd => (isDec_iff d).1 (h1 d hd)
    rcases sign_spec s with h | h | h
    · refine ⟨_, h0, hd, .inr (.inr ⟨h.2, ?_⟩)⟩
      rw [h2, congrArg Prod.fst h.1]; rfl
    · refine ⟨_, h0, hd, .inr (.inl ⟨h.2, ?_⟩)⟩
      rw [h2, congrArg Prod.fst h.1]; rfl
    · refine ⟨_, h0, hd, .inl ⟨(congrArg Prod.snd h.1).symm, ?_⟩⟩
      rw [h2, congrArg Prod.fst h.1]; rfl

theorem sign_length (s : List Char) : (sign s).2.length ≤ s.length := by
  rcases sign_spec s with h | h | h
  · have := congrArg List.length h.2; simp at this; omega
  · have := congrArg List.length h.2; simp at this; omega
  · rw [h.1]; exact Nat.le_refl _

theorem parseInt_iff (s : List Char) (z : Int) :
    parseInt s = some z ↔ Integer s z ∧ -(2 ^ 63) ≤ z ∧ z < 2 ^ 63 := by
  rw [integer_iff]
  unfold parseInt
  by_cases hs : s = []
  · subst hs; simp [sign]
  rw [if_neg hs]
  generalize hsg : sign s = sg
  obtain ⟨neg, ds⟩ := sg
  simp only
  by_cases h0 : ds = []
  · simp [h0]
  rw [if_neg h0]
  by_cases h1 : ∀ d ∈ ds, isDec d = true
  · rw [parseUint_eq ds h1 0 (by omega)]
    by_cases h2 : val 0 ds < 2 ^ 64
    · rw [if_pos h2]
      simp only
      cases neg
      · simp only [Bool.not_false, Bool.true_and, Bool.false_and, signed]
        by_cases h3 : 2 ^ 63 ≤ val 0 ds
        · rw [if_pos (by simpa using h3)]
          constructor
          · intro h; cases h
          · rintro ⟨⟨-, -, h⟩, -, h5⟩
            exfalso
            simp only [Bool.false_eq_true, if_false] at h
            omega
        · rw [if_neg (by simpa using h3)]
          simp only [Bool.false_eq_true, if_false, Option.some.injEq]
          rw [wrap64_id (by omega) (by omega)]
          constructor
          · rintro rfl; exact ⟨⟨h0, h1, rfl⟩, by omega, by omega⟩
          · rintro ⟨⟨-, -, h⟩, -⟩; exact h.symm
      · simp only [Bool.not_true, Bool.false_and, Bool.true_and, signed, if_true, Bool.false_eq_true, if_false]
        by_cases h3 : 2 ^ 63 < val 0 ds
        · rw [if_pos (by simpa using h3)]
          constructor
          · intro h; cases h
          · rintro ⟨⟨-, -, h⟩, h5, -⟩
            exfalso
            omega
        · rw [if_neg (by simpa using h3)]
          simp only [Option.some.injEq]
          have e : wrap64 (-wrap64 (val 0 ds : Int)) = -(val 0 ds : Int) := by
            rcases Nat.lt_or_ge (val 0 ds) (2 ^ 63) with h4 | h4
            · rw [wrap64_id (x := (val 0 ds : Int)) (by omega) (by omega), wrap64_id (by omega) (by omega)]
            · rw [show val 0 ds = 2 ^ 63 by omega]; decide
          rw [e]
          constructor
          · rintro rfl; exact ⟨⟨h0, h1, rfl⟩, by omega, by omega⟩
          · rintro ⟨⟨-, -, h⟩, -⟩; exact h.symm
    · rw [if_neg h2]
      simp only
      constructor
      · intro h; cases h
      · rintro ⟨⟨-, -, h⟩, h5, h6⟩
        exfalso
        cases neg <;> simp only [signed, if_true, Bool.false_eq_true, if_false] at h <;> omega
  · rw [parseUint_none h1]
    simp [h1]

/-! ## C117 -/

/-- C117: a parameter is taken for a number iff it is a whole number in decimal digits, with or without a sign, that fits
into 64 bits; and then it is that number. -/
theorem C117_atoi (s : List Char) (z : Int) : atoi s = some z ↔ Integer s z ∧ -(2 ^ 63) ≤ z ∧ z < 2 ^ 63 := by
  unfold atoi
  by_cases hl : 0 < s.length ∧ s.length < 19
  · rw [if_pos hl, integer_iff]
    have hlen := sign_length s
    generalize hsg : sign s = sg at *
    obtain ⟨neg, ds⟩ := sg
    simp only at *
    by_cases h0 : ds = []
    · simp [h0]
    rw [if_neg h0]
    by_cases h1 : ∀ d ∈ ds, isDec d = true
    · have hv : val 0 ds < 2 ^ 63 := by
        have := val_lt ds h1 0
        rw [Nat.zero_add, Nat.one_mul] at this
        exact Nat.lt_trans this (Nat.lt_of_le_of_lt (Nat.pow_le_pow_right (by omega) (show ds.length ≤ 18 by omega)) (by decide))
      have := fast_some ds h1 0 hv
      rw [show ((0 : Nat) : Int) = 0 from rfl] at this
      rw [this]
      simp only [Option.map_some, Option.some.injEq]
      rw [wrap64_id (by omega) (by omega)]
      constructor
      · rintro rfl
        exact ⟨⟨h0, h1, rfl⟩, by split <;> omega, by split <;> omega⟩
      · rintro ⟨⟨-, -, h⟩, -⟩; exact h.symm
    · rw [fast_none h1]
      simp [h1]
  · rw [if_neg hl]
    exact parseInt_iff s z

/-- Specification: a text that can be no position: no whole number, or one beyond 64 bits. -/
def NoNumber (s : List Char) : Prop := ¬ ∃ z : Int, Integer s z ∧ -(2 ^ 63) ≤ z ∧ z < 2 ^ 63

theorem atoi_none {s : List Char} (h : NoNumber s) : atoi s = none := by
  cases hx : atoi s with
  | none => rfl
  | some z => exact absurd ⟨z, (C117_atoi s z).1 hx⟩ h

variable (glob : String → Except (List Char) (List String)) (sendError : Option (List Char))

/-- C117, `jump`: the position typed is the new position of the playlist (C07) and the one in the reply; a text that is no
number is refused and nothing happens. -/
theorem C117_jump (a : String) (rest : List String) (c : Ctl) :
    (∀ z : Int, Integer a.toList z → -(2 ^ 63) ≤ z → z < 2 ^ 63 → c.tokens < 2 →
      ∃ c' t, exec (ext glob sendError) .jump (a :: rest) c = .done c' (.text ("jumped to ".toList ++ t)) ∧ Denotes t z ∧
        c'.position = z) ∧
    (NoNumber a.toList → exec (ext glob sendError) .jump (a :: rest) c = .done c .usage) := by
  constructor
  · intro z h h1 h2 ht
    exact C102_jump _ a rest c z ((C117_atoi a.toList z).2 ⟨h, h1, h2⟩) ht
  · intro h
    have ha : (ext glob sendError).atoi a = none := atoi_none h
    simp only [exec, jump, parseIntParam, List.getElem?_cons_zero, ha]

/-- C117, `remove`: the song at the position typed, counted from 0, is removed, and it is the one named in the reply; a text
that is no number is refused and nothing happens. -/
theorem C117_remove (a : String) (rest : List String) (c : Ctl) :
    (∀ (k : Nat) (hk : k < c.songs.length), Integer a.toList k → k < 2 ^ 63 →
      ∃ num, exec (ext glob sendError) .remove (a :: rest) c = .done { c with songs := c.songs.eraseIdx k }
          (.text ("removed song ".toList ++ (c.songs[k]).toList ++ " at position ".toList ++ num ++ " from playlist".toList)) ∧
        Denotes num k) ∧
    (NoNumber a.toList → exec (ext glob sendError) .remove (a :: rest) c = .done c .usage) := by
  constructor
  · intro k hk h h2
    exact C102_remove_partial _ a rest c k ((C117_atoi a.toList k).2 ⟨h, by omega, by omega⟩) hk
  · intro h
    have ha : (ext glob sendError).atoi a = none := atoi_none h
    simp only [exec, remove, parseIntParam, List.getElem?_cons_zero, ha]

/-- C117, `queue`: the songs that match are put before the song at the position typed, at the end for positions beyond it.
A text that is no number is not refused: the songs go to the end. -/
theorem C117_queue (pattern a : String) (rest matched : List String) (c : Ctl) (hg : glob pattern = .ok matched)
    (hm : matched ≠ []) :
    (∀ k : Nat, Integer a.toList k → k + matched.length ≤ 2 ^ 63 →
      ∃ t, exec (ext glob sendError) .queue (pattern :: a :: rest) c =
        .done { c with songs := c.songs.take k ++ matched ++ c.songs.drop k } (.text t)) ∧
    (NoNumber a.toList →
      ∃ t, exec (ext glob sendError) .queue (pattern :: a :: rest) c =
        .done { c with songs := c.songs ++ matched } (.text t)) := by
  have hpos := List.length_pos_iff.2 hm
  constructor
  · intro k h h1
    obtain ⟨t, ht⟩ := C34_insert_partial (ext glob sendError) pattern a rest matched c k
      ((C117_atoi a.toList k).2 ⟨h, by omega, by omega⟩) (by omega) (by omega) hg hm
    refine ⟨t, ht.trans ?_⟩
    have e : clip (k : Int) c.songs.length = min k c.songs.length := by unfold clip; omega
    rw [e]
    rcases Nat.le_total k c.songs.length with h2 | h2
    · rw [Nat.min_eq_left h2]
    · rw [Nat.min_eq_right h2, List.take_of_length_le h2, List.drop_eq_nil_of_le h2, List.take_length, List.drop_length]
  · intro h
    exact C34_append (ext glob sendError) pattern (a :: rest) matched c (atoi_none h) hg hm

/-- C117: every 64 bit integer can be typed. -/
theorem C117_every_position (z : Int) (h1 : -(2 ^ 63) ≤ z) (h2 : z < 2 ^ 63) : ∃ s, atoi s = some z := by
  obtain ⟨ds, e, h0, hd, hv⟩ := decInt_denotes z
  refine ⟨decInt z, (C117_atoi _ z).2 ⟨⟨ds, h0, hd, ?_⟩, h1, h2⟩⟩
  by_cases hz : z < 0
  · rw [if_pos hz] at e
    exact .inr (.inr ⟨e, by omega⟩)
  · rw [if_neg hz] at e
    exact .inl ⟨e, by omega⟩

/-- Cases: both ways of reading, the largest and the smallest number, one too many; and texts that are none. -/
example : atoi "+007".toList = some 7 ∧ atoi "9223372036854775807".toList = some 9223372036854775807 ∧
    atoi "9223372036854775808".toList = none ∧ atoi "-9223372036854775808".toList = some (-9223372036854775808) ∧
    atoi "-".toList = none ∧ atoi [] = none ∧ atoi "1_0".toList = none ∧ atoi "3.0".toList = none ∧
    atoi "18446744073709551617".toList = none ∧ atoi "00000000000000000000000005".toList = some 5 := by decide +kernel

example : NoNumber "2nd".toList := by
  rintro ⟨z, h⟩
  have := (C117_atoi _ z).2 h
  revert this
  rw [show atoi "2nd".toList = none by decide]
  intro h; cases h

/-- `queue a.mp3 1` puts the song before the second one, `queue a.mp3 1st` after the last one. -/
example : ∃ t, exec (ext (fun _ => .ok ["a.mp3"]) none) .queue ["a.mp3", "1"] ⟨["x", "y"], 0, 0, true, "", 0, []⟩ =
    .done ⟨["x", "a.mp3", "y"], 0, 0, true, "", 0, []⟩ (.text t) :=
  (C117_queue (fun _ => .ok ["a.mp3"]) none "a.mp3" "1" [] ["a.mp3"] ⟨["x", "y"], 0, 0, true, "", 0, []⟩ rfl (by simp)).1 1
    ⟨['1'], by simp, by decide, .inl ⟨rfl, rfl⟩⟩ (by decide)

end MS.Numbers
