import Verif.Props.CommandNumbers
import Verif.Props.Float64
/-!
# Property C120: the times of the command line
-/
set_option linter.unusedSimpArgs false
set_option exponentiation.threshold 2200
namespace MS.CommandLine
open MS.Numbers MS.CommandSpec MS.Float64

/-! ## Digits -/

/-- the value of a digit -/
def dval (c : Char) : Nat := c.toNat - 48

/-- the values of the digits in front -/
def dvals (s : List Char) : List Nat := (s.takeWhile isDec).map dval

theorem digit_dec (c : Char) (d : Nat) : Digit false c d ↔ isDec c = true ∧ d = dval c := by
  rw [digit_iff]
  unfold digitVal dval
  cases h : isDec c
  · simp
  · simp [eq_comm]

theorem plain_iff (s : List Char) (ds : List Nat) : Plain s ds ↔ (∀ c ∈ s, isDec c = true) ∧ ds = s.map dval := by
  constructor
  · intro h
    induction h with
    | nil => simp
    | cons hd _ ih =>
      obtain ⟨h1, h2⟩ := (digit_dec _ _).1 hd
      refine ⟨?_, by rw [ih.2, h2, List.map_cons]⟩
      intro c hc
      rcases List.mem_cons.1 hc with rfl | hc
      · exact h1
      · exact ih.1 c hc
  · rintro ⟨h, rfl⟩
    induction s with
    | nil => exact .nil
    | cons c s ih =>
      exact .cons ((digit_dec c _).2 ⟨h c (by simp), rfl⟩) (ih fun x hx => h x (by simp [hx]))

theorem take_all {s r : List Char} (h : ∀ c ∈ s, isDec c = true) (hr : ∀ c, r.head? = some c → isDec c = false) :
    (s ++ r).takeWhile isDec = s ∧ (s ++ r).dropWhile isDec = r := by
  induction s with
  | nil =>
    cases r with
    | nil => simp
    | cons c r => simp [hr c rfl]
  | cons c s ih =>
    have := ih fun x hx => h x (by simp [hx])
    simp [h c (by simp), this]

theorem dval_lt {c : Char} (h : isDec c = true) : dval c < 10 := by
  unfold isDec at h
  unfold dval
  simp at h
  omega

theorem plain_lt {s : List Char} {ds : List Nat} (h : Plain s ds) : ∀ d ∈ ds, d < 10 := by
  obtain ⟨h1, rfl⟩ := (plain_iff s ds).1 h
  intro d hd
  obtain ⟨c, hc, rfl⟩ := List.mem_map.1 hd
  exact dval_lt (h1 c hc)

theorem dec_dropWhile (s : List Char) (c : Char) (h : (s.dropWhile isDec).head? = some c) : isDec c = false := by
  have := List.head?_dropWhile_not (p := isDec) (l := s)
  rw [h] at this
  simpa using this

theorem dec_takeWhile (s : List Char) : ∀ c ∈ s.takeWhile isDec, isDec c = true :=
  fun c hc => (List.all_eq_true.1 (List.all_takeWhile (l := s) (p := isDec))) c hc

theorem leadingInt_eq (s : List Char) : ∀ x, x < 2 ^ 63 → leadingInt x s =
    if numFrom 10 x (dvals s) < 2 ^ 63 then some (numFrom 10 x (dvals s), s.dropWhile isDec) else none := by
  induction s with
  | nil => intro x hx; simp [leadingInt, dvals, numFrom, hx]
  | cons c s ih =>
    intro x hx
    rw [leadingInt]
    by_cases hc : isDec c = true
    · rw [if_pos hc]
      have e1 : dvals (c :: s) = dval c :: dvals s := by simp [dvals, hc]
      have e2 : (c :: s).dropWhile isDec = s.dropWhile isDec := by simp [hc]
      have e3 : numFrom 10 x (dval c :: dvals s) = numFrom 10 (x * 10 + dval c) (dvals s) := rfl
      have hge := numFrom_le 10 (by decide) (dvals s) (x * 10 + dval c)
      rw [e1, e2, e3]
      by_cases h1 : (2 ^ 63 - 1) / 10 < x
      · rw [if_pos h1, if_neg (by omega)]
      · rw [if_neg h1]
        have e4 : c.toNat - 48 = dval c := rfl
        rw [e4]
        by_cases h2 : 2 ^ 63 ≤ x * 10 + dval c
        · rw [if_pos h2, if_neg (by omega)]
        · rw [if_neg h2, ih _ (by omega)]
    · rw [if_neg hc]
      have e1 : dvals (c :: s) = [] := by simp [dvals, hc]
      rw [e1]
      simp [numFrom, hx, hc]

/-- the digits of a fraction that count, after the number `x` -/
def keptFrom (x : Nat) : List Nat → List Nat
  | [] => []
  | d :: ds => if 2 ^ 63 ≤ x * 10 + d then [] else d :: keptFrom (x * 10 + d) ds

/-- powers of ten as they are computed -/
def powF : Nat → F
  | 0 => ofInt 1
  | k + 1 => mul (powF k) (ofInt 10)

theorem leadingFraction_over (s : List Char) (x : Nat) (sc : F) : leadingFraction x sc true s = (x, sc, s.dropWhile isDec) := by
  induction s with
  | nil => rfl
  | cons c s ih =>
    rw [leadingFraction]
    by_cases hc : isDec c = true
    · rw [if_pos hc, if_pos rfl, ih]; simp [hc]
    · rw [if_neg hc]; simp [hc]

theorem leadingFraction_eq (s : List Char) : ∀ x j, leadingFraction x (powF j) false s =
    (numFrom 10 x (keptFrom x (dvals s)), powF (j + (keptFrom x (dvals s)).length), s.dropWhile isDec) := by
  induction s with
  | nil => intro x j; rfl
  | cons c s ih =>
    intro x j
    rw [leadingFraction]
    by_cases hc : isDec c = true
    · have e1 : dvals (c :: s) = dval c :: dvals s := by simp [dvals, hc]
      have e2 : (c :: s).dropWhile isDec = s.dropWhile isDec := by simp [hc]
      have e4 : c.toNat - 48 = dval c := rfl
      rw [if_pos hc, if_neg (by decide), e1, e2, e4, keptFrom]
      by_cases h2 : 2 ^ 63 ≤ x * 10 + dval c
      · rw [if_pos h2, if_pos h2]
        by_cases h1 : (2 ^ 63 - 1) / 10 < x
        · rw [if_pos h1, leadingFraction_over]; rfl
        · rw [if_neg h1, leadingFraction_over]; rfl
      · rw [if_neg h2, if_neg h2, if_neg (by omega)]
        have := ih (x * 10 + dval c) (j + 1)
        rw [powF] at this
        rw [this]
        simp only [List.length_cons]
        rw [Nat.add_right_comm, Nat.add_assoc]
        rfl
    · rw [if_neg hc]
      have e1 : dvals (c :: s) = [] := by simp [dvals, hc]
      rw [e1]
      simp [keptFrom, numFrom, hc]

/-! ## Parts -/

/-- a part's nanoseconds as they are computed -/
def cns (p : List Nat × List Nat × Nat) : Nat :=
  num 10 p.1 * p.2.2 +
    if 0 < num 10 (keptFrom 0 p.2.1) then fractionNs (num 10 (keptFrom 0 p.2.1)) p.2.2 (powF (keptFrom 0 p.2.1).length) else 0

/-- the unit and the end of a part -/
def finish (i f : List Nat) (s : List Char) : Option (Nat × List Char) :=
  if i = [] ∧ f = [] then none
  else
    match unitOf (s.takeWhile fun c => !notUnit c) with
    | none => none
    | some unit =>
      if 2 ^ 63 ≤ cns (i, f, unit) then none else some (cns (i, f, unit), s.dropWhile fun c => !notUnit c)

theorem unit_iff (u : List Char) (n : Nat) : unitOf u = some n ↔ Unit u n := by
  unfold unitOf
  constructor
  · intro h
    split at h
    · subst_vars; cases h; exact .nano
    split at h
    · rename_i hu; cases h
      rcases hu with rfl | rfl | rfl
      · exact .micro (.inl rfl)
      · exact .micro (.inr (.inl rfl))
      · exact .micro (.inr (.inr rfl))
    split at h
    · subst_vars; cases h; exact .milli
    split at h
    · subst_vars; cases h; exact .second
    split at h
    · subst_vars; cases h; exact .minute
    split at h
    · subst_vars; cases h; exact .hour
    cases h
  · intro h
    cases h with
    | micro h => rcases h with rfl | rfl | rfl <;> decide
    | _ => decide

theorem unit_pos {u : List Char} {n : Nat} (h : Unit u n) : 0 < n ∧ n ≤ 3600000000000 := by cases h <;> decide

theorem length_split (s : List Char) : (s.dropWhile isDec).length ≠ s.length ↔ dvals s ≠ [] := by
  have h := congrArg List.length (List.takeWhile_append_dropWhile (p := isDec) (l := s))
  rw [List.length_append] at h
  have e : dvals s = [] ↔ (s.takeWhile isDec).length = 0 := by
    unfold dvals; rw [List.map_eq_nil_iff, List.length_eq_zero_iff]
  rw [ne_eq, ne_eq, e]
  omega

theorem durPart_eq (s : List Char) : durPart s =
    match s.dropWhile isDec with
    | '.' :: s' => finish (dvals s) (dvals s') (s'.dropWhile isDec)
    | s1 => finish (dvals s) [] s1 := by
  have hcns : ∀ i f unit, num 10 i * unit ≤ cns (i, f, unit) := fun i f unit => Nat.le_add_right _ _
  -- the last steps
  have last : ∀ (i f : List Nat) (s2 : List Char), ¬ (i = [] ∧ f = []) → num 10 i < 2 ^ 63 →
      (if s2.takeWhile (fun c => !notUnit c) = [] then none
       else
        match unitOf (s2.takeWhile fun c => !notUnit c) with
        | none => none
        | some unit =>
          if (2 ^ 63 - 1) / unit < num 10 i then none
          else
            let v := num 10 i * unit
            let v := if 0 < num 10 (keptFrom 0 f) then
              v + fractionNs (num 10 (keptFrom 0 f)) unit (powF (keptFrom 0 f).length) else v
            if 2 ^ 63 ≤ v then none else some (v, s2.dropWhile fun c => !notUnit c)) = finish i f s2 := by
    intro i f s2 hne hi
    unfold finish
    rw [if_neg hne]
    by_cases hu : s2.takeWhile (fun c => !notUnit c) = []
    · rw [if_pos hu, hu]; rfl
    · rw [if_neg hu]
      cases hunit : unitOf (s2.takeWhile fun c => !notUnit c) with
      | none => rfl
      | some unit =>
        have hpos := (unit_pos ((unit_iff _ _).1 hunit)).1
        simp only
        by_cases h1 : (2 ^ 63 - 1) / unit < num 10 i
        · rw [if_pos h1, if_pos]
          have := (Nat.div_lt_iff_lt_mul hpos).1 h1
          have := hcns i f unit
          omega
        · rw [if_neg h1]
          have e : (if 0 < num 10 (keptFrom 0 f) then num 10 i * unit +
              fractionNs (num 10 (keptFrom 0 f)) unit (powF (keptFrom 0 f).length) else num 10 i * unit) = cns (i, f, unit) := by
            unfold cns; simp only; split <;> simp
          rw [e]
  have huge : ∀ (i f : List Nat) (s2 : List Char), 2 ^ 63 ≤ num 10 i → finish i f s2 = none := by
    intro i f s2 hi
    unfold finish
    split
    · rfl
    · split
      · rfl
      · rename_i unit hunit
        have hpos := (unit_pos ((unit_iff _ _).1 hunit)).1
        rw [if_pos]
        have h1 : num 10 i * 1 ≤ num 10 i * unit := Nat.mul_le_mul_left _ hpos
        have := hcns i f unit
        omega
  have hr : ∀ s1 : List Char, (¬ ∃ s', s1 = '.' :: s') → (match s1 with
      | '.' :: s' => finish (dvals s) (dvals s') (s'.dropWhile isDec)
      | s1 => finish (dvals s) [] s1) = finish (dvals s) [] s1 := by
    intro s1 hd
    split
    · exact absurd ⟨_, rfl⟩ hd
    · rfl
  have hlead := leadingInt_eq s 0 (by decide)
  have hnum : numFrom 10 0 (dvals s) = num 10 (dvals s) := rfl
  rw [hnum] at hlead
  unfold durPart
  by_cases hi : num 10 (dvals s) < 2 ^ 63
  · rw [if_pos hi] at hlead
    rw [hlead]
    simp only
    have hpre : decide ((s.dropWhile isDec).length ≠ s.length) = !decide (dvals s = []) := by
      rw [Bool.eq_iff_iff]; simp only [decide_eq_true_eq, Bool.not_eq_true', decide_eq_false_iff_not]; exact length_split s
    rw [hpre]
    by_cases hdot : ∃ s', s.dropWhile isDec = '.' :: s'
    · obtain ⟨s', hs'⟩ := hdot
      rw [hs']
      have hfr := leadingFraction_eq s' 0 0
      have e0 : powF 0 = ofInt 1 := rfl
      rw [e0] at hfr
      simp only [hfr]
      have hpost : decide ((s'.dropWhile isDec).length ≠ s'.length) = !decide (dvals s' = []) := by
        rw [Bool.eq_iff_iff]; simp only [decide_eq_true_eq, Bool.not_eq_true', decide_eq_false_iff_not]; exact length_split s'
      rw [hpost]
      by_cases hne : dvals s = [] ∧ dvals s' = []
      · rw [if_pos (by simp [hne])]
        unfold finish; rw [if_pos hne]
      · rw [if_neg (by simp only [Bool.not_not, Bool.and_eq_true, decide_eq_true_eq]; exact hne)]
        have e1 : numFrom 10 0 (keptFrom 0 (dvals s')) = num 10 (keptFrom 0 (dvals s')) := rfl
        rw [e1, Nat.zero_add]
        exact last _ _ _ hne hi
    · generalize s.dropWhile isDec = s1 at hdot
      rw [hr s1 hdot]
      split
      · exact absurd ⟨_, rfl⟩ hdot
      · simp only
        by_cases hne : dvals s = []
        · rw [if_pos (by simp [hne])]
          unfold finish; rw [if_pos ⟨hne, rfl⟩]
        · rw [if_neg (by simp [hne])]
          exact last (dvals s) [] _ (by simp [hne]) hi
  · rw [if_neg hi] at hlead
    rw [hlead]
    simp only
    split
    · rw [huge _ _ _ (by omega)]
    · rw [huge _ _ _ (by omega)]

/-- the end of a part: nothing, a digit or a point -/
def Ends (r : List Char) : Prop := ∀ c, r.head? = some c → notUnit c = true

theorem unit_chars {u : List Char} {n : Nat} (h : Unit u n) : u ≠ [] ∧ ∀ c ∈ u, notUnit c = false := by
  cases h with
  | micro h => rcases h with rfl | rfl | rfl <;> decide
  | _ => decide

theorem take_unit {u r : List Char} (hu : ∀ c ∈ u, notUnit c = false) (hr : Ends r) :
    (u ++ r).takeWhile (fun c => !notUnit c) = u ∧ (u ++ r).dropWhile (fun c => !notUnit c) = r := by
  induction u with
  | nil =>
    cases r with
    | nil => simp
    | cons c r => simp [hr c rfl]
  | cons c u ih =>
    have := ih fun x hx => hu x (by simp [hx])
    simp [hu c (by simp), this]

theorem unit_stop {u r : List Char} {n : Nat} (h : Unit u n) : ∀ c, (u ++ r).head? = some c → isDec c = false ∧ c ≠ '.' := by
  intro c hc
  obtain ⟨h1, h2⟩ := unit_chars h
  cases u with
  | nil => exact absurd rfl h1
  | cons d u =>
    simp at hc
    subst hc
    have := h2 d (by simp)
    unfold notUnit at this
    simp at this
    exact ⟨this.2, this.1⟩

theorem finish_of {i f : List Nat} {u r : List Char} {n : Nat} (h : Unit u n) (hr : Ends r) (hne : i ++ f ≠ []) :
    finish i f (u ++ r) = if 2 ^ 63 ≤ cns (i, f, n) then none else some (cns (i, f, n), r) := by
  unfold finish
  obtain ⟨e1, e2⟩ := take_unit (unit_chars h).2 hr
  rw [if_neg (by rintro ⟨rfl, rfl⟩; exact hne rfl), e1, e2, (unit_iff _ _).2 h]

theorem durPart_of {a : List Char} {i f : List Nat} {n : Nat} (h : Part a i f n) (r : List Char) (hr : Ends r) :
    durPart (a ++ r) = if 2 ^ 63 ≤ cns (i, f, n) then none else some (cns (i, f, n), r) := by
  rw [durPart_eq]
  cases h with
  | @whole s i u n hs hne hu =>
    obtain ⟨h1, rfl⟩ := (plain_iff _ _).1 hs
    rw [List.append_assoc]
    obtain ⟨e1, e2⟩ := take_all (r := u ++ r) h1 fun c hc => (unit_stop hu c hc).1
    have e3 : dvals (s ++ (u ++ r)) = s.map dval := by unfold dvals; rw [e1]
    rw [e2, e3, ← finish_of hu hr (by simpa using hne)]
    split
    · rename_i s' heq
      exact absurd rfl ((unit_stop hu '.' (by rw [heq]; rfl)).2)
    · rfl
  | @pointed s i t f u n hs ht hne hu =>
    obtain ⟨h1, rfl⟩ := (plain_iff _ _).1 hs
    obtain ⟨h2, rfl⟩ := (plain_iff _ _).1 ht
    rw [List.append_assoc, List.cons_append, List.append_assoc]
    obtain ⟨e1, e2⟩ := take_all (r := '.' :: (t ++ (u ++ r))) h1 fun c hc => by
      simp at hc; subst hc; decide
    have e3 : dvals (s ++ '.' :: (t ++ (u ++ r))) = s.map dval := by unfold dvals; rw [e1]
    obtain ⟨e4, e5⟩ := take_all (r := u ++ r) h2 fun c hc => (unit_stop hu c hc).1
    have e6 : dvals (t ++ (u ++ r)) = t.map dval := by unfold dvals; rw [e4]
    rw [e2, e3]
    simp only
    rw [e5, e6, finish_of hu hr hne]

theorem finish_some {i f : List Nat} {s : List Char} {v : Nat} {r : List Char} (h : finish i f s = some (v, r)) :
    ∃ u n, s = u ++ r ∧ Unit u n ∧ i ++ f ≠ [] ∧ v = cns (i, f, n) ∧ v < 2 ^ 63 ∧ Ends r := by
  unfold finish at h
  split at h
  · cases h
  · rename_i hne
    split at h
    · cases h
    · rename_i n hn
      split at h
      · cases h
      · rename_i hlt
        cases h
        refine ⟨_, n, (List.takeWhile_append_dropWhile).symm, (unit_iff _ _).1 hn, ?_, rfl, by omega, ?_⟩
        · intro e
          obtain ⟨rfl, rfl⟩ := List.append_eq_nil_iff.1 e
          exact hne ⟨rfl, rfl⟩
        · intro c hc
          have := List.head?_dropWhile_not (p := fun c => !notUnit c) (l := s)
          rw [hc] at this
          simpa using this

theorem durPart_some {s : List Char} {v : Nat} {r : List Char} (h : durPart s = some (v, r)) :
    ∃ a i f n, s = a ++ r ∧ Part a i f n ∧ v = cns (i, f, n) ∧ v < 2 ^ 63 ∧ Ends r := by
  have plain : ∀ s : List Char, Plain (s.takeWhile isDec) (dvals s) := fun s => (plain_iff _ _).2 ⟨dec_takeWhile s, rfl⟩
  rw [durPart_eq] at h
  split at h
  · rename_i s' hs'
    obtain ⟨u, n, e, hu, hne, hv, hlt, hr⟩ := finish_some h
    refine ⟨s.takeWhile isDec ++ '.' :: (s'.takeWhile isDec ++ u), dvals s, dvals s', n, ?_, .pointed (plain s) (plain s') hne hu, hv,
      hlt, hr⟩
    rw [List.append_assoc, List.cons_append, List.append_assoc, ← e, List.takeWhile_append_dropWhile, ← hs',
      List.takeWhile_append_dropWhile]
  · obtain ⟨u, n, e, hu, hne, hv, hlt, hr⟩ := finish_some h
    refine ⟨s.takeWhile isDec ++ u, dvals s, [], n, ?_, .whole (plain s) (by simpa using hne) hu, hv, hlt, hr⟩
    rw [List.append_assoc, ← e, List.takeWhile_append_dropWhile]

/-! ## Times -/

/-- the sum as it is computed -/
def sumNs (ps : List (List Nat × List Nat × Nat)) : Nat := (ps.map cns).sum

theorem part_head {a : List Char} {i f : List Nat} {n : Nat} (h : Part a i f n) : ∃ c cs, a = c :: cs ∧ notUnit c = true := by
  cases h with
  | @whole s i u n hs hne hu =>
    cases hs with
    | nil => exact absurd rfl hne
    | cons hd _ =>
      refine ⟨_, _, rfl, ?_⟩
      unfold notUnit
      rw [((digit_dec _ _).1 hd).1]; simp
  | @pointed s i t f u n hs ht hne hu =>
    cases hs with
    | nil => exact ⟨'.', _, rfl, by decide⟩
    | cons hd _ =>
      refine ⟨_, _, rfl, ?_⟩
      unfold notUnit
      rw [((digit_dec _ _).1 hd).1]; simp

theorem parts_head {a : List Char} {ps : List (List Nat × List Nat × Nat)} (h : Parts a ps) :
    ∃ c cs, a = c :: cs ∧ notUnit c = true := by
  cases h with
  | one h => exact part_head h
  | more h _ =>
    obtain ⟨c, cs, rfl, hc⟩ := part_head h
    exact ⟨c, _, rfl, hc⟩

theorem durLoop_of {s : List Char} {ps : List (List Nat × List Nat × Nat)} (h : Parts s ps) : ∀ (n d : Nat), s.length ≤ n → d < 2 ^ 63 →
    durLoop n d s = if 2 ^ 63 ≤ d + sumNs ps then none else some (d + sumNs ps) := by
  induction h with
  | @one s i f unit h =>
    intro n d hn hd
    obtain ⟨c, cs, rfl, hc⟩ := part_head h
    obtain ⟨n, rfl⟩ : ∃ m, n = m + 1 := ⟨n - 1, by simp at hn; omega⟩
    have e := durPart_of h [] (by intro c hc; simp at hc)
    rw [List.append_nil] at e
    have hs : sumNs [(i, f, unit)] = cns (i, f, unit) := by simp [sumNs]
    rw [durLoop, if_pos (by exact hc), e, hs]
    by_cases h1 : 2 ^ 63 ≤ cns (i, f, unit)
    · rw [if_pos h1, if_pos (by omega)]
    · rw [if_neg h1]
      simp only
      by_cases h2 : 2 ^ 63 ≤ d + cns (i, f, unit)
      · rw [if_pos h2, if_pos h2]
      · rw [if_neg h2, if_neg h2]
        cases n <;> rfl
  | @more s i f unit t ps h ht ih =>
    intro n d hn hd
    obtain ⟨c', cs', ht', hc'⟩ := parts_head ht
    have e := durPart_of h t (by intro c hc; rw [ht'] at hc; simp at hc; subst hc; exact hc')
    obtain ⟨c, cs, rfl, hc⟩ := part_head h
    obtain ⟨n, rfl⟩ : ∃ m, n = m + 1 := ⟨n - 1, by simp at hn; omega⟩
    have hs : sumNs ((i, f, unit) :: ps) = cns (i, f, unit) + sumNs ps := by simp [sumNs]
    rw [List.cons_append] at e ⊢
    rw [durLoop, if_pos (by exact hc), e, hs]
    by_cases h1 : 2 ^ 63 ≤ cns (i, f, unit)
    · rw [if_pos h1, if_pos (by omega)]
    · rw [if_neg h1]
      simp only
      by_cases h2 : 2 ^ 63 ≤ d + cns (i, f, unit)
      · rw [if_pos h2, if_pos (by omega)]
      · rw [if_neg h2, ih n _ (by simp at hn; omega) (by omega), Nat.add_assoc]

theorem parts_of_loop : ∀ (n d : Nat) (s : List Char) (r : Nat), s ≠ [] → durLoop n d s = some r → ∃ ps, Parts s ps := by
  intro n
  induction n with
  | zero =>
    intro d s r hs h
    cases s with
    | nil => exact absurd rfl hs
    | cons c cs => simp [durLoop] at h
  | succ n ih =>
    intro d s r hs h
    cases s with
    | nil => exact absurd rfl hs
    | cons c cs =>
      rw [durLoop] at h
      split at h
      · split at h
        · cases h
        · rename_i v rest hp
          split at h
          · cases h
          · obtain ⟨a, i, f, unit, e, hpart, -⟩ := durPart_some hp
            by_cases hr : rest = []
            · subst hr
              rw [List.append_nil] at e
              rw [e]; exact ⟨_, .one hpart⟩
            · obtain ⟨ps, hps⟩ := ih _ rest r hr h
              rw [e]; exact ⟨_, .more hpart hps⟩
      · cases h

theorem head_unsigned {s : List Char} {c : Char} {cs : List Char} (h : s = c :: cs) (hc : notUnit c = true) : Unsigned s := by
  subst h
  apply unsigned_of
  · rintro rfl; revert hc; decide
  · rintro rfl; revert hc; decide

/-- Which texts are times, and how they are added up. -/
theorem parseDuration_iff (s : List Char) (d : Int) :
    parseDuration s = some d ↔ ∃ neg ps, Time s neg ps ∧ d = sgn neg (sumNs ps) ∧ sumNs ps < 2 ^ 63 := by
  constructor
  · intro h
    obtain ⟨sg, e, hsg⟩ := sign_spec' s
    unfold parseDuration at h
    simp only at h
    generalize (Numbers.sign s).1 = neg at *
    generalize (Numbers.sign s).2 = r at *
    subst e
    split at h
    · rename_i hr
      subst hr
      cases h
      exact ⟨neg, [], .zero hsg, by cases neg <;> rfl, by decide⟩
    · split at h
      · cases h
      · rename_i hne
        obtain ⟨t, ht, e⟩ := Option.map_eq_some_iff.1 h
        obtain ⟨ps, hps⟩ := parts_of_loop _ _ _ _ hne ht
        have := durLoop_of hps r.length 0 (Nat.le_refl _) (by decide)
        rw [ht, Nat.zero_add] at this
        by_cases h1 : 2 ^ 63 ≤ sumNs ps
        · rw [if_pos h1] at this; cases this
        · rw [if_neg h1] at this
          cases this
          exact ⟨neg, ps, .parts hsg hps, e.symm, by omega⟩
  · rintro ⟨neg, ps, ht, rfl, hlt⟩
    cases ht with
    | @zero sg _ hsg =>
      unfold parseDuration
      rw [sign_of hsg (unsigned_of (by decide) (by decide))]
      simp only [if_true]
      cases neg <;> rfl
    | @parts sg _ s ps hsg hps =>
      obtain ⟨c, cs, e, hc⟩ := parts_head hps
      unfold parseDuration
      rw [sign_of hsg (head_unsigned e hc)]
      simp only
      have h0 : s ≠ ['0'] := by
        rintro rfl
        have := durLoop_of hps 1 0 (by decide) (by decide)
        have e2 : durLoop 1 0 ['0'] = none := by decide
        rw [e2, Nat.zero_add, if_neg (by omega)] at this
        cases this
      rw [if_neg h0, if_neg (by rw [e]; simp), durLoop_of hps _ 0 (Nat.le_refl _) (by decide), Nat.zero_add, if_neg (by omega)]
      rfl

/-! ## Fractions -/

attribute [local irreducible] one

theorem round_nat {n q : Nat} (h : roundPos n q < 2 ^ 1024 * one) : Float64.round (n : Int) q = .fin (roundPos n q) := by
  unfold Float64.round
  simp only [Int.natAbs_natCast]
  rw [if_neg (by omega), if_neg (by omega)]

theorem rep_times {n : Nat} (h : n < 2 ^ 53) : Rep (n * one) := by
  rw [one_eq]; exact rep_mul_pow (rep_small h) 1074

theorem times_lt {n : Nat} (h : n < 2 ^ 1024) : n * one < 2 ^ 1024 * one := Nat.mul_lt_mul_of_pos_right h one_pos

theorem big : 2 ^ 53 < 2 ^ 1024 ∧ 2 ^ 64 < 2 ^ 1024 := by decide

theorem ofNat_exact {n : Nat} (h : n < 2 ^ 53) : ofInt n = .fin ((n * one : Nat) : Int) := by
  unfold ofInt
  rw [← Int.natCast_mul]
  have e : roundPos (n * one) 1 = n * one := by
    have := round_exact (q := 1) (by decide) (rep_times h)
    rwa [Nat.mul_one] at this
  rw [round_nat (by rw [e]; exact times_lt (Nat.lt_trans h big.1)), e]

theorem mul_nat {x y : Nat} (h : roundPos (x * y) one < 2 ^ 1024 * one) :
    mul (.fin (x : Int)) (.fin (y : Int)) = .fin (roundPos (x * y) one) := by
  unfold mul
  simp only
  rw [← Int.natCast_mul]
  exact round_nat h

theorem div_nat {x y : Nat} (hy : 0 < y) (h : roundPos (x * one) y < 2 ^ 1024 * one) :
    div (.fin (x : Int)) (.fin (y : Int)) = .fin (roundPos (x * one) y) := by
  unfold div
  simp only
  rw [if_neg (by omega), if_neg (by omega), ← Int.natCast_mul, Int.natAbs_natCast]
  exact round_nat h

theorem trunc_nat (z : Nat) : trunc (.fin (z : Int)) = z / one := rfl

/-- small powers of ten are exact -/
theorem powF_exact : ∀ k, k ≤ 15 → powF k = .fin ((10 ^ k * one : Nat) : Int) := by
  intro k
  induction k with
  | zero =>
    intro _
    have := ofNat_exact (n := 1) (by decide)
    simpa [powF] using this
  | succ k ih =>
    intro hk
    have h10 := ofNat_exact (n := 10) (by decide)
    have hlt : 10 ^ (k + 1) < 2 ^ 53 := by
      have : 10 ^ (k + 1) ≤ 10 ^ 15 := Nat.pow_le_pow_right (by decide) hk
      have h15 : 10 ^ 15 < 2 ^ 53 := by decide
      omega
    have e : roundPos (10 ^ k * one * (10 * one)) one = 10 ^ (k + 1) * one := by
      have : 10 ^ k * one * (10 * one) = 10 ^ (k + 1) * one * one := by
        rw [Nat.pow_succ]; simp only [Nat.mul_assoc, Nat.mul_left_comm]
      rw [this]
      exact round_exact one_pos (rep_times hlt)
    rw [powF, ih (by omega)]
    have h10' : ofInt 10 = .fin ((10 * one : Nat) : Int) := h10
    rw [h10', mul_nat (by rw [e]; exact times_lt (Nat.lt_trans hlt big.1)), e]

/-- A fraction that is a whole number of nanoseconds is computed exactly. -/
theorem fraction_exact {f k m : Nat} (hk : k ≤ 15) (hf : f < 10 ^ k) (hm : 10 ^ k * m ≤ 3600000000000) :
    fractionNs f (10 ^ k * m) (powF k) = f * m := by
  have hpos : 0 < 10 ^ k := Nat.pow_pos (by decide)
  have hm53 : m < 2 ^ 53 := by
    have : 1 * m ≤ 10 ^ k * m := Nat.mul_le_mul_right m hpos
    omega
  have hf53 : f < 2 ^ 53 := by
    have : 10 ^ k ≤ 10 ^ 15 := Nat.pow_le_pow_right (by decide) hk
    have h15 : 10 ^ 15 < 2 ^ 53 := by decide
    omega
  have hu53 : 10 ^ k * m < 2 ^ 53 := by omega
  have hfm53 : f * m < 2 ^ 53 := by
    have : f * m ≤ 10 ^ k * m := Nat.mul_le_mul_right m (by omega)
    omega
  have e1 : roundPos (10 ^ k * m * one * one) (10 ^ k * one) = m * one := by
    have : 10 ^ k * m * one * one = m * one * (10 ^ k * one) := by
      simp only [Nat.mul_assoc, Nat.mul_left_comm, Nat.mul_comm]
    rw [this]
    exact round_exact (Nat.mul_pos hpos one_pos) (rep_times hm53)
  have e2 : roundPos (f * one * (m * one)) one = f * m * one := by
    have : f * one * (m * one) = f * m * one * one := by
      simp only [Nat.mul_assoc, Nat.mul_left_comm, Nat.mul_comm]
    rw [this]
    exact round_exact one_pos (rep_times hfm53)
  unfold fractionNs
  rw [ofNat_exact hf53, ofNat_exact hu53, powF_exact k hk,
    div_nat (Nat.mul_pos hpos one_pos) (by rw [e1]; exact times_lt (Nat.lt_trans hm53 big.1)), e1,
    mul_nat (by rw [e2]; exact times_lt (Nat.lt_trans hfm53 big.1)), e2, trunc_nat, Nat.mul_div_cancel _ one_pos]

theorem num_lt (ds : List Nat) (h : ∀ d ∈ ds, d < 10) : ∀ x, numFrom 10 x ds < (x + 1) * 10 ^ ds.length := by
  induction ds with
  | nil => intro x; simp [numFrom]
  | cons d ds ih =>
    intro x
    have hd := h d (by simp)
    have := ih (fun e he => h e (by simp [he])) (x * 10 + d)
    have e : numFrom 10 x (d :: ds) = numFrom 10 (x * 10 + d) ds := rfl
    rw [e, List.length_cons, Nat.pow_succ]
    have h2 : (x * 10 + d + 1) * 10 ^ ds.length ≤ (x + 1) * 10 * 10 ^ ds.length := Nat.mul_le_mul_right _ (by omega)
    have h3 : (x + 1) * (10 ^ ds.length * 10) = (x + 1) * 10 * 10 ^ ds.length := by
      rw [Nat.mul_comm (10 ^ ds.length) 10, Nat.mul_assoc]
    omega

/-- digits that fit are all kept -/
theorem kept_all (ds : List Nat) : ∀ x, numFrom 10 x ds < 2 ^ 63 → keptFrom x ds = ds := by
  induction ds with
  | nil => intro x _; rfl
  | cons d ds ih =>
    intro x h
    have e : numFrom 10 x (d :: ds) = numFrom 10 (x * 10 + d) ds := rfl
    rw [e] at h
    have := numFrom_le 10 (by decide) ds (x * 10 + d)
    rw [keptFrom, if_neg (by omega), ih _ h]

/-- A part with a short fraction is exact. -/
theorem cns_short {i f : List Nat} {unit : Nat} (hf : ∀ d ∈ f, d < 10) (hu : 0 < unit ∧ unit ≤ 3600000000000)
    (hs : Short (i, f, unit)) : cns (i, f, unit) = nanos (i, f, unit) := by
  unfold Short at hs
  simp only at hs
  obtain ⟨m, rfl⟩ := hs
  have hpos : 0 < 10 ^ f.length := Nat.pow_pos (by decide)
  have hk : f.length ≤ 15 := by
    have h1 : m ≠ 0 := by rintro rfl; simp at hu
    have h2 : 10 ^ f.length * 1 ≤ 10 ^ f.length * m := Nat.mul_le_mul_left _ (by omega)
    have h3 : 10 ^ f.length < 10 ^ 16 := by
      have : 3600000000000 < 10 ^ 16 := by decide
      omega
    have := (Nat.pow_lt_pow_iff_right (by decide : 1 < 10)).1 h3
    omega
  have hlt : num 10 f < 10 ^ f.length := by
    have := num_lt f hf 0
    simpa [num, numFrom] using this
  have hkept : keptFrom 0 f = f := by
    apply kept_all
    have h1 : 10 ^ f.length ≤ 10 ^ 15 := Nat.pow_le_pow_right (by decide) hk
    have h2 : 10 ^ 15 < 2 ^ 63 := by decide
    have : numFrom 10 0 f = num 10 f := rfl
    omega
  have e : num 10 f * (10 ^ f.length * m) / 10 ^ f.length = num 10 f * m := by
    rw [Nat.mul_left_comm, Nat.mul_div_cancel_left _ hpos]
  unfold cns nanos
  simp only
  rw [hkept, e]
  split
  · rw [fraction_exact hk hlt hu.2]
  · have : num 10 f = 0 := by omega
    rw [this, Nat.zero_mul]

/-! ## Fractions that are rounded -/

theorem round_rel {p q : Nat} (hq : 0 < q) (h : q * 4503599627370496 ≤ p) :
    9007199254740992 * (roundPos p q * q) ≤ p * (9007199254740993) ∧ p * (9007199254740991) ≤ 9007199254740992 * (roundPos p q * q) := by
  have hs : q * 2 ^ shift p q * 4503599627370496 ≤ p := by
    by_cases h0 : shift p q = 0
    · rw [h0]; simpa using h
    · have := (shift_spec p q hq).1 h0
      have h2 : q * 2 ^ (52 + shift p q) ≤ q * (p / q) := Nat.mul_le_mul_left q this
      have h3 := Nat.mul_div_le p q
      rw [Nat.mul_assoc, show (4503599627370496 : Nat) = 2 ^ 52 from rfl, ← Nat.pow_add, Nat.add_comm]
      omega
  have he := round_error p q hq
  generalize q * 2 ^ shift p q = u at *
  generalize roundPos p q * q = r at *
  rcases he with ⟨h1, h2, _⟩ | ⟨h1, h2, _⟩
  · clear h hq
    constructor
    · omega
    · rw [Nat.mul_comm]; omega
  · clear h hq
    constructor
    · omega
    · rw [Nat.mul_comm]; omega

theorem chain_up {o z F A R f U P t c : Nat} (ho : 0 < o)
    (h1 : t * F ≤ f * o * c) (h2 : t * (A * z) ≤ U * o * o * c) (h3 : t * (R * o) ≤ F * A * c)
    {m n : Nat} (h4 : P * o * m ≤ z * n) : R * P * (t * t * t * m) ≤ f * U * o * (c * c * c * n) := by
  have e1 : R * P * (t * t * t * m) * (o * o) ≤ f * U * o * (c * c * c * n) * (o * o) := by
    calc R * P * (t * t * t * m) * (o * o) = t * t * (t * (R * o)) * (P * o * m) := by grind
      _ ≤ t * t * (F * A * c) * (z * n) := Nat.mul_le_mul (Nat.mul_le_mul_left _ h3) h4
      _ = t * F * (t * (A * z)) * (c * n) := by grind
      _ ≤ f * o * c * (U * o * o * c) * (c * n) := Nat.mul_le_mul_right _ (Nat.mul_le_mul h1 h2)
      _ = f * U * o * (c * c * c * n) * (o * o) := by grind
  exact Nat.le_of_mul_le_mul_right e1 (Nat.mul_pos ho ho)

theorem chain_down {o z F A R f U P t c : Nat} (ho : 0 < o)
    (h1 : f * o * c ≤ t * F) (h2 : U * o * o * c ≤ t * (A * z)) (h3 : F * A * c ≤ t * (R * o))
    {m n : Nat} (h4 : z * n ≤ P * o * m) : f * U * o * (c * c * c * n) ≤ R * P * (t * t * t * m) := by
  have e1 : f * U * o * (c * c * c * n) * (o * o) ≤ R * P * (t * t * t * m) * (o * o) := by
    calc f * U * o * (c * c * c * n) * (o * o) = f * o * c * (U * o * o * c) * (c * n) := by grind
      _ ≤ t * F * (t * (A * z)) * (c * n) := Nat.mul_le_mul_right _ (Nat.mul_le_mul h1 h2)
      _ = t * t * (F * A * c) * (z * n) := by grind
      _ ≤ t * t * (t * (R * o)) * (P * o * m) := Nat.mul_le_mul (Nat.mul_le_mul_left _ h3) h4
      _ = R * P * (t * t * t * m) * (o * o) := by grind
  exact Nat.le_of_mul_le_mul_right e1 (Nat.mul_pos ho ho)

/-- powers of ten, nearly -/
theorem powF_near : ∀ k, k < 33 → ∃ z : Nat, powF k = .fin z ∧ 10 ^ k * one * (1125899906842623) ≤ z * 1125899906842624 ∧
    z * 1125899906842624 ≤ 10 ^ k * one * (1125899906842625) := by
  have h : ∀ k : Fin 33, (match powF k.1 with
    | .fin (.ofNat z) => decide (10 ^ k.1 * one * (1125899906842623) ≤ z * 1125899906842624 ∧ z * 1125899906842624 ≤ 10 ^ k.1 * one * (1125899906842625))
    | _ => false) = true := by decide +kernel
  intro k hk
  have := h ⟨k, hk⟩
  simp only at this
  split at this
  · rename_i z hz
    exact ⟨z, hz, of_decide_eq_true this⟩
  · cases this

theorem scale_up {X Y : Nat} (h : X * (9007199254740992 * 9007199254740992 * 9007199254740992 * 1125899906842623) ≤
    Y * (9007199254740993 * 9007199254740993 * 9007199254740993 * 1125899906842624)) : X * 562949953421312 ≤ Y * 562949953421313 := by
  grind

theorem scale_down {X Y : Nat} (h : Y * (9007199254740991 * 9007199254740991 * 9007199254740991 * 1125899906842624) ≤
    X * (9007199254740992 * 9007199254740992 * 9007199254740992 * 1125899906842625)) : Y * 562949953421311 ≤ X * 562949953421312 := by
  grind

theorem ofNat_round {n : Nat} (h : n < 2 ^ 64) : ofInt n = .fin (roundPos (n * one) 1) := by
  unfold ofInt
  rw [← Int.natCast_mul]
  apply round_nat
  refine Nat.lt_of_le_of_lt (round_le (z := 2 ^ 64 * one) (by decide) ?_ ?_) ?_
  · rw [one_eq, ← Nat.pow_add]; exact rep_pow _
  · rw [Nat.mul_one]; exact Nat.mul_le_mul_right _ (Nat.le_of_lt h)
  · exact times_lt big.2

theorem fraction_near {f U k : Nat} (hf0 : 0 < f) (hf : f < 2 ^ 63) (hU : 0 < U) (hU2 : U ≤ 3600000000000) (hk : k < 33) :
    ∃ R, fractionNs f U (powF k) = R / one ∧ R * 10 ^ k * 562949953421312 ≤ f * U * one * (562949953421313) ∧
      f * U * one * (562949953421311) ≤ R * 10 ^ k * 562949953421312 := by
  obtain ⟨z, hz, hz1, hz2⟩ := powF_near k hk
  have ho := one_pos
  have hP : 0 < 10 ^ k := Nat.pow_pos (by decide)
  have hP2 : 10 ^ k ≤ 10 ^ 32 := Nat.pow_le_pow_right (by decide) (by omega)
  have hzpos : 0 < z := by
    have : 0 < 10 ^ k * one * (1125899906842623) := Nat.mul_pos (Nat.mul_pos hP ho) (by decide)
    omega
  have hPo : 10 ^ k * one ≤ 10 ^ 32 * one := Nat.mul_le_mul_right _ hP2
  have hzle : z ≤ 10 ^ 33 * one := by
    generalize 10 ^ k * one = y at *
    omega
  have hof : 1 * one ≤ f * one := Nat.mul_le_mul_right _ hf0
  have ho2 : 2 ^ 1000 * 2 ^ 74 = one := by rw [one_eq, ← Nat.pow_add]
  have ho52 : 10 ^ 60 ≤ one := by
    rw [← ho2]
    exact Nat.le_trans (by decide : 10 ^ 60 ≤ 2 ^ 200 * 2 ^ 74) (Nat.mul_le_mul_right _ (Nat.pow_le_pow_right (by decide) (by decide)))
  -- the first rounding
  have r1 := round_rel (p := f * one) (q := 1) (by decide) (by
    rw [Nat.one_mul]
    exact Nat.le_trans (Nat.le_trans (by decide) ho52) (Nat.le_trans (Nat.le_of_eq (Nat.one_mul one).symm) hof))
  -- the second
  have hA0 : z * 4503599627370496 ≤ U * one * one := by
    have h1 : z * 4503599627370496 ≤ 10 ^ 33 * one * 4503599627370496 := Nat.mul_le_mul_right _ hzle
    have h2 : 10 ^ 60 * one ≤ one * one := Nat.mul_le_mul_right _ ho52
    have h3 : 1 * (one * one) ≤ U * (one * one) := Nat.mul_le_mul_right _ hU
    rw [← Nat.mul_assoc U] at h3
    have h4 : 10 ^ 33 * one * 4503599627370496 ≤ 10 ^ 60 * one := by
      rw [Nat.mul_right_comm]
      exact Nat.mul_le_mul_right _ (by decide)
    have h5 : 1 * (one * one) = one * one := Nat.one_mul _
    rw [h5] at h3
    exact Nat.le_trans h1 (Nat.le_trans h4 (Nat.le_trans h2 h3))
  have r2 := round_rel hzpos hA0
  have eF := ofNat_round (n := f) (Nat.lt_trans hf (by decide))
  have eU := ofNat_exact (n := U) (Nat.lt_of_le_of_lt hU2 (by decide))
  have hz2' : one ≤ 2 * z := by
    have h1 : 1 * one ≤ 10 ^ k * one := Nat.mul_le_mul_right _ hP
    clear r1 r2 hA0 eF eU hzle hof ho52 ho2 hPo hz2 hz
    generalize 10 ^ k * one = y at *
    generalize one = o at *
    omega
  have hA43 : roundPos (U * one * one) z ≤ 2 ^ 43 * one := by
    refine round_le hzpos ?_ ?_
    · rw [one_eq, ← Nat.pow_add]; exact rep_pow _
    · calc U * one * one ≤ 2 ^ 42 * one * one :=
            Nat.mul_le_mul_right _ (Nat.mul_le_mul_right _ (Nat.le_trans hU2 (by decide)))
        _ ≤ 2 ^ 42 * one * (2 * z) := Nat.mul_le_mul_left _ hz2'
        _ = 2 ^ 43 * one * z := by grind
  have hA64 : roundPos (U * one * one) z < 2 ^ 1024 * one := by
    refine Nat.lt_of_le_of_lt hA43 (times_lt (Nat.lt_trans (by decide) big.1))
  have hF63 : roundPos (f * one) 1 ≤ 2 ^ 63 * one := by
    refine round_le (by decide) ?_ ?_
    · rw [one_eq, ← Nat.pow_add]; exact rep_pow _
    · rw [Nat.mul_one]; exact Nat.mul_le_mul_right _ (Nat.le_of_lt hf)
  have eA := div_nat hzpos hA64
  generalize hF : roundPos (f * one) 1 = F at *
  generalize hA : roundPos (U * one * one) z = A at *
  rw [Nat.mul_one] at r1
  have hF2 : one ≤ 2 * F := by
    have h1 := r1.2
    clear r1 r2 hA0 eF eU hzle ho52 ho2 hPo hz2 hz hz1 hA hF hz2' hA43 hA64 hF63 eA
    generalize f * one = y at *
    generalize one = o at *
    omega
  have hA2 : one ≤ 10 ^ 34 * A := by
    have h1 := r2.2
    have h2 : 1 * (one * one) ≤ U * (one * one) := Nat.mul_le_mul_right _ hU
    rw [← Nat.mul_assoc U, Nat.one_mul] at h2
    have h3 : A * z ≤ A * (10 ^ 33 * one) := Nat.mul_le_mul_left _ hzle
    have h4 : one * one * 9007199254740991 ≤ 9007199254740992 * (A * (10 ^ 33 * one)) :=
      Nat.le_trans (Nat.mul_le_mul_right _ h2) (Nat.le_trans h1 (Nat.mul_le_mul_left _ h3))
    have h5 : one * 9007199254740991 * one ≤ 9007199254740992 * 10 ^ 33 * A * one := by
      rw [Nat.mul_right_comm]
      refine Nat.le_trans h4 (Nat.le_of_eq ?_)
      simp only [Nat.mul_assoc, Nat.mul_left_comm]
    have h6 := Nat.le_of_mul_le_mul_right h5 ho
    clear h1 h2 h3 h4 h5 r1 r2 hA0 eF eU hzle ho52 ho2 hPo hz2 hz hz1 hA hF hz2' hA43 hA64 hF63 eA hF2
    generalize one = o at *
    have e1 : 9007199254740992 * 10 ^ 33 * A ≤ 9 * 10 ^ 48 * A + 10 ^ 46 * A := by
      rw [← Nat.add_mul]; exact Nat.mul_le_mul_right _ (by decide)
    omega
  have hFA : one * 4503599627370496 ≤ F * A := by
    have h1 : one * 10 ^ 60 ≤ one * one := Nat.mul_le_mul_left _ ho52
    have h2 : one * one ≤ 2 * F * (10 ^ 34 * A) := Nat.mul_le_mul hF2 hA2
    have h3 : one * 4503599627370496 * (2 * 10 ^ 34) ≤ F * A * (2 * 10 ^ 34) := by
      refine Nat.le_trans ?_ (Nat.le_trans h1 (Nat.le_trans h2 (Nat.le_of_eq ?_)))
      · rw [Nat.mul_assoc]; exact Nat.mul_le_mul_left _ (by decide)
      · simp only [Nat.mul_assoc, Nat.mul_left_comm, Nat.mul_comm]
    exact Nat.le_of_mul_le_mul_right h3 (by decide)
  have r3 := round_rel ho hFA
  have hR64 : roundPos (F * A) one < 2 ^ 1024 * one := by
    refine Nat.lt_of_le_of_lt (round_le (z := 2 ^ 106 * one) ho ?_ ?_)
      (times_lt (Nat.pow_lt_pow_right (by decide) (by decide)))
    · rw [one_eq, ← Nat.pow_add]; exact rep_pow _
    · refine Nat.le_trans (Nat.mul_le_mul hF63 hA43) (Nat.le_of_eq ?_)
      grind
  have eR := mul_nat hR64
  generalize hR : roundPos (F * A) one = R at *
  refine ⟨R, ?_, ?_, ?_⟩
  · unfold fractionNs
    rw [eF, eU, hz, eA, eR, trunc_nat]
  · exact scale_up (chain_up ho r1.1 r2.1 r3.1 hz1)
  · exact scale_down (chain_down ho r1.2 r2.2 r3.2 hz2)

/-- large powers of ten -/
theorem powF_large : ∀ j, powF (32 + j) = .inf false ∨ ∃ z : Nat, powF (32 + j) = .fin z ∧ 2 ^ 106 * one ≤ z := by
  intro j
  induction j with
  | zero =>
    right
    obtain ⟨z, hz, h1, _⟩ := powF_near 32 (by decide)
    refine ⟨z, hz, ?_⟩
    have h2 : 2 ^ 106 * one * 1125899906842624 ≤ 10 ^ 32 * one * 1125899906842623 := by
      rw [Nat.mul_right_comm, Nat.mul_right_comm (10 ^ 32)]
      exact Nat.mul_le_mul_right _ (by decide)
    exact Nat.le_of_mul_le_mul_right (Nat.le_trans h2 h1) (by decide)
  | succ j ih =>
    have h10 : ofInt 10 = .fin ((10 * one : Nat) : Int) := ofNat_exact (n := 10) (by decide)
    have hp : 0 < 10 * one := Nat.mul_pos (by decide) one_pos
    have e : powF (32 + (j + 1)) = mul (powF (32 + j)) (ofInt 10) := rfl
    rw [e, h10]
    rcases ih with h | ⟨z, h, hz⟩
    · left
      rw [h]
      unfold mul
      simp only
      rw [if_neg (by omega), decide_eq_false (by omega)]
      rfl
    · rw [h]
      have hle : 2 ^ 106 * one ≤ roundPos (z * (10 * one)) one := by
        refine le_round one_pos ?_ ?_
        · rw [one_eq, ← Nat.pow_add]; exact rep_pow _
        · have : 2 ^ 106 * one * one ≤ z * one := Nat.mul_le_mul_right _ hz
          refine Nat.le_trans this (Nat.mul_le_mul_left _ (by omega))
      by_cases hb : 2 ^ 1024 * one ≤ roundPos (z * (10 * one)) one
      · left
        unfold mul
        simp only
        rw [← Int.natCast_mul]
        unfold Float64.round
        simp only [Int.natAbs_natCast]
        rw [if_pos hb, decide_eq_false (by omega)]
      · right
        exact ⟨_, mul_nat (by omega), hle⟩

/-- A fraction with very many digits is nothing. -/
theorem fraction_none {f U k : Nat} (hf : f < 2 ^ 63) (hU2 : U ≤ 3600000000000) (hk : 33 ≤ k) :
    fractionNs f U (powF k) = 0 := by
  obtain ⟨j, rfl⟩ : ∃ j, k = 32 + j := ⟨k - 32, by omega⟩
  have eF := ofNat_round (n := f) (Nat.lt_trans hf (by decide))
  have eU := ofNat_exact (n := U) (Nat.lt_of_le_of_lt hU2 (by decide))
  have hF63 : roundPos (f * one) 1 ≤ 2 ^ 63 * one := by
    refine round_le (by decide) ?_ ?_
    · rw [one_eq, ← Nat.pow_add]; exact rep_pow _
    · rw [Nat.mul_one]; exact Nat.mul_le_mul_right _ (Nat.le_of_lt hf)
  unfold fractionNs
  rw [eF, eU]
  generalize roundPos (f * one) 1 = F at *
  rcases powF_large j with h | ⟨z, h, hz⟩
  · rw [h]
    have e0 : roundPos (F * 0) one = 0 := by
      have := round_exact (q := one) (z := 0) one_pos rep_zero
      simpa using this
    have := mul_nat (x := F) (y := 0) (by rw [e0]; exact Nat.mul_pos (Nat.two_pow_pos _) one_pos)
    have ed : div (.fin ((U * one : Nat) : Int)) (.inf false) = .fin ((0 : Nat) : Int) := rfl
    rw [ed, this, e0, trunc_nat, Nat.zero_div]
  · rw [h]
    have hzpos : 0 < z := Nat.lt_of_lt_of_le (Nat.mul_pos (Nat.two_pow_pos _) one_pos) hz
    have hA : roundPos (U * one * one) z ≤ 2 ^ 1010 := by
      refine round_le hzpos (rep_pow _) ?_
      calc U * one * one ≤ 2 ^ 42 * one * one :=
            Nat.mul_le_mul_right _ (Nat.mul_le_mul_right _ (Nat.le_trans hU2 (by decide)))
        _ = 2 ^ 1010 * (2 ^ 106 * one) := by
            rw [← Nat.mul_assoc, one_eq, ← Nat.pow_add, ← Nat.pow_add]
        _ ≤ 2 ^ 1010 * z := Nat.mul_le_mul_left _ hz
    have hlt : ∀ n, n ≤ 1023 → 2 ^ n < 2 ^ 1024 * one := by
      intro n hn
      refine Nat.lt_of_lt_of_le (Nat.pow_lt_pow_right (by decide) (by omega)) (Nat.le_mul_of_pos_right _ one_pos)
    rw [div_nat hzpos (Nat.lt_of_le_of_lt hA (hlt _ (by decide)))]
    generalize roundPos (U * one * one) z = A at *
    have hR : roundPos (F * A) one ≤ 2 ^ 1073 := by
      refine round_le one_pos (rep_pow _) ?_
      refine Nat.le_trans (Nat.mul_le_mul hF63 hA) (Nat.le_of_eq ?_)
      rw [Nat.mul_right_comm, ← Nat.pow_add]
    have ho : 2 ^ 1073 < one := by rw [one_eq]; exact Nat.pow_lt_pow_right (by decide) (by decide)
    have hbig : one ≤ 2 ^ 1024 * one := Nat.le_mul_of_pos_left _ (Nat.two_pow_pos _)
    rw [mul_nat (Nat.lt_of_le_of_lt hR (Nat.lt_of_lt_of_le ho hbig)), trunc_nat,
      Nat.div_eq_of_lt (Nat.lt_of_le_of_lt hR ho)]

theorem numFrom_append (a b : List Nat) (x : Nat) : numFrom 10 x (a ++ b) = numFrom 10 (numFrom 10 x a) b := by
  simp [numFrom, List.foldl_append]

theorem numFrom_split (ds : List Nat) : ∀ x, numFrom 10 x ds = x * 10 ^ ds.length + numFrom 10 0 ds := by
  induction ds with
  | nil => intro x; simp [numFrom]
  | cons d ds ih =>
    intro x
    have e : ∀ y, numFrom 10 y (d :: ds) = numFrom 10 (y * 10 + d) ds := fun _ => rfl
    rw [e, e, ih, ih (0 * 10 + d), List.length_cons, Nat.pow_succ]
    grind

/-- The digits that count are the first ones, and almost 2^63. -/
theorem kept_spec (ds : List Nat) (h : ∀ d ∈ ds, d < 10) : ∀ x, x < 2 ^ 63 → numFrom 10 x (keptFrom x ds) < 2 ^ 63 ∧
    ∃ r, ds = keptFrom x ds ++ r ∧ (r = [] ∨ 2 ^ 63 ≤ numFrom 10 x (keptFrom x ds) * 10 + 9) := by
  induction ds with
  | nil => intro x hx; exact ⟨hx, [], rfl, .inl rfl⟩
  | cons d ds ih =>
    intro x hx
    have hd := h d (by simp)
    rw [keptFrom]
    by_cases h1 : 2 ^ 63 ≤ x * 10 + d
    · rw [if_pos h1]
      refine ⟨hx, d :: ds, rfl, .inr ?_⟩
      have : numFrom 10 x [] = x := rfl
      omega
    · rw [if_neg h1]
      obtain ⟨h2, r, h3, h4⟩ := ih (fun e he => h e (by simp [he])) (x * 10 + d) (by omega)
      exact ⟨h2, r, by rw [List.cons_append, ← h3], h4⟩

theorem near_floor {R P Y G o : Nat} (ho : 0 < o) (hP : 0 < P) (h1 : R * P * 562949953421312 ≤ Y * o * 562949953421313)
    (h2 : Y * o * 562949953421311 ≤ R * P * 562949953421312) (hY : Y < P * 4398046511104) (hG : Y ≤ G)
    (hG2 : (G - Y) * 131072 ≤ P) : R / o ≤ G / P + 1 ∧ G / P ≤ R / o + 1 := by
  have a1 := Nat.mul_div_le R o
  have a2 := Nat.lt_mul_div_succ R ho
  have b1 := Nat.mul_div_le G P
  have b2 := Nat.lt_mul_div_succ G hP
  generalize R / o = r at *
  generalize G / P = e at *
  -- without `o`
  have c1 : r * P * 562949953421312 ≤ Y * 562949953421313 := by
    have : o * (r * P * 562949953421312) ≤ o * (Y * 562949953421313) := by
      calc o * (r * P * 562949953421312) = o * r * P * 562949953421312 := by grind
        _ ≤ R * P * 562949953421312 := Nat.mul_le_mul_right _ (Nat.mul_le_mul_right _ a1)
        _ ≤ Y * o * 562949953421313 := h1
        _ = o * (Y * 562949953421313) := by grind
    exact Nat.le_of_mul_le_mul_left this ho
  have c2 : Y * 562949953421311 < (r + 1) * P * 562949953421312 := by
    have : o * (Y * 562949953421311) < o * ((r + 1) * P * 562949953421312) := by
      calc o * (Y * 562949953421311) = Y * o * 562949953421311 := by grind
        _ ≤ R * P * 562949953421312 := h2
        _ < o * (r + 1) * P * 562949953421312 :=
            Nat.mul_lt_mul_of_pos_right (Nat.mul_lt_mul_of_pos_right a2 hP) (by decide)
        _ = o * ((r + 1) * P * 562949953421312) := by grind
    exact Nat.lt_of_mul_lt_mul_left this
  constructor
  · apply Classical.byContradiction
    intro h
    have h3 : P * (e + 2) ≤ P * r := Nat.mul_le_mul_left _ (by omega)
    have e1 : P * (e + 2) = P * e + P * 2 := Nat.mul_add _ _ _
    have e2 : P * (e + 1) = P * e + P := Nat.mul_succ _ _
    rw [Nat.mul_comm r] at c1
    generalize P * r = pr at *
    generalize P * e = pe at *
    omega
  · apply Classical.byContradiction
    intro h
    have h3 : P * (r + 2) ≤ P * e := Nat.mul_le_mul_left _ (by omega)
    have e1 : P * (r + 2) = P * r + P * 2 := Nat.mul_add _ _ _
    have e2 : P * (r + 1) = P * r + P := Nat.mul_succ _ _
    rw [Nat.mul_comm (r + 1)] at c2
    generalize P * r = pr at *
    generalize P * e = pe at *
    omega

/-- What a part is taken for: at most one nanosecond off. -/
theorem cns_near {i f : List Nat} {U : Nat} (hf : ∀ d ∈ f, d < 10) (hU : 0 < U) (hU2 : U ≤ 3600000000000) :
    cns (i, f, U) ≤ nanos (i, f, U) + 1 ∧ nanos (i, f, U) ≤ cns (i, f, U) + 1 := by
  obtain ⟨hlt, r, hr, hfull⟩ := kept_spec f hf 0 (by decide)
  unfold cns nanos
  simp only
  have en : numFrom 10 0 (keptFrom 0 f) = num 10 (keptFrom 0 f) := rfl
  rw [en] at hlt hfull
  have hk := num_lt (keptFrom 0 f) (fun d hd => hf d (by rw [hr]; simp [hd])) 0
  rw [en, Nat.zero_add, Nat.one_mul] at hk
  have hrl := num_lt r (fun d hd => hf d (by rw [hr]; simp [hd])) 0
  rw [Nat.zero_add, Nat.one_mul] at hrl
  have hN : num 10 f = num 10 (keptFrom 0 f) * 10 ^ r.length + numFrom 10 0 r := by
    conv => lhs; rw [hr]
    show numFrom 10 0 _ = _
    rw [numFrom_append, numFrom_split r]
    rfl
  have hn : f.length = (keptFrom 0 f).length + r.length := by conv => lhs; rw [hr, List.length_append]
  rw [hn, Nat.pow_add, Nat.mul_comm (10 ^ (keptFrom 0 f).length), ← Nat.div_div_eq_div_mul]
  have hB : 0 < 10 ^ r.length := Nat.pow_pos (by decide)
  -- what is left of the digits
  have hG : ∃ G, num 10 f * U / 10 ^ r.length = G ∧ num 10 (keptFrom 0 f) * U ≤ G ∧
      (G = num 10 (keptFrom 0 f) * U ∨ (r ≠ [] ∧ G < num 10 (keptFrom 0 f) * U + U)) := by
    refine ⟨_, rfl, ?_, ?_⟩
    · rw [Nat.le_div_iff_mul_le hB, hN, Nat.add_mul, Nat.mul_right_comm]
      exact Nat.le_add_right _ _
    · by_cases h0 : r = []
      · left
        rw [hN, h0]
        simp [numFrom]
      · right
        refine ⟨h0, ?_⟩
        rw [Nat.div_lt_iff_lt_mul hB, hN, Nat.add_mul, Nat.add_mul, Nat.mul_right_comm]
        have : numFrom 10 0 r * U < 10 ^ r.length * U := Nat.mul_lt_mul_of_pos_right hrl hU
        rw [Nat.mul_comm U]
        omega
  obtain ⟨G, e, hG1, hG2⟩ := hG
  rw [e]
  have hP : 0 < 10 ^ (keptFrom 0 f).length := Nat.pow_pos (by decide)
  generalize hkk : (keptFrom 0 f).length = k at *
  generalize num 10 (keptFrom 0 f) = v at *
  clear e hN hn en hrl
  suffices h : (if 0 < v then fractionNs v U (powF k) else 0) ≤ G / 10 ^ k + 1 ∧
      G / 10 ^ k ≤ (if 0 < v then fractionNs v U (powF k) else 0) + 1 by omega
  have hUP : G = v * U ∨ (G < v * U + U ∧ U * 131072 ≤ 10 ^ k) := by
    rcases hG2 with h | ⟨h0, h⟩
    · exact .inl h
    · right
      refine ⟨h, ?_⟩
      rcases hfull with h1 | h1
      · exact absurd h1 h0
      · omega
  by_cases hk33 : 33 ≤ k
  · have hz : G / 10 ^ k = 0 := by
      apply Nat.div_eq_of_lt
      have h1 : (v + 1) * U ≤ 2 ^ 63 * 3600000000000 := Nat.mul_le_mul hlt hU2
      have h2 : 10 ^ 33 ≤ 10 ^ k := Nat.pow_le_pow_right (by decide) hk33
      have h3 : 2 ^ 63 * 3600000000000 < 10 ^ 33 := by decide
      rw [Nat.add_mul, Nat.one_mul] at h1
      have h4 : v * U + U < 10 ^ k := Nat.lt_of_le_of_lt h1 (Nat.lt_of_lt_of_le h3 h2)
      omega
    rw [hz, fraction_none hlt hU2 hk33]
    split <;> omega
  · by_cases hv : 0 < v
    · rw [if_pos hv]
      obtain ⟨R, eR, h1, h2⟩ := fraction_near hv hlt hU hU2 (by omega : k < 33)
      rw [eR]
      have hY : v * U < 10 ^ k * 4398046511104 :=
        Nat.lt_of_lt_of_le (Nat.mul_lt_mul_of_pos_right hk hU) (Nat.mul_le_mul_left _ (Nat.le_trans hU2 (by decide)))
      have hd : (G - v * U) * 131072 ≤ 10 ^ k := by
        clear h1 h2 hY hlt hk hfull eR hG2
        rcases hUP with h | h
        · rw [h, Nat.sub_self, Nat.zero_mul]; exact Nat.zero_le _
        · have : G - v * U ≤ U := by omega
          exact Nat.le_trans (Nat.mul_le_mul_right _ this) h.2
      exact near_floor one_pos hP h1 h2 hY hG1 hd
    · rw [if_neg hv]
      have hv0 : v = 0 := by omega
      subst hv0
      have : G / 10 ^ k ≤ 1 := by
        have : G < 10 ^ k * 2 := by omega
        have := Nat.div_lt_of_lt_mul this
        generalize G / 10 ^ k = e at *
        omega
      generalize G / 10 ^ k = e at *
      omega


/-! ## The property -/

theorem part_lt {a : List Char} {i f : List Nat} {n : Nat} (h : Part a i f n) :
    (∀ d ∈ f, d < 10) ∧ 0 < n ∧ n ≤ 3600000000000 := by
  cases h with
  | whole _ _ hu => exact ⟨by simp, unit_pos hu⟩
  | pointed _ ht _ hu => exact ⟨plain_lt ht, unit_pos hu⟩

/-- what is known of every part -/
def Good (p : List Nat × List Nat × Nat) : Prop := (∀ d ∈ p.2.1, d < 10) ∧ 0 < p.2.2 ∧ p.2.2 ≤ 3600000000000

theorem parts_good {s : List Char} {ps : List (List Nat × List Nat × Nat)} (h : Parts s ps) : ∀ p ∈ ps, Good p := by
  induction h with
  | one hp => intro p hm; simp at hm; subst hm; exact part_lt hp
  | more hp _ ih =>
    intro p hm
    rcases List.mem_cons.1 hm with rfl | hm
    · exact part_lt hp
    · exact ih p hm

theorem time_good {s : List Char} {neg : Bool} {ps : List (List Nat × List Nat × Nat)} (h : Time s neg ps) : ∀ p ∈ ps, Good p := by
  cases h with
  | zero _ => simp
  | parts _ hp => exact parts_good hp

theorem part_unit {a : List Char} {i f : List Nat} {n : Nat} (h : Part a i f n) : ∃ c ∈ a, notUnit c = false := by
  have key : ∀ {u n}, Unit u n → ∃ c ∈ u, notUnit c = false := by
    intro u n hu
    obtain ⟨h1, h2⟩ := unit_chars hu
    cases u with
    | nil => exact absurd rfl h1
    | cons c u => exact ⟨c, by simp, h2 c (by simp)⟩
  cases h with
  | whole _ _ hu =>
    obtain ⟨c, hm, hc⟩ := key hu
    exact ⟨c, by simp [hm], hc⟩
  | pointed _ _ _ hu =>
    obtain ⟨c, hm, hc⟩ := key hu
    exact ⟨c, by simp [hm], hc⟩

theorem parts_unit {s : List Char} {ps : List (List Nat × List Nat × Nat)} (h : Parts s ps) : ∃ c ∈ s, notUnit c = false := by
  cases h with
  | one hp => exact part_unit hp
  | more hp _ =>
    obtain ⟨c, hm, hc⟩ := part_unit hp
    exact ⟨c, by simp [hm], hc⟩

/-- The parts decide the result. -/
theorem parseDuration_of {s : List Char} {neg : Bool} {ps : List (List Nat × List Nat × Nat)} (h : Time s neg ps) :
    parseDuration s = if 2 ^ 63 ≤ sumNs ps then none else some (sgn neg (sumNs ps)) := by
  by_cases hb : 2 ^ 63 ≤ sumNs ps
  · rw [if_pos hb]
    cases h with
    | zero _ => exact absurd hb (by decide)
    | @parts sg _ s ps hsg hps =>
      obtain ⟨c, cs, e, hc⟩ := parts_head hps
      unfold parseDuration
      rw [sign_of hsg (head_unsigned e hc)]
      simp only
      have h0 : s ≠ ['0'] := by
        rintro rfl
        obtain ⟨c, hm, hc⟩ := parts_unit hps
        simp only [List.mem_singleton] at hm
        subst hm
        exact absurd hc (by decide)
      rw [if_neg h0, if_neg (by rw [e]; simp), durLoop_of hps _ 0 (Nat.le_refl _) (by decide), Nat.zero_add, if_pos hb]
      rfl
  · rw [if_neg hb]
    exact (parseDuration_iff s _).2 ⟨neg, ps, h, rfl, by omega⟩

theorem sum_short (ps : List (List Nat × List Nat × Nat)) (hg : ∀ p ∈ ps, Good p) (hs : ∀ p ∈ ps, Short p) : sumNs ps = total ps := by
  induction ps with
  | nil => rfl
  | cons p ps ih =>
    have h1 := ih (fun q hq => hg q (by simp [hq])) (fun q hq => hs q (by simp [hq]))
    have h2 := hg p (by simp)
    have : cns p = nanos p := cns_short (i := p.1) h2.1 h2.2 (hs p (by simp))
    unfold sumNs total at *
    rw [List.map_cons, List.map_cons, List.sum_cons, List.sum_cons, h1, this]

theorem sum_near (ps : List (List Nat × List Nat × Nat)) (hg : ∀ p ∈ ps, Good p) :
    sumNs ps ≤ total ps + longs ps ∧ total ps ≤ sumNs ps + longs ps := by
  induction ps with
  | nil => simp [sumNs, total, longs]
  | cons p ps ih =>
    have h1 := ih (fun q hq => hg q (by simp [hq]))
    have h2 := hg p (by simp)
    unfold sumNs total longs at *
    rw [List.map_cons, List.map_cons, List.sum_cons, List.sum_cons, List.countP_cons]
    by_cases hs : Short p
    · have : cns p = nanos p := cns_short (i := p.1) h2.1 h2.2 hs
      omega
    · have : cns p ≤ nanos p + 1 ∧ nanos p ≤ cns p + 1 := cns_near (i := p.1) h2.1 h2.2.1 h2.2.2
      have hs' : ¬ 10 ^ p.2.1.length ∣ p.2.2 := hs
      rw [if_pos (by simp [hs'])]
      omega

/-- **C120.** A text that is not a time is refused: a number without a unit (other than zero), an unknown unit, nothing at all. -/
theorem C120_refused (s : List Char) (h : ¬ ∃ neg ps, Time s neg ps) : parseDuration s = none := by
  cases hd : parseDuration s with
  | none => rfl
  | some d =>
    obtain ⟨neg, ps, ht, _⟩ := (parseDuration_iff s d).1 hd
    exact absurd ⟨neg, ps, ht⟩ h

/-- **C120.** A time whose fractions do not go beyond nanoseconds is exactly the sum of its parts, unless this is too long. -/
theorem C120_exact {s : List Char} {neg : Bool} {ps : List (List Nat × List Nat × Nat)} (h : Time s neg ps)
    (hs : ∀ p ∈ ps, Short p) : parseDuration s = if total ps < 2 ^ 63 then some (sgn neg (total ps)) else none := by
  rw [parseDuration_of h, sum_short ps (time_good h) hs]
  split <;> rename_i h1
  · rw [if_neg (by omega)]
  · rw [if_pos (by omega)]

/-- **C120.** Whatever the fractions are, every part with a longer one is at most one nanosecond off, and only a time that is
within so many nanoseconds of the limit may be refused or accepted wrongly. -/
theorem C120_near {s : List Char} {neg : Bool} {ps : List (List Nat × List Nat × Nat)} (h : Time s neg ps) :
    (∃ n : Nat, parseDuration s = some (sgn neg n) ∧ n ≤ total ps + longs ps ∧ total ps ≤ n + longs ps ∧ n < 2 ^ 63) ∨
    (parseDuration s = none ∧ 2 ^ 63 ≤ total ps + longs ps) := by
  have hn := sum_near ps (time_good h)
  rw [parseDuration_of h]
  by_cases hb : 2 ^ 63 ≤ sumNs ps
  · right
    rw [if_pos hb]
    exact ⟨rfl, by omega⟩
  · left
    rw [if_neg hb]
    exact ⟨sumNs ps, rfl, hn.1, hn.2, by omega⟩

/-! ## Cases -/

theorem digits_plain {s : List Char} (h : (s.all isDec) = true) : Plain s (s.map dval) :=
  (plain_iff s _).2 ⟨fun c hc => List.all_eq_true.1 h c hc, rfl⟩

/-- `-1m30.5s` -/
theorem minus_ninety : Time "-1m30.5s".toList true [([1], [], 60000000000), ([3, 0], [5], 1000000000)] :=
  .parts (sg := ['-']) (by unfold Sign; decide)
    (.more (.whole (digits_plain (s := ['1']) (by decide)) (by decide) .minute)
      (.one (.pointed (digits_plain (s := ['3', '0']) (by decide)) (digits_plain (s := ['5']) (by decide)) (by decide) .second)))

example : parseDuration "-1m30.5s".toList = some (-90500000000) := by
  rw [C120_exact minus_ninety (by unfold Short; decide)]; decide

/-- A third of an hour is written with too many digits, and one nanosecond off: the bound of `C120_near` is reached. -/
theorem third : Time "0.3333333333333333333h".toList false
    [([0], [3,3,3,3,3,3,3,3,3,3,3,3,3,3,3,3,3,3,3], 3600000000000)] :=
  .parts (sg := []) (by unfold Sign; decide)
    (.one (.pointed (s := ['0']) (digits_plain (by decide)) (digits_plain (s := "3333333333333333333".toList) (by decide)) (by decide) .hour))

example : parseDuration "0.3333333333333333333h".toList = some 1200000000000 ∧
    total [([0], [3,3,3,3,3,3,3,3,3,3,3,3,3,3,3,3,3,3,3], 3600000000000)] = 1199999999999 := by decide +kernel

/-- Too long: 2562048 hours. -/
theorem too_long : Time "2562048h".toList false [([2, 5, 6, 2, 0, 4, 8], [], 3600000000000)] :=
  .parts (sg := []) (by unfold Sign; decide) (.one (.whole (digits_plain (s := "2562048".toList) (by decide)) (by decide) .hour))

example : parseDuration "2562048h".toList = none := by rw [C120_exact too_long (by unfold Short; decide)]; decide

/-- No times: no unit, an unknown unit, nothing, no digits, a sign in the middle. -/
example : ["5", "1d", "", "-", ".s", "1s-1s", "1 s", "0.", "00"].map (fun s => parseDuration s.toList) =
    List.replicate 9 none := by decide

example : ["5", "1d", "", "-", ".s", "1s-1s", "1 s", "0.", "00"].all (fun s => s.toList ≠ "0".toList) = true := by decide

/-- The hypothesis of `C120_refused` is met: five without a unit is no time. -/
example : ¬ ∃ neg ps, Time "5".toList neg ps := by
  rintro ⟨neg, ps, h⟩
  have key : ∀ {s}, Parts s ps → ∀ sg, sg ++ s = "5".toList → False := by
    intro s hp sg e
    obtain ⟨c, hm, hc⟩ := parts_unit hp
    have : c ∈ "5".toList := by rw [← e]; simp [hm]
    simp at this
    subst this
    exact absurd hc (by decide)
  generalize hs : "5".toList = s at h
  cases h with
  | @zero sg _ _ =>
    have : '0' ∈ "5".toList := by rw [hs]; simp
    exact absurd this (by decide)
  | @parts sg _ t _ _ hp => exact key hp sg hs.symm

end MS.CommandLine
