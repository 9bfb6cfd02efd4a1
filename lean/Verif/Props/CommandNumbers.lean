import Verif.Spec.CommandLine
/-!
# The whole numbers of the command line are read as they are written
-/
set_option linter.unusedSimpArgs false
namespace MS.CommandLine
open MS.Numbers MS.CommandSpec

/-- the readers of digits agree -/
def Fit (base : Nat) (hex : Bool) : Prop := hex = false ∧ 2 ≤ base ∧ base ≤ 10 ∨ hex = true ∧ base = 16

theorem digit_val {base : Nat} {hex : Bool} (hf : Fit base hex) (c : Char) (d : Nat) :
    digit c = some d ∧ d < base ↔ digitVal hex c = some d ∧ d < base := by
  unfold digit digitVal isDec
  by_cases h1 : 48 ≤ c.toNat ∧ c.toNat ≤ 57
  · simp [h1]
  · rcases hf with ⟨rfl, -, hb⟩ | ⟨rfl, rfl⟩
    · simp only [h1, if_false, decide_false, Bool.false_eq_true, Bool.false_and]
      by_cases h2 : 97 ≤ c.toNat ∧ c.toNat ≤ 122
      · rw [if_pos h2]; simp; omega
      · rw [if_neg h2]
        by_cases h3 : 65 ≤ c.toNat ∧ c.toNat ≤ 90
        · rw [if_pos h3]; simp; omega
        · rw [if_neg h3]
    · simp only [h1, if_false, decide_false, Bool.false_eq_true, Bool.true_and, decide_eq_true_eq]
      by_cases h2 : 97 ≤ c.toNat ∧ c.toNat ≤ 122
      · rw [if_pos h2]
        by_cases h4 : 97 ≤ c.toNat ∧ c.toNat ≤ 102
        · rw [if_pos h4]; simp; omega
        · rw [if_neg h4, if_neg (by omega)]; simp; omega
      · rw [if_neg h2, if_neg (by omega : ¬ (97 ≤ c.toNat ∧ c.toNat ≤ 102))]
        by_cases h3 : 65 ≤ c.toNat ∧ c.toNat ≤ 90
        · rw [if_pos h3]
          by_cases h4 : 65 ≤ c.toNat ∧ c.toNat ≤ 70
          · rw [if_pos h4]; simp; omega
          · rw [if_neg h4]; simp; omega
        · rw [if_neg h3, if_neg (by omega)]

theorem numFrom_le (base : Nat) (hb : 1 ≤ base) (ds : List Nat) : ∀ v, v ≤ numFrom base v ds := by
  induction ds with
  | nil => intro v; exact Nat.le_refl _
  | cons d ds ih =>
    intro v
    have h1 : v * 1 ≤ v * base := Nat.mul_le_mul_left v hb
    exact Nat.le_trans (by omega) (ih (v * base + d))

theorem uintLoop_iff {base : Nat} {hex : Bool} (hf : Fit base hex) (s : List Char) : ∀ (n : Nat) (u : Bool) (v : Nat) (u' : Bool),
    n < 2 ^ 64 → (uintLoop base n u s = some (v, u') ↔
      AllRun hex s ∧ (∀ d ∈ digs hex s, d < base) ∧ v = numFrom base n (digs hex s) ∧ v < 2 ^ 64 ∧ u' = (u || s.contains '_')) := by
  have hb : 1 ≤ base := by rcases hf with h | h <;> omega
  induction s with
  | nil =>
    intro n u v u' hn
    simp only [uintLoop, digs, List.filterMap_nil, numFrom, List.foldl_nil, Option.some.injEq, Prod.mk.injEq]
    constructor
    · rintro ⟨rfl, rfl⟩; exact ⟨fun c hc => by simp at hc, by simp, rfl, hn, by simp⟩
    · rintro ⟨-, -, rfl, -, rfl⟩; exact ⟨rfl, by simp⟩
  | cons c cs ih =>
    intro n u v u' hn
    have hall : AllRun hex (c :: cs) ↔ inRun hex c = true ∧ AllRun hex cs := by
      constructor
      · intro h; exact ⟨h c (by simp), fun x hx => h x (by simp [hx])⟩
      · rintro ⟨h1, h2⟩ x hx
        rcases List.mem_cons.1 hx with rfl | hx
        · exact h1
        · exact h2 x hx
    rw [uintLoop, hall]
    by_cases h1 : c = '_'
    · subst h1
      rw [if_pos rfl, ih n true v u' hn]
      have hd : digs hex ('_' :: cs) = digs hex cs := by simp only [digs, List.filterMap_cons, under_no_digit]
      rw [hd]
      have : inRun hex '_' = true := by simp [inRun]
      simp [this]
    · rw [if_neg h1]
      have hrun : inRun hex c = true ↔ (digitVal hex c).isSome = true := by simp [inRun, h1]
      have hne : ((c :: cs).contains '_') = cs.contains '_' := by
        rw [List.contains_cons]; simp [Ne.symm h1]
      rw [hne, hrun]
      cases hv : digitVal hex c with
      | none =>
        simp only [Option.isSome_none, Bool.false_eq_true, false_and, iff_false]
        cases hdg : digit c with
        | none => simp
        | some d =>
          simp only
          rw [if_pos]
          · simp
          · rcases Nat.lt_or_ge d base with hlt | hge
            · have := (digit_val hf c d).1 ⟨hdg, hlt⟩
              rw [hv] at this; simp at this
            · exact hge
      | some d =>
        have hd : digs hex (c :: cs) = d :: digs hex cs := by simp only [digs, List.filterMap_cons, hv]
        rw [hd]
        simp only [Option.isSome_some, true_and, List.mem_cons, forall_eq_or_imp]
        rcases Nat.lt_or_ge d base with hlt | hge
        · rw [((digit_val hf c d).2 ⟨hv, hlt⟩).1]
          simp only
          rw [if_neg (by omega)]
          have hnum : numFrom base n (d :: digs hex cs) = numFrom base (n * base + d) (digs hex cs) := rfl
          rw [hnum]
          by_cases ho : 2 ^ 64 ≤ n * base + d
          · rw [if_pos ho]
            simp only [reduceCtorEq, false_iff, not_and]
            intro _ _ hv' hlt'
            have := numFrom_le base hb (digs hex cs) (n * base + d)
            omega
          · rw [if_neg ho, ih _ u v u' (by omega)]
            simp [hlt]
        · cases hdg : digit c with
          | none => simp; intro _ h; omega
          | some e =>
            simp only
            rw [if_pos]
            · simp; intro _ h; omega
            · rcases Nat.lt_or_ge e base with he | he
              · have := ((digit_val hf c e).1 ⟨hdg, he⟩).1
                rw [hv] at this; simp at this; omega
              · exact he

/-- The number behind the base's prefix. -/
def body (base : Nat) (hex : Bool) (saw : Saw) (s : List Char) : Option Nat :=
  match uintLoop base 0 false s with
  | none => none
  | some (n, under) => if under && !underLoop hex saw s then none else some n

theorem body_iff {base : Nat} {hex : Bool} (hf : Fit base hex) (saw : Saw) (hs : saw ≠ .under) (s : List Char) (n : Nat) :
    body base hex saw s = some n ↔
      AllRun hex s ∧ underLoop hex saw s = true ∧ (∀ d ∈ digs hex s, d < base) ∧ n = num base (digs hex s) ∧ n < 2 ^ 64 := by
  have key : body base hex saw s = some n ↔ uintLoop base 0 false s = some (n, s.contains '_') ∧
      (s.contains '_' = true → underLoop hex saw s = true) := by
    unfold body
    cases hl : uintLoop base 0 false s with
    | none => simp
    | some r =>
      obtain ⟨v, u⟩ := r
      obtain ⟨-, -, -, -, hu⟩ := (uintLoop_iff hf s 0 false v u (by decide)).1 hl
      simp only [Bool.false_or] at hu
      subst hu
      cases s.contains '_' <;> cases underLoop hex saw s <;> simp
  rw [key, uintLoop_iff hf s 0 false _ _ (by decide)]
  simp only [Bool.false_or, and_true]
  constructor
  · rintro ⟨⟨h1, h2, h3, h4⟩, h5⟩
    refine ⟨h1, ?_, h2, h3, h4⟩
    cases hc : s.contains '_' with
    | true => exact h5 hc
    | false => exact under_free hex s h1 hc saw hs
  · rintro ⟨h1, h2, h3, h4, h5⟩
    exact ⟨⟨h1, h3, h4, h5⟩, fun _ => h2⟩

/-- After a prefix or a leading zero. -/
theorem body_digit {base : Nat} {hex : Bool} (hf : Fit base hex) (s : List Char) (n : Nat) :
    body base hex .digit s = some n ↔
      s = [] ∧ n = 0 ∨ ∃ u t ds, s = u ++ t ∧ (u = [] ∨ u = ['_']) ∧ Digits hex t ds ∧ (∀ d ∈ ds, d < base) ∧ n = num base ds ∧
        n < 2 ^ 64 := by
  rw [body_iff hf _ (by decide)]
  constructor
  · rintro ⟨h1, h2, h3, h4, h5⟩
    rcases ((under_run hex s h1).1).1 h2 with rfl | ⟨ds, h⟩ | ⟨t, ds, rfl, h⟩
    · exact .inl ⟨rfl, h4⟩
    · have hd := (digits_run h).2.1
      exact .inr ⟨[], s, ds, rfl, .inl rfl, h, hd ▸ h3, hd ▸ h4, h5⟩
    · have hd := (digits_run h).2.1
      have e : digs hex ('_' :: t) = ds := by simp only [digs, List.filterMap_cons, under_no_digit] at hd ⊢; exact hd
      exact .inr ⟨['_'], t, ds, rfl, .inr rfl, h, e ▸ h3, e ▸ h4, h5⟩
  · rintro (⟨rfl, rfl⟩ | ⟨u, t, ds, rfl, hu, h, h3, h4, h5⟩)
    · exact ⟨fun c hc => by simp at hc, by simp [underLoop], by simp [digs], rfl, by decide⟩
    · obtain ⟨hr, hd, -, -⟩ := digits_run h
      rcases hu with rfl | rfl
      · rw [List.nil_append]
        exact ⟨hr, ((under_run hex t hr).1).2 (.inr (.inl ⟨ds, h⟩)), hd ▸ h3, hd ▸ h4, h5⟩
      · have e : digs hex ('_' :: t) = ds := by simp only [digs, List.filterMap_cons, under_no_digit] at hd ⊢; exact hd
        have hr' : AllRun hex ('_' :: t) := by
          intro c hc
          rcases List.mem_cons.1 hc with rfl | hc
          · simp [inRun]
          · exact hr c hc
        rw [List.singleton_append]
        exact ⟨hr', ((under_run hex _ hr').1).2 (.inr (.inr ⟨t, ds, rfl, h⟩)), e ▸ h3, e ▸ h4, h5⟩

/-- Without a prefix. -/
theorem body_start (s : List Char) (n : Nat) (hs : s ≠ []) :
    body 10 false .start s = some n ↔ ∃ ds, Digits false s ds ∧ n = num 10 ds ∧ n < 2 ^ 64 := by
  rw [body_iff (.inl ⟨rfl, by decide, by decide⟩) _ (by decide)]
  have lt10 : ∀ d ∈ digs false s, d < 10 := by
    intro d hd
    obtain ⟨c, -, h⟩ := List.mem_filterMap.1 hd
    unfold digitVal isDec at h
    by_cases h1 : 48 ≤ c.toNat ∧ c.toNat ≤ 57
    · simp [h1] at h; omega
    · simp [h1] at h
  constructor
  · rintro ⟨h1, h2, -, h4, h5⟩
    rcases ((under_run false s h1).2.2 .start (.inl rfl)).1 h2 with rfl | ⟨ds, h⟩
    · exact absurd rfl hs
    · exact ⟨ds, h, (digits_run h).2.1 ▸ h4, h5⟩
  · rintro ⟨ds, h, h4, h5⟩
    obtain ⟨hr, hd, -, -⟩ := digits_run h
    exact ⟨hr, ((under_run false s hr).2.2 .start (.inl rfl)).2 (.inr ⟨ds, h⟩), lt10, hd ▸ h4, h5⟩

theorem allRun_unsigned {hex : Bool} {c : Char} {s : List Char} (h : inRun hex c = true) : (Numbers.sign (c :: s)) = (false, c :: s) := by
  have := sign_of (sg := []) (s := c :: s) (neg := false) (.inl ⟨rfl, rfl⟩) (unsigned_run (.inl h))
  simpa using this

theorem loop_none {base : Nat} {c : Char} {s : List Char} (h : digit c = none) (hu : c ≠ '_') (n : Nat) (u : Bool) :
    uintLoop base n u (c :: s) = none := by
  rw [uintLoop, if_neg hu, h]

theorem parseUint_iff (s : List Char) (n : Nat) : parseUint s = some n ↔ Natural s n ∧ n < 2 ^ 64 := by
  -- the three shapes
  have shape : (∃ x hex base c t, s = '0' :: x :: c :: t ∧
      ((x = 'b' ∨ x = 'B') ∧ base = 2 ∧ hex = false ∨ (x = 'o' ∨ x = 'O') ∧ base = 8 ∧ hex = false ∨
        (x = 'x' ∨ x = 'X') ∧ base = 16 ∧ hex = true)) ∨
      (∃ t, s = '0' :: t ∧ ∀ x c r, t = x :: c :: r → x ∉ ['b', 'B', 'o', 'O', 'x', 'X']) ∨ s.head? ≠ some '0' := by
    match s with
    | [] => exact .inr (.inr (by simp))
    | [c] =>
      by_cases h : c = '0'
      · subst h; exact .inr (.inl ⟨[], rfl, by simp⟩)
      · exact .inr (.inr (by simpa using h))
    | [c, x] =>
      by_cases h : c = '0'
      · subst h; exact .inr (.inl ⟨[x], rfl, by simp⟩)
      · exact .inr (.inr (by simpa using h))
    | c0 :: x :: c :: t =>
      by_cases h : c0 = '0'
      · subst h
        by_cases hx : x ∈ ['b', 'B', 'o', 'O', 'x', 'X']
        · refine .inl ?_
          simp only [List.mem_cons, List.not_mem_nil, or_false] at hx
          rcases hx with rfl | rfl | rfl | rfl | rfl | rfl
          · exact ⟨_, false, 2, c, t, rfl, by simp⟩
          · exact ⟨_, false, 2, c, t, rfl, by simp⟩
          · exact ⟨_, false, 8, c, t, rfl, by simp⟩
          · exact ⟨_, false, 8, c, t, rfl, by simp⟩
          · exact ⟨_, true, 16, c, t, rfl, by simp⟩
          · exact ⟨_, true, 16, c, t, rfl, by simp⟩
        · refine .inr (.inl ⟨x :: c :: t, rfl, ?_⟩)
          intro x' c' r' e
          obtain ⟨rfl, -⟩ := List.cons.inj e
          exact hx
      · exact .inr (.inr (by simpa using h))
  rcases shape with ⟨x, hex, base, c, t, rfl, hx⟩ | ⟨t, rfl, ht⟩ | h0
  · -- with a prefix
    have hbase : baseOf ('0' :: x :: c :: t) = (base, c :: t) := by
      rcases hx with ⟨rfl | rfl, rfl, -⟩ | ⟨rfl | rfl, rfl, -⟩ | ⟨rfl | rfl, rfl, -⟩ <;> rfl
    have hu : underscoreOK ('0' :: x :: c :: t) = underLoop hex .digit (c :: t) := by
      rcases hx with ⟨rfl | rfl, -, rfl⟩ | ⟨rfl | rfl, -, rfl⟩ | ⟨rfl | rfl, -, rfl⟩ <;> rfl
    have hp : parseUint ('0' :: x :: c :: t) = body base hex .digit (c :: t) := by
      unfold parseUint body
      rw [if_neg (by simp), hbase, hu]
      rfl
    have hf : Fit base hex := by
      rcases hx with ⟨-, rfl, rfl⟩ | ⟨-, rfl, rfl⟩ | ⟨-, rfl, rfl⟩ <;> unfold Fit <;> simp
    rw [hp, body_digit hf]
    constructor
    · rintro (⟨h, -⟩ | ⟨u, t', ds, e, hu', hd, hlt, rfl, h64⟩)
      · simp at h
      · rw [e]; exact ⟨.withPrefix hx hu' hd hlt, h64⟩
    · rintro ⟨h, h64⟩
      refine .inr ?_
      generalize hs : '0' :: x :: c :: t = s at h
      cases h with
      | zero => simp at hs
      | decimal h h' => exact absurd (List.cons.inj hs).1.symm h'
      | @octal u s' ds hu' hd hlt =>
        obtain ⟨-, hs⟩ := List.cons.inj hs
        exfalso
        have hxr : inRun false x = true := by
          rcases hu' with rfl | rfl
          · exact (digits_run hd).1 x (by rw [List.nil_append] at hs; rw [← hs]; simp)
          · rw [(List.cons.inj hs).1]; rfl
        rcases hx with ⟨rfl | rfl, -, -⟩ | ⟨rfl | rfl, -, -⟩ | ⟨rfl | rfl, -, -⟩ <;> exact absurd hxr (by decide)
      | @withPrefix x' base' hex' u s' ds hx' hu' hd hlt =>
        obtain ⟨rfl, hs2⟩ := List.cons.inj (List.cons.inj hs).2
        have hbh : base' = base ∧ hex' = hex := by
          rcases hx with ⟨rfl | rfl, rfl, rfl⟩ | ⟨rfl | rfl, rfl, rfl⟩ | ⟨rfl | rfl, rfl, rfl⟩ <;> simp_all
        obtain ⟨rfl, rfl⟩ := hbh
        exact ⟨u, s', ds, hs2, hu', hd, hlt, rfl, h64⟩
  · -- octal
    have hbase : baseOf ('0' :: t) = (8, t) := by
      match t with
      | [] => rfl
      | [x] => rfl
      | x :: c :: r =>
        have := ht x c r rfl
        simp only [List.mem_cons, List.not_mem_nil, or_false, not_or] at this
        simp [baseOf, this]
    have hf : Fit 8 false := .inl ⟨rfl, by decide, by decide⟩
    by_cases h2 : ∃ x, t = [x] ∧ x ∈ ['b', 'B', 'o', 'O', 'x', 'X']
    · -- a prefix without a number
      obtain ⟨x, rfl, hx⟩ := h2
      simp only [List.mem_cons, List.not_mem_nil, or_false] at hx
      have hxr : inRun false x = false := by
        rcases hx with rfl | rfl | rfl | rfl | rfl | rfl <;> rfl
      have hl : uintLoop 8 0 false [x] = none := by
        rcases hx with rfl | rfl | rfl | rfl | rfl | rfl <;> decide
      have : parseUint ['0', x] = none := by
        unfold parseUint
        rw [if_neg (by simp), hbase]
        simp only [hl]
      rw [this]
      simp only [reduceCtorEq, false_iff]
      rintro ⟨h, -⟩
      generalize hs : ['0', x] = s at h
      cases h with
      | zero => simp at hs
      | decimal h h' => exact absurd (List.cons.inj hs).1.symm h'
      | @octal u s' ds hu' hd hlt =>
        obtain ⟨-, hs⟩ := List.cons.inj hs
        have hxr' : inRun false x = true := by
          rcases hu' with rfl | rfl
          · exact (digits_run hd).1 x (by rw [List.nil_append] at hs; rw [← hs]; simp)
          · rw [(List.cons.inj hs).1]; rfl
        rw [hxr] at hxr'; simp at hxr'
      | @withPrefix x' base' hex' u s' ds hx' hu' hd hlt =>
        obtain ⟨rfl, hs2⟩ := List.cons.inj (List.cons.inj hs).2
        have := (digits_run hd).2.2.1
        have hs' := congrArg List.length hs2
        rw [List.length_nil, List.length_append] at hs'
        cases s' with
        | nil => exact this rfl
        | cons _ _ => simp at hs'
    · have hbp : basePrefix ('0' :: t) = none := by
        match t with
        | [] => rfl
        | x :: r =>
          have hx : x ∉ ['b', 'B', 'o', 'O', 'x', 'X'] := by
            cases r with
            | nil => exact fun hx => h2 ⟨x, rfl, hx⟩
            | cons c r => exact ht x c r rfl
          simp only [List.mem_cons, List.not_mem_nil, or_false, not_or] at hx
          simp [basePrefix, isLetter, hx]
      have hu : underscoreOK ('0' :: t) = underLoop false .digit t := by
        unfold underscoreOK
        rw [allRun_unsigned (hex := false) (by decide)]
        simp only [hbp]
        rw [underLoop, if_pos (by decide)]
      have hp : parseUint ('0' :: t) = body 8 false .digit t := by
        unfold parseUint body
        rw [if_neg (by simp), hbase, hu]
        rfl
      rw [hp, body_digit hf]
      constructor
      · rintro (⟨rfl, rfl⟩ | ⟨u, t', ds, rfl, hu', hd, hlt, rfl, h64⟩)
        · exact ⟨.zero, by decide⟩
        · exact ⟨.octal hu' hd hlt, h64⟩
      · rintro ⟨h, h64⟩
        generalize hs : '0' :: t = s at h
        cases h with
        | zero => exact .inl ⟨(List.cons.inj hs).2, rfl⟩
        | decimal h h' => exact absurd (List.cons.inj hs).1.symm h'
        | @octal u s' ds hu' hd hlt => exact .inr ⟨u, s', ds, (List.cons.inj hs).2, hu', hd, hlt, rfl, h64⟩
        | @withPrefix x' base' hex' u s' ds hx' hu' hd hlt =>
          obtain ⟨-, rfl⟩ := List.cons.inj hs
          exfalso
          have hne := (digits_run hd).2.2.1
          obtain ⟨c, r, e⟩ : ∃ c r, u ++ s' = c :: r := by
            cases h : u ++ s' with
            | nil => exact absurd (List.append_eq_nil_iff.1 h).2 hne
            | cons c r => exact ⟨c, r, rfl⟩
          have := ht x' c r (by rw [e])
          rcases hx' with ⟨rfl | rfl, -⟩ | ⟨rfl | rfl, -⟩ | ⟨rfl | rfl, -⟩ <;> simp at this
  · -- decimal
    cases s with
    | nil =>
      have : parseUint [] = none := rfl
      rw [this]
      simp only [reduceCtorEq, false_iff]
      rintro ⟨h, -⟩
      cases h
    | cons c t =>
      have h0 : c ≠ '0' := by simpa using h0
      have hbase : baseOf (c :: t) = (10, c :: t) := by
        unfold baseOf
        split
        · rename_i h; exact absurd (List.cons.inj h).1 h0
        · rename_i h; exact absurd (List.cons.inj h).1 h0
        · rfl
      have hbp : basePrefix (c :: t) = none := by
        unfold basePrefix
        split
        · rename_i h; exact absurd (List.cons.inj h).1 h0
        · rfl
      have hnat : Natural (c :: t) n ↔ ∃ ds, Digits false (c :: t) ds ∧ n = num 10 ds := by
        constructor
        · intro h
          generalize hs : c :: t = s at h
          cases h with
          | zero => exact absurd (List.cons.inj hs).1 h0
          | decimal h h' => exact ⟨_, h, rfl⟩
          | octal => exact absurd (List.cons.inj hs).1 h0
          | withPrefix => exact absurd (List.cons.inj hs).1 h0
        · rintro ⟨ds, h, rfl⟩; exact .decimal h h0
      rw [hnat]
      by_cases hr : inRun false c = true
      · have hu : underscoreOK (c :: t) = underLoop false .start (c :: t) := by
          unfold underscoreOK
          rw [allRun_unsigned hr]
          simp only [hbp]
        have hp : parseUint (c :: t) = body 10 false .start (c :: t) := by
          unfold parseUint body
          rw [if_neg (by simp), hbase, hu]
          rfl
        rw [hp, body_start _ _ (by simp)]
        constructor
        · rintro ⟨ds, h1, h2, h3⟩; exact ⟨⟨ds, h1, h2⟩, h3⟩
        · rintro ⟨⟨ds, h1, h2⟩, h3⟩; exact ⟨ds, h1, h2, h3⟩
      · have hl : uintLoop 10 0 false (c :: t) = none := by
          cases h : uintLoop 10 0 false (c :: t) with
          | none => rfl
          | some r =>
            have := ((uintLoop_iff (hex := false) (.inl ⟨rfl, by decide, by decide⟩) (c :: t) 0 false r.1 r.2 (by decide)).1 h).1
            exact absurd (this c (by simp)) hr
        have : parseUint (c :: t) = none := by
          unfold parseUint
          rw [if_neg (by simp), hbase]
          simp only [hl]
        rw [this]
        simp only [reduceCtorEq, false_iff]
        rintro ⟨⟨ds, h, -⟩, -⟩
        exact hr ((digits_run h).1 c (by simp))

theorem natural_unsigned {s : List Char} {n : Nat} (h : Natural s n) : Unsigned s := by
  cases h with
  | zero => exact unsigned_of (by decide) (by decide)
  | decimal h _ => exact unsigned_run (.inl ((digits_run h).1 _ (by simp)))
  | octal => exact unsigned_of (by decide) (by decide)
  | withPrefix => exact unsigned_of (by decide) (by decide)

theorem parseInt_iff (s : List Char) (n : Int) : parseInt s = some n ↔ Whole s n ∧ -2 ^ 63 ≤ n ∧ n < 2 ^ 63 := by
  constructor
  · intro h
    obtain ⟨sg, h1, h2⟩ := sign_spec' s
    unfold parseInt at h
    split at h
    · simp at h
    · rename_i m hm
      obtain ⟨hn, -⟩ := (parseUint_iff _ _).1 hm
      have key : n = sgn (Numbers.sign s).1 m ∧ -2 ^ 63 ≤ n ∧ n < 2 ^ 63 := by
        generalize (Numbers.sign s).1 = neg at h
        cases neg
        · rw [if_neg (by decide)] at h
          by_cases hm : 2 ^ 63 ≤ m
          · rw [if_pos hm] at h; cases h
          · rw [if_neg hm] at h
            cases h
            exact ⟨rfl, by omega, by omega⟩
        · rw [if_pos rfl] at h
          by_cases hm : 2 ^ 63 < m
          · rw [if_pos hm] at h; cases h
          · rw [if_neg hm] at h
            cases h
            exact ⟨rfl, by omega, by omega⟩
      exact ⟨⟨sg, (Numbers.sign s).1, (Numbers.sign s).2, m, h1, h2, hn, key.1⟩, key.2⟩
  · rintro ⟨⟨sg, neg, r, m, rfl, hsg, hn, rfl⟩, hlo, hhi⟩
    have hm : parseUint r = some m := by
      rw [parseUint_iff]
      refine ⟨hn, ?_⟩
      cases neg <;> simp [sgn] at hlo hhi <;> omega
    unfold parseInt
    rw [sign_of hsg (natural_unsigned hn)]
    simp only [hm]
    cases neg
    · simp only [sgn, Bool.false_eq_true, if_false] at hlo hhi ⊢
      rw [if_neg (by omega)]
    · simp only [sgn, if_true] at hlo hhi ⊢
      rw [if_neg (by omega)]

end MS.CommandLine
