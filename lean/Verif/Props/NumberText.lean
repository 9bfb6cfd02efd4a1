import Verif.Model.Numbers
/-!
# How numbers are written: the grammar behind property C118, and that the parser follows it
-/
set_option linter.unusedSimpArgs false
set_option exponentiation.threshold 2100
namespace MS.Numbers

/-! ## Specification -/

/-- A decimal (or, with `hex`, hexadecimal) digit and its value. -/
def Digit (hex : Bool) (c : Char) (d : Nat) : Prop :=
  ('0' ≤ c ∧ c ≤ '9' ∧ d + '0'.toNat = c.toNat) ∨
    hex = true ∧ (('a' ≤ c ∧ c ≤ 'f' ∧ d + 'a'.toNat = c.toNat + 10) ∨ ('A' ≤ c ∧ c ≤ 'F' ∧ d + 'A'.toNat = c.toNat + 10))

/-- Digits, between two of which there may be an underscore. -/
inductive Digits (hex : Bool) : List Char → List Nat → Prop where
  | last {c d} : Digit hex c d → Digits hex [c] [d]
  | next {c d s ds} : Digit hex c d → Digits hex s ds → Digits hex (c :: s) (d :: ds)
  | separated {c d s ds} : Digit hex c d → Digits hex s ds → Digits hex (c :: '_' :: s) (d :: ds)

/-- Digits with at most one point; the digits before and after it. -/
inductive Mantissa (hex : Bool) : List Char → List Nat → List Nat → Prop where
  | whole {s i} : Digits hex s i → Mantissa hex s i []
  | pointed {s i} : Digits hex s i → Mantissa hex (s ++ ['.']) i []
  | fraction {s f} : Digits hex s f → Mantissa hex ('.' :: s) [] f
  | both {s t i f} : Digits hex s i → Digits hex t f → Mantissa hex (s ++ '.' :: t) i f

/-- Nothing, `+` or `-`. -/
def Sign (s : List Char) (neg : Bool) : Prop := (s = [] ∧ neg = false) ∨ (s = ['+'] ∧ neg = false) ∨ (s = ['-'] ∧ neg = true)

/-- The number that digits denote. -/
def num (base : Nat) (ds : List Nat) : Nat := ds.foldl (fun v d => v * base + d) 0

/-- Minus `n` or `n`. -/
def sgn (neg : Bool) (n : Nat) : Int := if neg then -(n : Int) else n

/-- `s` is a number: minus (if `neg`) `n * base ^ e`. Decimal numbers with or without an exponent; hexadecimal ones with an
exponent, which is one of 2. -/
inductive Numeral : List Char → Bool → Nat → Nat → Int → Prop where
  | decimal {sg neg m i f} : Sign sg neg → Mantissa false m i f →
      Numeral (sg ++ m) neg (num 10 (i ++ f)) 10 (-(f.length : Int))
  | scientific {sg neg m i f c es en x ds} : Sign sg neg → Mantissa false m i f → (c = 'e' ∨ c = 'E') → Sign es en →
      Digits false x ds → Numeral (sg ++ (m ++ c :: (es ++ x))) neg (num 10 (i ++ f)) 10 (sgn en (num 10 ds) - f.length)
  | hexadecimal {sg neg x0 u m i f c es en x ds} : Sign sg neg → (x0 = 'x' ∨ x0 = 'X') → (u = [] ∨ u = ['_'] ∧ i ≠ []) →
      Mantissa true m i f → (c = 'p' ∨ c = 'P') → Sign es en → Digits false x ds →
      Numeral (sg ++ '0' :: x0 :: (u ++ (m ++ c :: (es ++ x)))) neg (num 16 (i ++ f)) 2 (sgn en (num 10 ds) - 4 * f.length)

/-! ## Digits -/

theorem isDec_iff' (c : Char) : isDec c = true ↔ '0' ≤ c ∧ c ≤ '9' := by
  unfold isDec
  rw [decide_eq_true_iff]
  exact Iff.rfl

theorem digit_iff (hex : Bool) (c : Char) (d : Nat) : Digit hex c d ↔ digitVal hex c = some d := by
  have l : ∀ a b : Char, a ≤ b ↔ a.toNat ≤ b.toNat := fun a b => Iff.rfl
  unfold Digit digitVal isDec
  simp only [l, show '0'.toNat = 48 from rfl, show '9'.toNat = 57 from rfl, show 'a'.toNat = 97 from rfl,
    show 'f'.toNat = 102 from rfl, show 'A'.toNat = 65 from rfl, show 'F'.toNat = 70 from rfl, decide_eq_true_eq,
    Bool.and_eq_true]
  by_cases h1 : 48 ≤ c.toNat ∧ c.toNat ≤ 57
  · rw [if_pos h1, Option.some.injEq]; omega
  · rw [if_neg h1]
    cases hex
    · simp; omega
    · by_cases h2 : 97 ≤ c.toNat ∧ c.toNat ≤ 102
      · rw [if_pos ⟨rfl, h2⟩, Option.some.injEq]; simp; omega
      · rw [if_neg (by simp only [true_and]; exact h2)]
        by_cases h3 : 65 ≤ c.toNat ∧ c.toNat ≤ 70
        · rw [if_pos ⟨rfl, h3⟩, Option.some.injEq]; simp; omega
        · rw [if_neg (by simp only [true_and]; exact h3)]; simp; omega

/-- a digit or an underscore -/
def inRun (hex : Bool) (c : Char) : Bool := c == '_' || (digitVal hex c).isSome

/-- only digits and underscores -/
def AllRun (hex : Bool) (a : List Char) : Prop := ∀ c ∈ a, inRun hex c = true

/-- the digits of a text -/
def digs (hex : Bool) (a : List Char) : List Nat := a.filterMap (digitVal hex)

/-- a text that does not go on with a digit or an underscore -/
def Stops (hex : Bool) (r : List Char) : Prop := ∀ c, r.head? = some c → inRun hex c = false

theorem under_no_digit (hex : Bool) : digitVal hex '_' = none := by cases hex <;> rfl
theorem dot_no_digit (hex : Bool) : digitVal hex '.' = none := by cases hex <;> rfl

theorem digits_run {hex : Bool} {s : List Char} {ds : List Nat} (h : Digits hex s ds) :
    AllRun hex s ∧ digs hex s = ds ∧ s ≠ [] ∧ ds ≠ [] := by
  induction h with
  | last h =>
    rw [digit_iff] at h
    refine ⟨?_, by simp [digs, h], by simp, by simp⟩
    intro c hc; rw [List.mem_singleton.1 hc]; simp [inRun, h]
  | next h _ ih =>
    rw [digit_iff] at h
    obtain ⟨h1, h2, -⟩ := ih
    refine ⟨?_, by simp only [digs, List.filterMap_cons, h] at h2 ⊢; rw [h2], by simp, by simp⟩
    intro c hc
    rcases List.mem_cons.1 hc with rfl | hc
    · simp [inRun, h]
    · exact h1 c hc
  | separated h _ ih =>
    rw [digit_iff] at h
    obtain ⟨h1, h2, -⟩ := ih
    refine ⟨?_, by simp only [digs, List.filterMap_cons, h, under_no_digit] at h2 ⊢; rw [h2], by simp, by simp⟩
    intro c hc
    rcases List.mem_cons.1 hc with rfl | hc
    · simp [inRun, h]
    · rcases List.mem_cons.1 hc with rfl | hc
      · rfl
      · exact h1 c hc

/-- the number denoted by digits after the number `v` -/
def numFrom (base v : Nat) (ds : List Nat) : Nat := ds.foldl (fun v d => v * base + d) v

/-! ## The mantissa -/

theorem mant_run (hex : Bool) (a : List Char) (h : AllRun hex a) : ∀ (m : Mant) (r : List Char), (m.nd = 0 → m.value = 0) →
    ∃ m', mantissa hex m (a ++ r) = mantissa hex m' r ∧ m'.sawdot = m.sawdot ∧
      m'.sawdigits = (m.sawdigits || !(digs hex a).isEmpty) ∧ m'.dp - m'.nd = m.dp - m.nd - (digs hex a).length ∧
      m'.value = numFrom (if hex then 16 else 10) m.value (digs hex a) ∧
      m'.underscores = (m.underscores || a.contains '_') ∧ (m'.nd = 0 → m'.value = 0) := by
  induction a with
  | nil => intro m r hm; exact ⟨m, rfl, rfl, by simp [digs], by simp [digs], rfl, by simp, hm⟩
  | cons c cs ih =>
    intro m r hm
    have hcs : AllRun hex cs := fun d hd => h d (List.mem_cons_of_mem _ hd)
    have hc := h c (List.mem_cons_self ..)
    rw [List.cons_append, mantissa]
    by_cases h1 : c = '_'
    · subst h1
      rw [if_pos rfl]
      obtain ⟨m', e1, e2, e3, e4, e5, e6, e7⟩ := ih hcs { m with underscores := true } r hm
      have hd : digs hex ('_' :: cs) = digs hex cs := by simp only [digs, List.filterMap_cons, under_no_digit]
      exact ⟨m', e1, e2, by rw [hd]; exact e3, by rw [hd]; exact e4, by rw [hd]; exact e5, by rw [e6]; simp, e7⟩
    · rw [if_neg h1]
      have h2 : c ≠ '.' := by
        rintro rfl
        rw [inRun, dot_no_digit] at hc
        exact absurd hc (by decide)
      rw [if_neg h2]
      unfold inRun at hc
      cases hd : digitVal hex c with
      | none => rw [hd] at hc; simp [h1] at hc
      | some d =>
        have hds : digs hex (c :: cs) = d :: digs hex cs := by simp only [digs, List.filterMap_cons, hd]
        have hcc : (c :: cs).contains '_' = cs.contains '_' := by
          rw [List.contains_cons, show ('_' == c) = false by simpa using fun h => h1 h.symm]; rfl
        simp only
        by_cases h3 : c = '0' ∧ m.nd = 0
        · rw [if_pos h3]
          obtain ⟨m', e1, e2, e3, e4, e5, e6, e7⟩ := ih hcs { m with sawdigits := true, dp := m.dp - 1 } r hm
          have d0 : d = 0 := by
            rw [h3.1] at hd
            have : digitVal hex '0' = some 0 := by cases hex <;> rfl
            rw [this] at hd; exact (Option.some.inj hd).symm
          refine ⟨m', e1, e2, by rw [e3, hds]; simp, by rw [e4, hds]; simp; omega, ?_, by rw [e6, hcc], e7⟩
          rw [e5, hds, d0, hm h3.2]
          simp [numFrom]
        · rw [if_neg h3]
          obtain ⟨m', e1, e2, e3, e4, e5, e6, e7⟩ := ih hcs { m with sawdigits := true, nd := m.nd + 1, value := m.value * (if hex then 16 else 10) + d } r (by simp)
          refine ⟨m', e1, e2, by rw [e3, hds]; simp, by rw [e4, hds]; simp; omega, ?_, by rw [e6, hcc], e7⟩
          rw [e5, hds]; rfl

theorem mant_stop (hex : Bool) (m : Mant) (r : List Char) (h : Stops hex r) (hd : r.head? = some '.' → m.sawdot = true) :
    mantissa hex m r = (m, r) := by
  cases r with
  | nil => rfl
  | cons c cs =>
    have hc := h c rfl
    unfold inRun at hc
    rw [Bool.or_eq_false_iff] at hc
    rw [mantissa, if_neg (by simpa using hc.1)]
    by_cases h2 : c = '.'
    · rw [if_pos h2, if_pos (hd (by rw [h2]; rfl))]
    · rw [if_neg h2]
      cases hx : digitVal hex c with
      | none => rfl
      | some d => rw [hx] at hc; simp at hc

/-- what is left for the exponent: nothing of the mantissa -/
def Tail (hex : Bool) (r : List Char) : Prop := Stops hex r ∧ r.head? ≠ some '.'

theorem mant_whole {hex : Bool} {a r : List Char} (ha : AllRun hex a) (hr : Tail hex r) :
    ∃ m, mantissa hex {} (a ++ r) = (m, r) ∧ m.sawdigits = !(digs hex a).isEmpty ∧
      m.value = num (if hex then 16 else 10) (digs hex a) ∧ m.underscores = a.contains '_' ∧
      (if m.sawdot then m.dp else (m.nd : Int)) - m.nd = 0 := by
  obtain ⟨m, e1, e2, e3, e4, e5, e6, e7⟩ := mant_run hex a ha {} r (fun _ => rfl)
  rw [mant_stop hex m r hr.1 (fun h => absurd h hr.2)] at e1
  refine ⟨m, e1, by rw [e3]; rfl, by rw [e5]; rfl, by rw [e6]; rfl, ?_⟩
  rw [e2, if_neg (by simp)]; omega

theorem mant_point {hex : Bool} {a b r : List Char} (ha : AllRun hex a) (hb : AllRun hex b) (hr : Stops hex r) :
    ∃ m, mantissa hex {} (a ++ '.' :: (b ++ r)) = (m, r) ∧ m.sawdigits = !(digs hex a ++ digs hex b).isEmpty ∧
      m.value = num (if hex then 16 else 10) (digs hex a ++ digs hex b) ∧
      m.underscores = (a.contains '_' || b.contains '_') ∧
      (if m.sawdot then m.dp else (m.nd : Int)) - m.nd = -((digs hex b).length : Int) := by
  obtain ⟨m, e1, e2, e3, e4, e5, e6, e7⟩ := mant_run hex a ha {} ('.' :: (b ++ r)) (fun _ => rfl)
  rw [mantissa, if_neg (by decide), if_pos rfl, e2, if_neg (by simp)] at e1
  obtain ⟨m', f1, f2, f3, f4, f5, f6, f7⟩ := mant_run hex b hb { m with sawdot := true, dp := m.nd } r e7
  rw [mant_stop hex m' r hr (fun _ => f2)] at f1
  refine ⟨m', e1.trans f1, ?_, ?_, ?_, ?_⟩
  · rw [f3]; simp only; rw [e3]; cases digs hex a <;> cases digs hex b <;> simp
  · rw [f5]; simp only; rw [e5]; simp only [numFrom, num, List.foldl_append]
  · rw [f6]; simp only; rw [e6]; simp
  · rw [f2, if_pos rfl, f4]; simp

/-! ## Underscores -/

theorem under_split (hex : Bool) (a r : List Char) (c : Char) (ha : AllRun hex a) (hc : inRun hex c = false) :
    ∀ saw, underLoop hex saw (a ++ c :: r) = (underLoop hex saw a && underLoop hex .other r) := by
  induction a with
  | nil =>
    intro saw
    unfold inRun at hc
    rw [Bool.or_eq_false_iff] at hc
    rw [List.nil_append, underLoop, underLoop, if_neg (by rw [hc.2]; simp), if_neg (by simpa using hc.1)]
    by_cases hs : saw = .under <;> simp [hs]
  | cons x xs ih =>
    intro saw
    have hxs : AllRun hex xs := fun d hd => ha d (List.mem_cons_of_mem _ hd)
    have hx := ha x (List.mem_cons_self ..)
    rw [List.cons_append, underLoop, underLoop]
    by_cases h1 : (digitVal hex x).isSome = true
    · rw [if_pos h1, if_pos h1]; exact ih hxs _
    · rw [if_neg h1, if_neg h1]
      have h2 : x = '_' := by unfold inRun at hx; simpa [h1] using hx
      rw [if_pos h2, if_pos h2]
      by_cases hs : saw = .digit
      · rw [if_pos hs, if_pos hs]; exact ih hxs _
      · rw [if_neg hs, if_neg hs]; rfl

theorem digits_cons_iff (hex : Bool) (c : Char) (s : List Char) (d : Nat) (hd : digitVal hex c = some d) :
    (∃ ds, Digits hex (c :: s) ds) ↔ s = [] ∨ (∃ ds, Digits hex s ds) ∨ ∃ s' ds, s = '_' :: s' ∧ Digits hex s' ds := by
  rw [← digit_iff] at hd
  constructor
  · rintro ⟨ds, h⟩
    cases h with
    | last _ => exact .inl rfl
    | next _ h => exact .inr (.inl ⟨_, h⟩)
    | separated _ h => exact .inr (.inr ⟨_, _, rfl, h⟩)
  · rintro (rfl | ⟨ds, h⟩ | ⟨s', ds, rfl, h⟩)
    · exact ⟨_, .last hd⟩
    · exact ⟨_, .next hd h⟩
    · exact ⟨_, .separated hd h⟩

theorem digits_under (hex : Bool) (s : List Char) (ds : List Nat) : ¬ Digits hex ('_' :: s) ds := by
  intro h
  cases h with
  | last h => rw [digit_iff, under_no_digit] at h; cases h
  | next h _ => rw [digit_iff, under_no_digit] at h; cases h
  | separated h _ => rw [digit_iff, under_no_digit] at h; cases h

theorem digits_nil (hex : Bool) (ds : List Nat) : ¬ Digits hex [] ds := by intro h; cases h

theorem under_run (hex : Bool) (a : List Char) (ha : AllRun hex a) :
    (underLoop hex .digit a = true ↔ a = [] ∨ (∃ ds, Digits hex a ds) ∨ ∃ s ds, a = '_' :: s ∧ Digits hex s ds) ∧
    (underLoop hex .under a = true ↔ ∃ ds, Digits hex a ds) ∧
    (∀ saw, saw = .start ∨ saw = .other → (underLoop hex saw a = true ↔ a = [] ∨ ∃ ds, Digits hex a ds)) := by
  induction a with
  | nil =>
    refine ⟨by simp [underLoop], ?_, ?_⟩
    · simp [underLoop, digits_nil]
    · rintro saw (rfl | rfl) <;> simp [underLoop]
  | cons c cs ih =>
    have hcs : AllRun hex cs := fun d hd => ha d (List.mem_cons_of_mem _ hd)
    obtain ⟨i1, i2, -⟩ := ih hcs
    have hc := ha c (List.mem_cons_self ..)
    by_cases h1 : (digitVal hex c).isSome = true
    · obtain ⟨d, hd⟩ := Option.isSome_iff_exists.1 h1
      have hu : c ≠ '_' := by rintro rfl; rw [under_no_digit] at hd; cases hd
      have key := digits_cons_iff hex c cs d hd
      refine ⟨?_, ?_, fun saw hsaw => ?_⟩
      · rw [underLoop, if_pos h1, i1, ← key]
        constructor
        · exact fun h => .inr (.inl h)
        · rintro (h | h | ⟨s, ds, h, -⟩)
          · cases h
          · exact h
          · injection h with h; exact absurd h hu
      · rw [underLoop, if_pos h1, i1, ← key]
      · rw [underLoop, if_pos h1, i1, ← key]; simp
    · have h2 : c = '_' := by unfold inRun at hc; simpa [h1] using hc
      subst h2
      refine ⟨?_, ?_, fun saw hsaw => ?_⟩
      · rw [underLoop, if_neg h1, if_pos rfl, if_pos rfl, i2]
        constructor
        · rintro ⟨ds, h⟩; exact .inr (.inr ⟨_, ds, rfl, h⟩)
        · rintro (h | ⟨ds, h⟩ | ⟨s, ds, h, h'⟩)
          · cases h
          · exact absurd h (digits_under hex cs ds)
          · injection h with _ h; subst h; exact ⟨ds, h'⟩
      · rw [underLoop, if_neg h1, if_pos rfl, if_neg (by simp)]
        simp [digits_under]
      · rw [underLoop, if_neg h1, if_pos rfl, if_neg (by rcases hsaw with rfl | rfl <;> simp)]
        simp [digits_under]

theorem under_free (hex : Bool) (a : List Char) (ha : AllRun hex a) (hu : a.contains '_' = false) :
    ∀ saw, saw ≠ .under → underLoop hex saw a = true := by
  induction a with
  | nil => intro saw hs; simp [underLoop, hs]
  | cons c cs ih =>
    intro saw hs
    rw [List.contains_cons, Bool.or_eq_false_iff] at hu
    have hc := ha c (List.mem_cons_self ..)
    have hne : ¬ c = '_' := by intro h; rw [h] at hu; simp at hu
    have h1 : (digitVal hex c).isSome = true := by unfold inRun at hc; simpa [hne] using hc
    rw [underLoop, if_pos h1]
    exact ih (fun d hd => ha d (List.mem_cons_of_mem _ hd)) hu.2 _ (by simp)

theorem inRun_false {c : Char} (h : inRun false c = true) : inRun true c = true := by
  unfold inRun digitVal at *
  by_cases h1 : isDec c = true
  · simp [h1]
  · simp [h1] at h; simp [h]

theorem isSome_hex {c : Char} (h : inRun false c = true) : (digitVal true c).isSome = (digitVal false c).isSome := by
  unfold inRun digitVal at *
  by_cases h1 : isDec c = true
  · simp [h1]
  · simp [h1] at h
    subst h
    rfl

theorem under_hex (x : List Char) (hx : AllRun false x) : ∀ hex saw, underLoop hex saw x = underLoop false saw x := by
  intro hex
  cases hex
  · intro saw; rfl
  induction x with
  | nil => intro saw; rfl
  | cons c cs ih =>
    intro saw
    have hcs : AllRun false cs := fun d hd => hx d (List.mem_cons_of_mem _ hd)
    rw [underLoop, underLoop, isSome_hex (hx c (List.mem_cons_self ..)), ih hcs, ih hcs, ih hcs]

/-! ## Exponents -/

/-- the exponent the parser computes from digits: it stops at 10000 -/
def clipped (ds : List Nat) : Nat := ds.foldl (fun e d => if e < 10000 then e * 10 + d else e) 0

theorem exp_run (x r : List Char) (hx : AllRun false x) (hr : Stops false r) : ∀ (e : Nat) (u : Bool),
    expDigits e u (x ++ r) =
      ((digs false x).foldl (fun e d => if e < 10000 then e * 10 + d else e) e, u || x.contains '_', r) := by
  induction x with
  | nil =>
    intro e u
    cases r with
    | nil => simp [expDigits, digs]
    | cons c cs =>
      have hc := hr c rfl
      unfold inRun digitVal at hc
      rw [Bool.or_eq_false_iff] at hc
      have h1 : isDec c = false := by
        cases h : isDec c with
        | false => rfl
        | true => rw [h] at hc; simp at hc
      rw [List.nil_append, expDigits, if_neg (by simp [h1]), if_neg (by simpa using hc.1)]
      simp [digs]
  | cons c cs ih =>
    intro e u
    have hcs : AllRun false cs := fun d hd => hx d (List.mem_cons_of_mem _ hd)
    have hc := hx c (List.mem_cons_self ..)
    rw [List.cons_append, expDigits]
    by_cases h1 : isDec c = true
    · have hd : digitVal false c = some (c.toNat - 48) := by simp [digitVal, h1]
      have hu : ('_' == c) = false := by
        have : c ≠ '_' := by rintro rfl; exact absurd h1 (by decide)
        simpa using fun h => this h.symm
      rw [if_pos h1, ih hcs, List.contains_cons, hu]
      simp [digs, hd]
    · have h2 : c = '_' := by unfold inRun digitVal at hc; simpa [h1] using hc
      subst h2
      rw [if_neg h1, if_pos rfl, ih hcs]
      simp [digs, under_no_digit]

/-- the letter before an exponent -/
def expLetter (hex : Bool) (c : Char) : Prop := if hex then c = 'p' ∨ c = 'P' else c = 'e' ∨ c = 'E'

theorem expLetter_iff (hex : Bool) (c : Char) :
    (if hex then isLetter 'p' 'P' c else isLetter 'e' 'E' c) = true ↔ expLetter hex c := by
  unfold expLetter isLetter
  cases hex <;> simp

theorem expLetter_stop {hex : Bool} {c : Char} (h : expLetter hex c) : inRun hex c = false ∧ c ≠ '.' := by
  unfold expLetter at h
  cases hex <;> simp at h <;> rcases h with rfl | rfl <;> exact ⟨by decide, by decide⟩

theorem sign_spec' (s : List Char) : ∃ sg, s = sg ++ (sign s).2 ∧ Sign sg (sign s).1 := by
  unfold sign
  split
  · exact ⟨['-'], rfl, .inr (.inr ⟨rfl, rfl⟩)⟩
  · exact ⟨['+'], rfl, .inr (.inl ⟨rfl, rfl⟩)⟩
  · exact ⟨[], rfl, .inl ⟨rfl, rfl⟩⟩

/-- a text that does not begin with a sign -/
def Unsigned (s : List Char) : Prop := s.head? ≠ some '-' ∧ s.head? ≠ some '+'

theorem sign_of {sg s : List Char} {neg : Bool} (h : Sign sg neg) (hs : Unsigned s) : sign (sg ++ s) = (neg, s) := by
  rcases h with ⟨rfl, rfl⟩ | ⟨rfl, rfl⟩ | ⟨rfl, rfl⟩
  · rw [List.nil_append]
    unfold sign
    split
    · exact absurd rfl hs.1
    · exact absurd rfl hs.2
    · rfl
  · rfl
  · rfl

theorem unsigned_of {c : Char} {s : List Char} (h1 : c ≠ '-') (h2 : c ≠ '+') : Unsigned (c :: s) :=
  ⟨by simpa using h1, by simpa using h2⟩

theorem unsigned_run {hex : Bool} {c : Char} {s : List Char} (h : inRun hex c = true ∨ c = '.') : Unsigned (c :: s) := by
  apply unsigned_of
  · rintro rfl; cases hex <;> rcases h with h | h <;> revert h <;> decide
  · rintro rfl; cases hex <;> rcases h with h | h <;> revert h <;> decide

/-- An exponent up to the places of underscores: text, its digits, its sign. -/
inductive Loose (hex : Bool) : List Char → List Char → Option Bool → Prop where
  | none : hex = false → Loose hex [] [] none
  | some {c es en x d} : expLetter hex c → Sign es en → AllRun false x → x.head? = some d → isDec d = true →
      Loose hex (c :: (es ++ x)) x (some en)

/-- the exponent computed -/
def expOf (v : List Nat → Nat) (o : Option Bool) (ds : List Nat) : Int :=
  match o with
  | none => 0
  | some en => sgn en (v ds)

theorem stops_nil (hex : Bool) : Stops hex [] := by intro c h; cases h

theorem exponent_iff (hex : Bool) (R : List Char) (e : Int) (u : Bool) :
    exponent hex R = some (e, u, []) ↔ ∃ x o, Loose hex R x o ∧ e = expOf clipped o (digs false x) ∧ u = x.contains '_' := by
  constructor
  · intro h
    cases R with
    | nil =>
      unfold exponent at h
      cases hex
      · simp at h
        exact ⟨[], none, .none rfl, h.1.symm, h.2.symm ▸ rfl⟩
      · simp at h
    | cons c cs =>
      unfold exponent at h
      simp only at h
      by_cases hc : (if hex then isLetter 'p' 'P' c else isLetter 'e' 'E' c) = true
      · rw [if_pos hc] at h
        obtain ⟨sg, h1, h2⟩ := sign_spec' cs
        generalize hsg : sign cs = q at *
        obtain ⟨neg, ds⟩ := q
        simp only at *
        cases ds with
        | nil => simp at h
        | cons d rest =>
          simp only at h
          by_cases hd : isDec d = true
          · rw [if_pos hd] at h
            -- split what follows
            have hsplit := (List.takeWhile_append_dropWhile (p := inRun false) (l := d :: rest)).symm
            have hrun : AllRun false ((d :: rest).takeWhile (inRun false)) := fun c hc => (List.all_eq_true.1 (List.all_takeWhile (l := d :: rest) (p := inRun false))) c hc
            have hstop : Stops false ((d :: rest).dropWhile (inRun false)) := by
              intro c hc
              have := List.head?_dropWhile_not (p := inRun false) (l := d :: rest)
              rw [hc] at this
              simpa using this
            have hex' := exp_run _ _ hrun hstop 0 false
            rw [← hsplit] at hex'
            rw [hex'] at h
            simp only [Option.some.injEq, Prod.mk.injEq] at h
            obtain ⟨he, hu, hl⟩ := h
            rw [hl, List.append_nil] at hsplit
            rw [← hsplit] at he hu hrun
            refine ⟨d :: rest, some neg, ?_, ?_, ?_⟩
            · rw [h1]
              exact .some ((expLetter_iff hex c).1 hc) h2 hrun rfl hd
            · rw [← he]; rfl
            · rw [← hu]; simp
          · rw [if_neg hd] at h; cases h
      · rw [if_neg hc] at h
        cases hex <;> simp at h
  · rintro ⟨x, o, h, rfl, rfl⟩
    cases h with
    | none h => subst h; rfl
    | @some c es en x d h1 h2 h3 h4 h5 =>
      cases x with
      | nil => cases h4
      | cons d' rest =>
        injection h4 with h4
        subst h4
        have hs : sign (es ++ d' :: rest) = (en, d' :: rest) :=
          sign_of h2 (unsigned_run (.inl (h3 d' (List.mem_cons_self ..))))
        unfold exponent
        simp only
        rw [if_pos ((expLetter_iff hex c).2 h1), hs]
        simp only
        rw [if_pos h5]
        have := exp_run (d' :: rest) [] h3 (stops_nil false) 0 false
        rw [List.append_nil] at this
        rw [this]
        simp [expOf, sgn, clipped]

theorem loose_tail {hex : Bool} {R x : List Char} {o : Option Bool} (h : Loose hex R x o) : Tail hex R := by
  cases h with
  | none _ => exact ⟨stops_nil hex, by simp⟩
  | some h _ _ _ _ =>
    obtain ⟨h1, h2⟩ := expLetter_stop h
    exact ⟨by intro c hc; injection hc with hc; subst hc; exact h1, by simpa using h2⟩

theorem loose_run {hex : Bool} {R x : List Char} {o : Option Bool} (h : Loose hex R x o) : AllRun false x := by
  cases h with
  | none _ => intro c hc; cases hc
  | some _ _ h _ _ => exact h

theorem under_sign {hex : Bool} {es x : List Char} {en : Bool} (h : Sign es en) :
    underLoop hex .other (es ++ x) = underLoop hex .other x := by
  rcases h with ⟨rfl, -⟩ | ⟨rfl, -⟩ | ⟨rfl, -⟩
  · rfl
  · rw [List.singleton_append, underLoop, if_neg (by cases hex <;> decide), if_neg (by decide), if_neg (by decide)]
  · rw [List.singleton_append, underLoop, if_neg (by cases hex <;> decide), if_neg (by decide), if_neg (by decide)]

theorem loose_under {hex : Bool} {R x a : List Char} {o : Option Bool} (h : Loose hex R x o) (ha : AllRun hex a) (saw : Saw) :
    underLoop hex saw (a ++ R) = (underLoop hex saw a && underLoop false .other x) := by
  cases h with
  | none _ => rw [List.append_nil]; simp [underLoop]
  | some h1 h2 h3 _ _ =>
    rw [under_split hex a _ _ ha (expLetter_stop h1).1, under_sign h2, under_hex x h3]

/-! ## Mantissa and exponent -/

/-- what `readFloat` does after sign and prefix, in one function: digits, exponent, number of places after the point -/
def core (hex : Bool) (saw : Saw) (t : List Char) : Option (Nat × Int × Int) :=
  let (m, rest) := mantissa hex {} t
  if !m.sawdigits then none
  else
    match exponent hex rest with
    | none => none
    | some (e, u, left) =>
      if left ≠ [] then none
      else if (m.underscores || u) && !underLoop hex saw t then none
      else some (m.value, e, (if m.sawdot then m.dp else m.nd) - m.nd)

/-- a text of the right form -/
def Form (hex : Bool) (saw : Saw) (t : List Char) (i f : List Nat) (o : Option Bool) (ds : List Nat) : Prop :=
  ∃ R x, Loose hex R x o ∧ underLoop false .other x = true ∧ ds = digs false x ∧ i ++ f ≠ [] ∧
    ((∃ a, t = a ++ R ∧ AllRun hex a ∧ underLoop hex saw a = true ∧ i = digs hex a ∧ f = []) ∨
      ∃ a b, t = a ++ '.' :: (b ++ R) ∧ AllRun hex a ∧ AllRun hex b ∧ underLoop hex saw a = true ∧
        underLoop hex .other b = true ∧ i = digs hex a ∧ f = digs hex b)

theorem under_whole {hex : Bool} {R x a : List Char} {o : Option Bool} (h : Loose hex R x o) (ha : AllRun hex a) (saw : Saw)
    (hs : saw ≠ .under) :
    ((a.contains '_' || x.contains '_') && !underLoop hex saw (a ++ R)) = !(underLoop hex saw a && underLoop false .other x) := by
  rw [loose_under h ha]
  cases h1 : a.contains '_' with
  | true => simp
  | false =>
    cases h2 : x.contains '_' with
    | true => simp
    | false =>
      rw [under_free hex a ha h1 saw hs, under_free false x (loose_run h) h2 .other (by simp)]
      rfl

theorem under_point {hex : Bool} {R x a b : List Char} {o : Option Bool} (h : Loose hex R x o) (ha : AllRun hex a)
    (hb : AllRun hex b) (saw : Saw) (hs : saw ≠ .under) :
    (((a.contains '_' || b.contains '_') || x.contains '_') && !underLoop hex saw (a ++ '.' :: (b ++ R))) =
      !(underLoop hex saw a && (underLoop hex .other b && underLoop false .other x)) := by
  rw [under_split hex a _ '.' ha (by cases hex <;> decide), loose_under h hb]
  cases h1 : a.contains '_' with
  | true => simp
  | false =>
    cases h2 : b.contains '_' with
    | true => simp
    | false =>
      cases h3 : x.contains '_' with
      | true => simp
      | false =>
        rw [under_free hex a ha h1 saw hs, under_free hex b hb h2 .other (by simp),
          under_free false x (loose_run h) h3 .other (by simp)]
        rfl

theorem isEmpty_false {α : Type} {l : List α} (h : l ≠ []) : l.isEmpty = false := by cases l <;> simp at h ⊢

theorem core_of_form {hex : Bool} {saw : Saw} {t : List Char} {i f : List Nat} {o : Option Bool} {ds : List Nat}
    (hs : saw ≠ .under) (h : Form hex saw t i f o ds) :
    core hex saw t = some (num (if hex then 16 else 10) (i ++ f), expOf clipped o ds, -(f.length : Int)) := by
  obtain ⟨R, x, hl, hx, rfl, hne, ⟨a, rfl, ha, hu, rfl, rfl⟩ | ⟨a, b, rfl, ha, hb, hu, hv, rfl, rfl⟩⟩ := h
  · obtain ⟨m, e1, e2, e3, e4, e5⟩ := mant_whole ha (loose_tail hl)
    rw [List.append_nil] at hne ⊢
    have he := (exponent_iff hex R _ _).2 ⟨x, o, hl, rfl, rfl⟩
    unfold core
    rw [e1]
    simp only
    rw [e2, isEmpty_false hne, he]
    simp only [Bool.not_false, Bool.not_true, Bool.false_eq_true, if_false, ne_eq, not_true_eq_false]
    rw [e4, under_whole hl ha saw hs, hu, hx, if_neg (by simp), e3, e5]
    rfl
  · obtain ⟨m, e1, e2, e3, e4, e5⟩ := mant_point ha hb (loose_tail hl).1
    have he := (exponent_iff hex R _ _).2 ⟨x, o, hl, rfl, rfl⟩
    unfold core
    rw [e1]
    simp only
    rw [e2, isEmpty_false hne, he]
    simp only [Bool.not_false, Bool.not_true, Bool.false_eq_true, if_false, ne_eq, not_true_eq_false]
    rw [e4, under_point hl ha hb saw hs, hu, hx, hv, if_neg (by simp), e3, e5]

theorem run_split (hex : Bool) (t : List Char) : ∃ a r, t = a ++ r ∧ AllRun hex a ∧ Stops hex r := by
  refine ⟨t.takeWhile (inRun hex), t.dropWhile (inRun hex), List.takeWhile_append_dropWhile.symm, ?_, ?_⟩
  · exact fun c hc => (List.all_eq_true.1 (List.all_takeWhile (l := t) (p := inRun hex))) c hc
  · intro c hc
    have := List.head?_dropWhile_not (p := inRun hex) (l := t)
    rw [hc] at this
    simpa using this

theorem form_of_core {hex : Bool} {saw : Saw} {t : List Char} (hs : saw ≠ .under) (h : (core hex saw t).isSome = true) :
    ∃ i f o ds, Form hex saw t i f o ds := by
  obtain ⟨a, r, rfl, ha, hr⟩ := run_split hex t
  by_cases hd : r.head? = some '.'
  · obtain ⟨r', rfl⟩ : ∃ r', r = '.' :: r' := by
      cases r with
      | nil => cases hd
      | cons c cs => injection hd with hd; subst hd; exact ⟨cs, rfl⟩
    obtain ⟨b, R, rfl, hb, hR⟩ := run_split hex r'
    obtain ⟨m, e1, e2, e3, e4, e5⟩ := mant_point ha hb hR
    unfold core at h
    rw [e1] at h
    simp only at h
    cases hg : m.sawdigits with
    | false => rw [hg] at h; simp at h
    | true =>
      rw [hg] at h
      simp only [Bool.not_true, Bool.false_eq_true, if_false] at h
      cases hx : exponent hex R with
      | none => rw [hx] at h; simp at h
      | some q =>
        obtain ⟨e, u, left⟩ := q
        rw [hx] at h
        simp only at h
        by_cases hleft : left = []
        · subst hleft
          obtain ⟨x, o, hl, -, hu⟩ := (exponent_iff hex R e u).1 hx
          rw [if_neg (by simp), e4, hu, under_point hl ha hb saw hs] at h
          cases hw : (underLoop hex saw a && (underLoop hex .other b && underLoop false .other x)) with
          | false => rw [hw] at h; simp at h
          | true =>
            simp only [Bool.and_eq_true] at hw
            refine ⟨_, _, o, _, R, x, hl, hw.2.2, rfl, ?_, .inr ⟨a, b, rfl, ha, hb, hw.1, hw.2.1, rfl, rfl⟩⟩
            intro hnil
            rw [hg, hnil] at e2
            simp at e2
        · rw [if_pos hleft] at h; simp at h
  · obtain ⟨m, e1, e2, e3, e4, e5⟩ := mant_whole ha ⟨hr, hd⟩
    unfold core at h
    rw [e1] at h
    simp only at h
    cases hg : m.sawdigits with
    | false => rw [hg] at h; simp at h
    | true =>
      rw [hg] at h
      simp only [Bool.not_true, Bool.false_eq_true, if_false] at h
      cases hx : exponent hex r with
      | none => rw [hx] at h; simp at h
      | some q =>
        obtain ⟨e, u, left⟩ := q
        rw [hx] at h
        simp only at h
        by_cases hleft : left = []
        · subst hleft
          obtain ⟨x, o, hl, -, hu⟩ := (exponent_iff hex r e u).1 hx
          rw [if_neg (by simp), e4, hu, under_whole hl ha saw hs] at h
          cases hw : (underLoop hex saw a && underLoop false .other x) with
          | false => rw [hw] at h; simp at h
          | true =>
            simp only [Bool.and_eq_true] at hw
            refine ⟨_, _, o, _, r, x, hl, hw.2, rfl, ?_, .inl ⟨a, rfl, ha, hw.1, rfl, rfl⟩⟩
            intro hnil
            rw [List.append_nil] at hnil
            rw [hg, hnil] at e2
            simp at e2
        · rw [if_pos hleft] at h; simp at h

/-! ## The whole text -/

theorem readFloat_hex {s body ds : List Char} {neg : Bool} (hs : sign s = (neg, body)) (hh : hexPrefix body = some ds) :
    readFloat s = (core true .digit ds).map fun r => (neg, r.1, 2, if r.1 = 0 then 0 else r.2.1 + 4 * r.2.2) := by
  have hb : basePrefix body = some (true, ds) := by
    unfold hexPrefix at hh
    split at hh
    · split at hh
      · injection hh with hh
        rename_i h
        unfold basePrefix
        simp only
        rw [if_pos h, hh]
      · cases hh
    · cases hh
  have hu : underscoreOK s = underLoop true .digit ds := by
    unfold underscoreOK
    rw [hs]
    simp only [hb]
  unfold readFloat core
  rw [hs]
  simp only [hh]
  generalize mantissa true {} ds = q
  obtain ⟨m, rest⟩ := q
  simp only
  cases m.sawdigits with
  | false => rfl
  | true =>
    simp only [Bool.not_true, Bool.false_eq_true, if_false]
    cases exponent true rest with
    | none => rfl
    | some w =>
      obtain ⟨e, u, left⟩ := w
      simp only
      by_cases hl : left = []
      · subst hl
        simp only [ne_eq, not_true_eq_false, if_false]
        rw [hu]
        split
        · rfl
        · simp only [Option.map_some, if_true]
          congr 5
          omega
      · rw [if_pos hl, if_pos hl]; rfl

theorem base_reject {body : List Char} (h : hexPrefix body = none) (hb : basePrefix body ≠ none) :
    ∃ m c cs, mantissa false {} body = (m, c :: cs) ∧ exponent false (c :: cs) = some (0, false, c :: cs) := by
  unfold basePrefix at hb
  split at hb
  · rename_i c cs
    have hc : c = 'x' ∨ c = 'X' ∨ c = 'b' ∨ c = 'B' ∨ c = 'o' ∨ c = 'O' := by
      unfold isLetter at hb
      split at hb
      · rename_i h; simp at h; rcases h with h | h <;> simp [h]
      · split at hb
        · rename_i h; simp at h; rcases h with (h | h) | (h | h) <;> simp [h]
        · exact absurd rfl hb
    refine ⟨{ sawdigits := true, dp := -1 }, c, cs, ?_, ?_⟩
    · rcases hc with rfl | rfl | rfl | rfl | rfl | rfl <;> rfl
    · rcases hc with rfl | rfl | rfl | rfl | rfl | rfl <;> rfl
  · exact absurd rfl hb

theorem readFloat_dec {s body : List Char} {neg : Bool} (hs : sign s = (neg, body)) (hh : hexPrefix body = none) :
    readFloat s = (core false .start body).map fun r => (neg, r.1, 10, if r.1 = 0 then 0 else r.2.1 + r.2.2) := by
  by_cases hb : basePrefix body = none
  · have hu : underscoreOK s = underLoop false .start body := by
      unfold underscoreOK
      rw [hs]
      simp only [hb]
    unfold readFloat core
    rw [hs]
    simp only [hh]
    generalize mantissa false {} body = q
    obtain ⟨m, rest⟩ := q
    simp only
    cases m.sawdigits with
    | false => rfl
    | true =>
      simp only [Bool.not_true, Bool.false_eq_true, if_false]
      cases exponent false rest with
      | none => rfl
      | some w =>
        obtain ⟨e, u, left⟩ := w
        simp only
        by_cases hl : left = []
        · subst hl
          simp only [ne_eq, not_true_eq_false, if_false]
          rw [hu]
          split
          · rfl
          · simp only [Option.map_some, if_true]
            congr 5
            omega
        · rw [if_pos hl, if_pos hl]; rfl
  · obtain ⟨m, c, cs, h1, h2⟩ := base_reject hh hb
    unfold readFloat core
    rw [hs]
    simp only [hh, h1, h2]
    cases m.sawdigits <;> simp

/-! ## Forms and numerals -/

/-- digits, or nothing -/
def Opt (hex : Bool) (a : List Char) (i : List Nat) : Prop := (a = [] ∧ i = []) ∨ Digits hex a i

theorem digits_digs {hex : Bool} {a : List Char} (h : ∃ ds, Digits hex a ds) : Digits hex a (digs hex a) := by
  obtain ⟨ds, h⟩ := h
  rw [(digits_run h).2.1]
  exact h

theorem opt_of {hex : Bool} {a : List Char} {saw : Saw} (ha : AllRun hex a) (hs : saw = .start ∨ saw = .other)
    (h : underLoop hex saw a = true) : Opt hex a (digs hex a) := by
  rcases ((under_run hex a ha).2.2 saw hs).1 h with rfl | h
  · exact .inl ⟨rfl, rfl⟩
  · exact .inr (digits_digs h)

theorem of_opt {hex : Bool} {a : List Char} {i : List Nat} (h : Opt hex a i) :
    AllRun hex a ∧ digs hex a = i ∧ ∀ saw, saw ≠ .under → underLoop hex saw a = true := by
  rcases h with ⟨rfl, rfl⟩ | h
  · exact ⟨fun c hc => absurd hc (by simp), rfl, fun saw hs => by simp [underLoop, hs]⟩
  · obtain ⟨h1, h2, -⟩ := digits_run h
    refine ⟨h1, h2, fun saw hs => ?_⟩
    obtain ⟨u1, u2, u3⟩ := under_run hex a h1
    cases saw with
    | start => exact (u3 _ (.inl rfl)).2 (.inr ⟨i, h⟩)
    | digit => exact u1.2 (.inr (.inl ⟨i, h⟩))
    | under => exact absurd rfl hs
    | other => exact (u3 _ (.inr rfl)).2 (.inr ⟨i, h⟩)

theorem mantissa_iff (hex : Bool) (m : List Char) (i f : List Nat) : Mantissa hex m i f ↔
    (Digits hex m i ∧ f = []) ∨ ∃ a b, m = a ++ '.' :: b ∧ Opt hex a i ∧ Opt hex b f ∧ i ++ f ≠ [] := by
  constructor
  · intro h
    cases h with
    | whole h => exact .inl ⟨h, rfl⟩
    | @pointed s _ h => exact .inr ⟨s, [], rfl, .inr h, .inl ⟨rfl, rfl⟩, by simpa using (digits_run h).2.2.2⟩
    | @fraction s _ h => exact .inr ⟨[], s, rfl, .inl ⟨rfl, rfl⟩, .inr h, by simpa using (digits_run h).2.2.2⟩
    | @both s t _ _ h1 h2 => exact .inr ⟨s, t, rfl, .inr h1, .inr h2, by simp [(digits_run h1).2.2.2]⟩
  · rintro (⟨h, rfl⟩ | ⟨a, b, rfl, ⟨rfl, rfl⟩ | ha, ⟨rfl, rfl⟩ | hb, hne⟩)
    · exact .whole h
    · exact absurd rfl hne
    · exact .fraction hb
    · exact .pointed ha
    · exact .both ha hb

/-- a properly written exponent -/
inductive Ex (hex : Bool) : List Char → Option Bool → List Nat → Prop where
  | none : hex = false → Ex hex [] none []
  | some {c es en x ds} : expLetter hex c → Sign es en → Digits false x ds → Ex hex (c :: (es ++ x)) (some en) ds

theorem ex_of {hex : Bool} {R x : List Char} {o : Option Bool} (h : Loose hex R x o) (hu : underLoop false .other x = true) :
    Ex hex R o (digs false x) := by
  cases h with
  | none h => exact .none h
  | some h1 h2 h3 h4 h5 =>
    refine .some h1 h2 ?_
    rcases opt_of h3 (.inr rfl) hu with ⟨rfl, -⟩ | h
    · cases h4
    · exact h

theorem dec_of {c : Char} {d : Nat} (h : digitVal false c = some d) : isDec c = true := by
  unfold digitVal at h
  cases hc : isDec c with
  | true => rfl
  | false => rw [hc] at h; simp at h

theorem of_ex {hex : Bool} {R : List Char} {o : Option Bool} {ds : List Nat} (h : Ex hex R o ds) :
    ∃ x, Loose hex R x o ∧ underLoop false .other x = true ∧ ds = digs false x := by
  cases h with
  | none h => exact ⟨[], .none h, rfl, rfl⟩
  | @some c es en x ds h1 h2 h3 =>
    obtain ⟨r1, r2, r3⟩ := of_opt (.inr h3 : Opt false x ds)
    refine ⟨x, ?_, r3 _ (by simp), r2.symm⟩
    cases h3 with
    | @last c d h => exact .some h1 h2 r1 rfl (by rw [digit_iff] at h; exact dec_of h)
    | @next c d s ds h _ => exact .some h1 h2 r1 rfl (by rw [digit_iff] at h; exact dec_of h)
    | @separated c d s ds h _ => exact .some h1 h2 r1 rfl (by rw [digit_iff] at h; exact dec_of h)

/-- after the sign: an optional underscore (behind a prefix), the mantissa, the exponent -/
def Written (hex : Bool) (t : List Char) (i f : List Nat) (o : Option Bool) (ds : List Nat) : Prop :=
  ∃ u m R, t = u ++ (m ++ R) ∧ (u = [] ∨ u = ['_'] ∧ hex = true ∧ i ≠ []) ∧ Mantissa hex m i f ∧ Ex hex R o ds

theorem form_iff {hex : Bool} {saw : Saw} (hs : saw = if hex then .digit else .start) (t : List Char) (i f : List Nat)
    (o : Option Bool) (ds : List Nat) : Form hex saw t i f o ds ↔ Written hex t i f o ds := by
  have hsu : saw ≠ .under := by subst hs; cases hex <;> simp
  -- the first digits
  have first : ∀ a, AllRun hex a → underLoop hex saw a = true →
      ∃ u a', a = u ++ a' ∧ (u = [] ∨ u = ['_'] ∧ hex = true ∧ digs hex a ≠ []) ∧ Opt hex a' (digs hex a) := by
    intro a ha hu
    cases hex with
    | false => subst hs; exact ⟨[], a, rfl, .inl rfl, opt_of ha (.inl rfl) hu⟩
    | true =>
      subst hs
      rcases (under_run true a ha).1.1 hu with rfl | h | ⟨s, d, rfl, h⟩
      · exact ⟨[], [], rfl, .inl rfl, .inl ⟨rfl, rfl⟩⟩
      · exact ⟨[], a, rfl, .inl rfl, .inr (digits_digs h)⟩
      · have e : digs true ('_' :: s) = digs true s := by simp [digs, under_no_digit]
        rw [e]
        refine ⟨['_'], s, rfl, .inr ⟨rfl, rfl, ?_⟩, .inr (digits_digs ⟨d, h⟩)⟩
        rw [(digits_run h).2.1]; exact (digits_run h).2.2.2
  have first' : ∀ u a i, (u = [] ∨ u = ['_'] ∧ hex = true ∧ i ≠ []) → Opt hex a i →
      AllRun hex (u ++ a) ∧ digs hex (u ++ a) = i ∧ underLoop hex saw (u ++ a) = true := by
    rintro u a i (rfl | ⟨rfl, rfl, hi⟩) h
    · obtain ⟨h1, h2, h3⟩ := of_opt h
      exact ⟨h1, h2, h3 saw hsu⟩
    · obtain ⟨h1, h2, -⟩ := of_opt h
      have hrun : AllRun true (['_'] ++ a) := by
        intro c hc
        rcases List.mem_cons.1 hc with rfl | hc
        · rfl
        · exact h1 c hc
      refine ⟨hrun, by rw [← h2]; simp [digs, under_no_digit], ?_⟩
      subst hs
      refine (under_run true _ hrun).1.2 (.inr (.inr ⟨a, i, rfl, ?_⟩))
      rcases h with ⟨-, rfl⟩ | h
      · exact absurd rfl hi
      · exact h
  constructor
  · rintro ⟨R, x, hl, hx, rfl, hne, ⟨a, rfl, ha, hu, rfl, rfl⟩ | ⟨a, b, rfl, ha, hb, hu, hv, rfl, rfl⟩⟩
    · obtain ⟨u, a', rfl, h1, h2⟩ := first a ha hu
      refine ⟨u, a', R, by simp, h1, ?_, ex_of hl hx⟩
      rw [mantissa_iff]
      rcases h2 with ⟨h2, h3⟩ | h2
      · rw [h3] at hne; exact absurd rfl hne
      · exact .inl ⟨h2, rfl⟩
    · obtain ⟨u, a', rfl, h1, h2⟩ := first a ha hu
      refine ⟨u, a' ++ '.' :: b, R, by simp, h1, ?_, ex_of hl hx⟩
      rw [mantissa_iff]
      exact .inr ⟨a', b, rfl, h2, opt_of hb (.inr rfl) hv, hne⟩
  · rintro ⟨u, m, R, rfl, hu, hm, hx⟩
    obtain ⟨x, hl, hux, rfl⟩ := of_ex hx
    rcases (mantissa_iff hex m i f).1 hm with ⟨h, rfl⟩ | ⟨a, b, rfl, ha, hb, hne⟩
    · obtain ⟨f1, f2, f3⟩ := first' u m i hu (.inr h)
      exact ⟨R, x, hl, hux, rfl, by simpa using (digits_run h).2.2.2, .inl ⟨u ++ m, by simp, f1, f3, f2.symm, rfl⟩⟩
    · obtain ⟨f1, f2, f3⟩ := first' u a i hu ha
      obtain ⟨g1, g2, g3⟩ := of_opt hb
      exact ⟨R, x, hl, hux, rfl, hne, .inr ⟨u ++ a, b, by simp, f1, g1, f3, g3 _ (by simp), f2.symm, g2.symm⟩⟩

/-- a whole number as a text -/
def Shape (s : List Char) (neg hex : Bool) (i f : List Nat) (o : Option Bool) (ds : List Nat) : Prop :=
  ∃ sg t, Sign sg neg ∧ Written hex t i f o ds ∧
    (hex = false ∧ s = sg ++ t ∨ ∃ x0, hex = true ∧ (x0 = 'x' ∨ x0 = 'X') ∧ s = sg ++ '0' :: x0 :: t)

/-- the base of the digits -/
def radix (hex : Bool) : Nat := if hex then 16 else 10

/-- how much one place after the point counts in the exponent -/
def places (hex : Bool) : Int := if hex then 4 else 1

theorem written_head {hex : Bool} {t : List Char} {i f : List Nat} {o : Option Bool} {ds : List Nat}
    (h : Written hex t i f o ds) : ∃ c cs, t = c :: cs ∧ (inRun hex c = true ∨ c = '.') := by
  obtain ⟨u, m, R, rfl, hu, hm, -⟩ := h
  rcases hu with rfl | ⟨rfl, -, -⟩
  · rw [List.nil_append]
    rcases (mantissa_iff hex m i f).1 hm with ⟨h, -⟩ | ⟨a, b, rfl, ha, -, -⟩
    · obtain ⟨h1, -, h3, -⟩ := digits_run h
      cases m with
      | nil => exact absurd rfl h3
      | cons c cs => exact ⟨c, cs ++ R, rfl, .inl (h1 c (List.mem_cons_self ..))⟩
    · cases a with
      | nil => exact ⟨'.', b ++ R, rfl, .inr rfl⟩
      | cons c cs => exact ⟨c, cs ++ '.' :: b ++ R, by simp, .inl ((of_opt ha).1 c (List.mem_cons_self ..))⟩
  · exact ⟨'_', m ++ R, rfl, .inl rfl⟩

theorem readFloat_of {s : List Char} {neg hex : Bool} {i f : List Nat} {o : Option Bool} {ds : List Nat}
    (h : Shape s neg hex i f o ds) :
    readFloat s = some (neg, num (radix hex) (i ++ f), if hex then 2 else 10,
      if num (radix hex) (i ++ f) = 0 then 0 else expOf clipped o ds - places hex * f.length) := by
  obtain ⟨sg, t, hsg, hw, ⟨rfl, rfl⟩ | ⟨x0, rfl, hx0, rfl⟩⟩ := h
  · have hc := core_of_form (saw := .start) (by simp) ((form_iff rfl t i f o ds).2 hw)
    obtain ⟨c, cs, rfl, hcc⟩ := written_head hw
    have hs := sign_of hsg (unsigned_run (s := cs) hcc)
    have hh : hexPrefix (c :: cs) = none := by
      cases hx : hexPrefix (c :: cs) with
      | none => rfl
      | some w =>
        exfalso
        unfold hexPrefix at hx
        split at hx
        · rename_i x d ds' heq
          injection heq with h1 h2
          subst h1 h2
          split at hx
          · rename_i hl
            have hl' : x = 'x' ∨ x = 'X' := by unfold isLetter at hl; simpa using hl
            have e1 : mantissa false {} ('0' :: x :: d :: ds') = ({ sawdigits := true, dp := -1 }, x :: d :: ds') := by
              rcases hl' with rfl | rfl <;> rfl
            have e2 : exponent false (x :: d :: ds') = some (0, false, x :: d :: ds') := by
              rcases hl' with rfl | rfl <;> rfl
            unfold core at hc
            rw [e1] at hc
            simp only [e2] at hc
            simp at hc
          · cases hx
        · cases hx
    rw [readFloat_dec hs hh, hc]
    simp only [Option.map_some, radix, places, Bool.false_eq_true, if_false, Int.one_mul]
    rfl
  · have hc := core_of_form (saw := .digit) (by simp) ((form_iff rfl t i f o ds).2 hw)
    obtain ⟨c, cs, rfl, hcc⟩ := written_head hw
    have hs : sign (sg ++ '0' :: x0 :: c :: cs) = (neg, '0' :: x0 :: c :: cs) := sign_of hsg (unsigned_of (by decide) (by decide))
    have hh : hexPrefix ('0' :: x0 :: c :: cs) = some (c :: cs) := by
      rcases hx0 with rfl | rfl <;> rfl
    rw [readFloat_hex hs hh, hc]
    simp only [Option.map_some, radix, places, if_true]
    congr 5
    omega

theorem shape_of {s : List Char} (h : (readFloat s).isSome = true) : ∃ neg hex i f o ds, Shape s neg hex i f o ds := by
  obtain ⟨sg, h1, h2⟩ := sign_spec' s
  cases hh : hexPrefix (sign s).2 with
  | none =>
    rw [readFloat_dec (neg := (sign s).1) rfl hh, Option.isSome_map] at h
    obtain ⟨i, f, o, ds, hf⟩ := form_of_core (by simp) h
    exact ⟨_, false, i, f, o, ds, sg, _, h2, (form_iff rfl _ i f o ds).1 hf, .inl ⟨rfl, h1⟩⟩
  | some t =>
    rw [readFloat_hex (neg := (sign s).1) rfl hh, Option.isSome_map] at h
    obtain ⟨i, f, o, ds, hf⟩ := form_of_core (by simp) h
    refine ⟨_, true, i, f, o, ds, sg, t, h2, (form_iff rfl t i f o ds).1 hf, .inr ?_⟩
    generalize (sign s).2 = body at *
    unfold hexPrefix at hh
    split at hh
    · rename_i x c cs
      split at hh
      · rename_i hl
        injection hh with hh
        subst hh
        exact ⟨x, rfl, by unfold isLetter at hl; simpa using hl, h1⟩
      · cases hh
    · cases hh

theorem numeral_iff (s : List Char) (neg : Bool) (n base : Nat) (e : Int) : Numeral s neg n base e ↔
    ∃ hex i f o ds, Shape s neg hex i f o ds ∧ n = num (radix hex) (i ++ f) ∧ base = (if hex then 2 else 10) ∧
      e = expOf (num 10) o ds - places hex * f.length := by
  constructor
  · intro h
    cases h with
    | @decimal sg neg m i f h1 h2 =>
      refine ⟨false, i, f, none, [], ⟨sg, m, h1, ⟨[], m, [], by simp, .inl rfl, h2, .none rfl⟩, .inl ⟨rfl, rfl⟩⟩, rfl, rfl, ?_⟩
      simp [expOf, places]
    | @scientific sg neg m i f c es en x ds h1 h2 h3 h4 h5 =>
      exact ⟨false, i, f, some en, ds, ⟨sg, _, h1, ⟨[], m, _, rfl, .inl rfl, h2, .some h3 h4 h5⟩, .inl ⟨rfl, rfl⟩⟩, rfl, rfl,
        by simp [expOf, places]⟩
    | @hexadecimal sg neg x0 u m i f c es en x ds h1 h2 h3 h4 h5 h6 h7 =>
      refine ⟨true, i, f, some en, ds, ⟨sg, _, h1, ⟨u, m, _, rfl, ?_, h4, .some h5 h6 h7⟩, .inr ⟨x0, rfl, h2, rfl⟩⟩, rfl, rfl,
        by simp [expOf, places]⟩
      rcases h3 with h | ⟨h, h'⟩
      · exact .inl h
      · exact .inr ⟨h, rfl, h'⟩
  · rintro ⟨hex, i, f, o, ds, ⟨sg, t, h1, ⟨u, m, R, rfl, hu, hm, hx⟩, h⟩, rfl, rfl, rfl⟩
    rcases h with ⟨rfl, rfl⟩ | ⟨x0, rfl, hx0, rfl⟩
    · have hu' : u = [] := by
        rcases hu with h | ⟨-, h, -⟩
        · exact h
        · cases h
      subst hu'
      cases hx with
      | none _ =>
        have := Numeral.decimal h1 hm
        simpa [expOf, places, radix] using this
      | some h3 h4 h5 =>
        have := Numeral.scientific h1 hm h3 h4 h5
        simpa [expOf, places, radix] using this
    · cases hx with
      | none h => cases h
      | some h3 h4 h5 =>
        have := Numeral.hexadecimal h1 hx0 (hu.imp id fun h => ⟨h.1, h.2.2⟩) hm h3 h4 h5
        simpa [expOf, places, radix] using this

end MS.Numbers
