import Verif.Model.Json
import Verif.Props.Utf8
/-!
# JSON texts and the decoder (part of C115 and C116)

The grammar of RFC 8259 as relations between values and texts, and that the decoder accepts exactly the texts that begin with one.
-/
set_option linter.unusedSimpArgs false
set_option linter.unusedVariables false
namespace MS.Json
open MS.Proto

/-! ## Specification -/

/-- White space: space, tab, line feed, carriage return. -/
def Ws (w : Bytes) : Prop := ∀ b ∈ w, b = 32 ∨ b = 9 ∨ b = 10 ∨ b = 13

/-- At least one digit, and nothing else. -/
def Digits (d : Bytes) : Prop := d ≠ [] ∧ ∀ b ∈ d, 48 ≤ b.toNat ∧ b.toNat ≤ 57

/-- A number: sign, digits without a leading zero, fraction, exponent. -/
inductive Num : Bytes → Prop
  | mk (sign a b e : Bytes) (hs : sign = [] ∨ sign = [45]) (ha : a = [48] ∨ (Digits a ∧ a.head? ≠ some 48))
      (hb : b = [] ∨ ∃ d, Digits d ∧ b = 46 :: d)
      (he : e = [] ∨ ∃ (m : UInt8) (s d : Bytes), (m = 101 ∨ m = 69) ∧ (s = [] ∨ s = [43] ∨ s = [45]) ∧ Digits d ∧ e = m :: s ++ d) :
      Num (sign ++ a ++ b ++ e)

mutual
/-- `Spells M v s`: `s` is a text for the value `v`; `M s t`: the text `t` between quotes stands for the string `s`. -/
inductive Spells (M : Bytes → Bytes → Prop) : J → Bytes → Prop
  | null : Spells M .null (ascii "null")
  | true_ : Spells M (.bool true) (ascii "true")
  | false_ : Spells M (.bool false) (ascii "false")
  | num (t : Bytes) (h : Num t) : Spells M (.num t) t
  | str (s t : Bytes) (h : M s t) : Spells M (.str s) (34 :: t ++ [34])
  | arr0 (w : Bytes) (h : Ws w) : Spells M (.arr []) (91 :: w ++ [93])
  | arr (l : List J) (t : Bytes) (h : Elems M l t) : Spells M (.arr l) (91 :: t ++ [93])
  | obj0 (w : Bytes) (h : Ws w) : Spells M (.obj []) (123 :: w ++ [125])
  | obj (l : List (Bytes × J)) (t : Bytes) (h : Members M l t) : Spells M (.obj l) (123 :: t ++ [125])

/-- The elements of an array, separated by commas, with white space around them. -/
inductive Elems (M : Bytes → Bytes → Prop) : List J → Bytes → Prop
  | one (v : J) (w1 s w2 : Bytes) (h1 : Ws w1) (h : Spells M v s) (h2 : Ws w2) : Elems M [v] (w1 ++ s ++ w2)
  | more (v : J) (l : List J) (w1 s w2 t : Bytes) (h1 : Ws w1) (h : Spells M v s) (h2 : Ws w2) (hl : Elems M l t) :
      Elems M (v :: l) (w1 ++ s ++ w2 ++ 44 :: t)

/-- The members of an object: name, colon, value, separated by commas, with white space around everything. -/
inductive Members (M : Bytes → Bytes → Prop) : List (Bytes × J) → Bytes → Prop
  | one (k : Bytes) (v : J) (w0 q w1 w2 s w3 : Bytes) (h0 : Ws w0) (hk : M k q) (h1 : Ws w1) (h2 : Ws w2) (h : Spells M v s) (h3 : Ws w3) :
      Members M [(k, v)] (w0 ++ 34 :: q ++ 34 :: w1 ++ 58 :: w2 ++ s ++ w3)
  | more (k : Bytes) (v : J) (l : List (Bytes × J)) (w0 q w1 w2 s w3 t : Bytes) (h0 : Ws w0) (hk : M k q) (h1 : Ws w1) (h2 : Ws w2)
      (h : Spells M v s) (h3 : Ws w3) (hl : Members M l t) :
      Members M ((k, v) :: l) (w0 ++ 34 :: q ++ 34 :: w1 ++ 58 :: w2 ++ s ++ w3 ++ 44 :: t)
end

/-- A hexadecimal digit with its value. -/
inductive Hex : UInt8 → Nat → Prop
  | digit (b : UInt8) (h : 48 ≤ b.toNat ∧ b.toNat ≤ 57) : Hex b (b.toNat - 48)
  | small (b : UInt8) (h : 97 ≤ b.toNat ∧ b.toNat ≤ 102) : Hex b (b.toNat - 97 + 10)
  | large (b : UInt8) (h : 65 ≤ b.toNat ∧ b.toNat ≤ 70) : Hex b (b.toNat - 65 + 10)

/-- The short escapes. -/
def shortEscapes : List (Char × Char) :=
  [('"', '"'), ('\\', '\\'), ('/', '/'), ('b', '\x08'), ('f', '\x0c'), ('n', '\n'), ('r', '\r'), ('t', '\t')]

/-- What may stand between quotes. -/
inductive Lex : Bytes → Prop
  | nil : Lex []
  | plain (b : UInt8) (t : Bytes) (h1 : b ≠ 34) (h2 : b ≠ 92) (h3 : 32 ≤ b.toNat) (ht : Lex t) : Lex (b :: t)
  | esc (c e : Char) (t : Bytes) (h : (c, e) ∈ shortEscapes) (ht : Lex t) : Lex (92 :: UInt8.ofNat c.toNat :: t)
  | uni (a b c d : UInt8) (x y z u : Nat) (t : Bytes) (ha : Hex a x) (hb : Hex b y) (hc : Hex c z) (hd : Hex d u) (ht : Lex t) :
      Lex (92 :: 117 :: a :: b :: c :: d :: t)

/-- The text goes on with the second half of a pair. -/
def LowNext (t : Bytes) : Prop :=
  ∃ a b c d x y z u r, t = 92 :: 117 :: a :: b :: c :: d :: r ∧ Hex a x ∧ Hex b y ∧ Hex c z ∧ Hex d u ∧
    0xDC00 ≤ ((x * 16 + y) * 16 + z) * 16 + u ∧ ((x * 16 + y) * 16 + z) * 16 + u ≤ 0xDFFF

/-- `Str cs t`: the text `t` between quotes is one of the ways to write the characters `cs`: each as itself in UTF-8 (except quote,
backslash and control characters), with a short escape, with `\u` and its number, or with two of these for characters beyond U+FFFF.
Half a pair and a byte that no character begins with here stand for U+FFFD. -/
inductive Str : List Char → Bytes → Prop
  | nil : Str [] []
  | plain (c : Char) (cs : List Char) (t : Bytes) (h1 : c ≠ '"') (h2 : c ≠ '\\') (h3 : 32 ≤ c.toNat) (ht : Str cs t) :
      Str (c :: cs) (String.utf8EncodeChar c ++ t)
  | esc (c e : Char) (cs : List Char) (t : Bytes) (h : (c, e) ∈ shortEscapes) (ht : Str cs t) :
      Str (e :: cs) (92 :: UInt8.ofNat c.toNat :: t)
  | uni (ch : Char) (a b c d : UInt8) (x y z u : Nat) (cs : List Char) (t : Bytes) (ha : Hex a x) (hb : Hex b y) (hc : Hex c z) (hd : Hex d u)
      (h : ((x * 16 + y) * 16 + z) * 16 + u = ch.toNat) (ht : Str cs t) : Str (ch :: cs) (92 :: 117 :: a :: b :: c :: d :: t)
  | pair (ch : Char) (a b c d a' b' c' d' : UInt8) (x y z u x' y' z' u' hi lo : Nat) (cs : List Char) (t : Bytes)
      (ha : Hex a x) (hb : Hex b y) (hc : Hex c z) (hd : Hex d u) (ha' : Hex a' x') (hb' : Hex b' y') (hc' : Hex c' z') (hd' : Hex d' u')
      (h1 : ((x * 16 + y) * 16 + z) * 16 + u = hi) (h2 : ((x' * 16 + y') * 16 + z') * 16 + u' = lo)
      (hhi : 0xD800 ≤ hi ∧ hi ≤ 0xDBFF) (hlo : 0xDC00 ≤ lo ∧ lo ≤ 0xDFFF)
      (h : ch.toNat = 0x10000 + (hi - 0xD800) * 0x400 + (lo - 0xDC00)) (ht : Str cs t) :
      Str (ch :: cs) (92 :: 117 :: a :: b :: c :: d :: 92 :: 117 :: a' :: b' :: c' :: d' :: t)
  | lone (a b c d : UInt8) (x y z u n : Nat) (cs : List Char) (t : Bytes) (ha : Hex a x) (hb : Hex b y) (hc : Hex c z) (hd : Hex d u)
      (h : ((x * 16 + y) * 16 + z) * 16 + u = n) (hn : 0xD800 ≤ n ∧ n ≤ 0xDFFF) (hno : n ≤ 0xDBFF → ¬ LowNext t) (ht : Str cs t) :
      Str ('\uFFFD' :: cs) (92 :: 117 :: a :: b :: c :: d :: t)
  | bad (b : UInt8) (cs : List Char) (t : Bytes) (hb : 128 ≤ b.toNat) (hno : ∀ c r, b :: t ≠ String.utf8EncodeChar c ++ r) (ht : Str cs t) :
      Str ('\uFFFD' :: cs) (b :: t)

/-- The bytes of a text. -/
def utf8 (cs : List Char) : Bytes := cs.flatMap String.utf8EncodeChar

/-- The meaning of strings a writer of JSON relies on. -/
def Plainly (s t : Bytes) : Prop := ∃ cs, s = utf8 cs ∧ Str cs t

/-! ## Helpers -/

theorem ws_isWs {w : Bytes} : Ws w ↔ ∀ b ∈ w, isWs b = true := by
  simp only [Ws, isWs, Bool.or_eq_true, beq_iff_eq]
  constructor
  · intro h b hb; rcases h b hb with e | e | e | e <;> simp [e]
  · intro h b hb; rcases h b hb with ((e | e) | e) | e <;> simp [e]

theorem dropWs {w : Bytes} (h : Ws w) (t : Bytes) : (w ++ t).dropWhile isWs = t.dropWhile isWs := by
  rw [List.dropWhile_append_of_pos (ws_isWs.1 h)]

theorem dropNone {b : UInt8} (hb : isWs b = false) (t : Bytes) : (b :: t).dropWhile isWs = b :: t := by
  rw [List.dropWhile_cons_of_neg (by simp [hb])]

theorem expect_pos {w : Bytes} (h : Ws w) {c : UInt8} (hc : isWs c = false) (t : Bytes) : expect c (w ++ c :: t) = some t := by
  unfold expect
  rw [dropWs h, dropNone hc]
  simp

theorem expect_neg {w : Bytes} (h : Ws w) {b c : UInt8} (hb : isWs b = false) (hbc : b ≠ c) (t : Bytes) : expect c (w ++ b :: t) = none := by
  unfold expect
  rw [dropWs h, dropNone hb]
  simp [hbc]

theorem expect_some {c : UInt8} {t r : Bytes} (h : expect c t = some r) : ∃ w, Ws w ∧ t = w ++ c :: r := by
  unfold expect at h
  split at h
  · rename_i b r' e
    split at h
    · rename_i hb
      injection h with h
      subst h hb
      refine ⟨t.takeWhile isWs, ws_isWs.2 ?_, ?_⟩
      · intro x hx
        exact (List.all_eq_true.1 List.all_takeWhile x hx)
      · have := List.takeWhile_append_dropWhile (p := isWs) (l := t)
        rw [e] at this
        exact this.symm
    · cases h
  · cases h

/-- The text after a number does not go on with it. -/
def Stop (t : Bytes) : Prop := ∀ b ∈ t.head?, isDigit b = false ∧ b ≠ 46 ∧ b ≠ 101 ∧ b ≠ 69

theorem digits_pos {d r : Bytes} (h : Digits d) (hr : ∀ b ∈ r.head?, isDigit b = false) : digits (d ++ r) = some (d, r) := by
  have hp : ∀ b ∈ d, isDigit b = true := by
    intro b hb
    simp [isDigit, h.2 b hb]
  unfold digits
  rw [List.takeWhile_append_of_pos hp, List.dropWhile_append_of_pos hp]
  have e1 : r.takeWhile isDigit = [] := by
    cases r with
    | nil => rfl
    | cons b r => rw [List.takeWhile_cons_of_neg (by rw [hr b rfl]; simp)]
  have e2 : r.dropWhile isDigit = r := by
    cases r with
    | nil => rfl
    | cons b r => rw [List.dropWhile_cons_of_neg (by rw [hr b rfl]; simp)]
  rw [e1, e2, List.append_nil, if_neg h.1]

theorem digits_some {t d r : Bytes} (h : digits t = some (d, r)) : Digits d ∧ t = d ++ r := by
  unfold digits at h
  split at h
  · cases h
  · rename_i hn
    simp only [Option.some.injEq, Prod.mk.injEq] at h
    obtain ⟨rfl, rfl⟩ := h
    refine ⟨⟨hn, fun b hb => ?_⟩, List.takeWhile_append_dropWhile.symm⟩
    have := List.all_eq_true.1 List.all_takeWhile b hb
    simpa [isDigit] using this

theorem digits_head {d : Bytes} (h : Digits d) : ∃ b t, d = b :: t ∧ isDigit b = true := by
  cases d with
  | nil => exact absurd rfl h.1
  | cons b t => exact ⟨b, t, rfl, by simp [isDigit, h.2 b (.head _)]⟩

theorem exp_pos {e r : Bytes} (he : e = [] ∨ ∃ (m : UInt8) (s d : Bytes), (m = 101 ∨ m = 69) ∧ (s = [] ∨ s = [43] ∨ s = [45]) ∧ Digits d ∧ e = m :: s ++ d)
    (hr : Stop r) : expPart (e ++ r) = some (e, r) := by
  rcases he with rfl | ⟨m, s, d, hm, hs, hd, rfl⟩
  · cases r with
    | nil => rfl
    | cons b r =>
      have := hr b rfl
      simp [expPart, this.2.2]
  · have hdp := digits_pos hd (fun b hb => (hr b hb).1)
    rcases hs with rfl | rfl | rfl
    · obtain ⟨b, t, rfl, hb⟩ := digits_head hd
      have hb' : ¬ (b = 43 ∨ b = 45) := by
        rintro (rfl | rfl) <;> simp [isDigit] at hb
      simp only [List.append_nil, List.nil_append, List.cons_append] at hdp ⊢
      simp [expPart, hm, hb', hdp]
    · simp [expPart, hm, hdp]
    · simp [expPart, hm, hdp]

theorem exp_head {e : Bytes} (he : e = [] ∨ ∃ (m : UInt8) (s d : Bytes), (m = 101 ∨ m = 69) ∧ (s = [] ∨ s = [43] ∨ s = [45]) ∧ Digits d ∧ e = m :: s ++ d)
    {r : Bytes} (hr : Stop r) : ∀ b ∈ (e ++ r).head?, isDigit b = false ∧ b ≠ 46 := by
  rcases he with rfl | ⟨m, s, d, hm, hs, hd, rfl⟩
  · exact fun b hb => ⟨(hr b hb).1, (hr b hb).2.1⟩
  · intro b hb
    simp at hb
    subst hb
    rcases hm with rfl | rfl <;> decide

theorem frac_pos {b x : Bytes} (hb : b = [] ∨ ∃ d, Digits d ∧ b = 46 :: d) (hx : ∀ c ∈ x.head?, isDigit c = false ∧ c ≠ 46) :
    fracPart (b ++ x) = some (b, x) := by
  rcases hb with rfl | ⟨d, hd, rfl⟩
  · cases x with
    | nil => rfl
    | cons c x => simp [fracPart, (hx c rfl).2]
  · have := digits_pos hd (fun c hc => (hx c hc).1)
    simp [fracPart, this]

theorem frac_head {b x : Bytes} (hb : b = [] ∨ ∃ d, Digits d ∧ b = 46 :: d) (hx : ∀ c ∈ x.head?, isDigit c = false ∧ c ≠ 46) :
    ∀ c ∈ (b ++ x).head?, isDigit c = false := by
  rcases hb with rfl | ⟨d, hd, rfl⟩
  · exact fun c hc => (hx c hc).1
  · intro c hc
    simp at hc
    subst hc
    decide

theorem int_pos {a x : Bytes} (ha : a = [48] ∨ (Digits a ∧ a.head? ≠ some 48)) (hx : ∀ c ∈ x.head?, isDigit c = false) :
    intPart (a ++ x) = some (a, x) := by
  rcases ha with rfl | ⟨hd, h0⟩
  · simp [intPart]
  · have := digits_pos hd hx
    obtain ⟨b, t, rfl, hb⟩ := digits_head hd
    have : b ≠ 48 := by simpa using h0
    simp only [List.cons_append] at *
    simp [intPart, *]

theorem num_pos {t r : Bytes} (h : Num t) (hr : Stop r) : number (t ++ r) = some (t, r) := by
  obtain ⟨sign, a, b, e, hs, ha, hb, he⟩ := h
  have h1 := exp_pos he hr
  have h2 := frac_pos hb (exp_head he hr)
  have h3 := int_pos ha (frac_head hb (exp_head he hr))
  have hu : unsigned (a ++ (b ++ (e ++ r))) = some (a ++ b ++ e, r) := by
    unfold unsigned
    rw [h3]
    simp only [h2, h1, Option.map_some]
  rcases hs with rfl | rfl
  · have hne : ∃ c x, a = c :: x ∧ c ≠ 45 := by
      rcases ha with rfl | ⟨hd, _⟩
      · exact ⟨48, [], rfl, by decide⟩
      · obtain ⟨c, x, rfl, hc⟩ := digits_head hd
        exact ⟨c, x, rfl, by rintro rfl; simp [isDigit] at hc⟩
    obtain ⟨c, x, rfl, hc⟩ := hne
    simp only [List.nil_append, List.append_assoc, List.cons_append] at hu ⊢
    simp [number, hc, hu]
  · simp only [List.append_assoc, List.cons_append, List.nil_append] at hu ⊢
    simp [number, hu]

theorem num_some {t x r : Bytes} (h : number t = some (x, r)) : Num x ∧ t = x ++ r := by
  have hu : ∀ t x r, unsigned t = some (x, r) → ∃ a b e, x = a ++ b ++ e ∧ t = x ++ r ∧ (a = [48] ∨ (Digits a ∧ a.head? ≠ some 48)) ∧
      (b = [] ∨ ∃ d, Digits d ∧ b = 46 :: d) ∧
      (e = [] ∨ ∃ (m : UInt8) (s d : Bytes), (m = 101 ∨ m = 69) ∧ (s = [] ∨ s = [43] ∨ s = [45]) ∧ Digits d ∧ e = m :: s ++ d) := by
    intro t x r h
    unfold unsigned at h
    split at h
    · cases h
    · rename_i a t1 ha
      split at h
      · cases h
      · rename_i b t2 hb
        simp only [Option.map_eq_some_iff, Prod.mk.injEq, Prod.exists] at h
        obtain ⟨e, r', he, rfl, rfl⟩ := h
        have A : (a = [48] ∨ (Digits a ∧ a.head? ≠ some 48)) ∧ t = a ++ t1 := by
          unfold intPart at ha
          split at ha
          · rename_i c r0
            split at ha
            · rename_i hc
              simp only [Option.some.injEq, Prod.mk.injEq] at ha
              obtain ⟨rfl, rfl⟩ := ha
              subst hc
              exact ⟨.inl rfl, rfl⟩
            · rename_i hc
              obtain ⟨h1, h2⟩ := digits_some ha
              refine ⟨.inr ⟨h1, ?_⟩, h2⟩
              obtain ⟨y, ys, rfl, _⟩ := digits_head h1
              simp only [List.cons_append, List.cons.injEq] at h2
              rw [← h2.1]
              simpa using hc
          · cases ha
        have B : (b = [] ∨ ∃ d, Digits d ∧ b = 46 :: d) ∧ t1 = b ++ t2 := by
          unfold fracPart at hb
          split at hb
          · rename_i c r0
            split at hb
            · rename_i hc
              simp only [Option.map_eq_some_iff, Prod.mk.injEq, Prod.exists] at hb
              obtain ⟨d, r1, hd, rfl, rfl⟩ := hb
              obtain ⟨h1, h2⟩ := digits_some hd
              subst hc h2
              exact ⟨.inr ⟨d, h1, rfl⟩, rfl⟩
            · simp only [Option.some.injEq, Prod.mk.injEq] at hb
              obtain ⟨rfl, rfl⟩ := hb
              exact ⟨.inl rfl, rfl⟩
          · simp only [Option.some.injEq, Prod.mk.injEq] at hb
            obtain ⟨rfl, rfl⟩ := hb
            exact ⟨.inl rfl, rfl⟩
        have C : (e = [] ∨ ∃ (m : UInt8) (s d : Bytes), (m = 101 ∨ m = 69) ∧ (s = [] ∨ s = [43] ∨ s = [45]) ∧ Digits d ∧ e = m :: s ++ d) ∧
            t2 = e ++ r' := by
          unfold expPart at he
          split at he
          · rename_i m r0
            split at he
            · rename_i hm
              split at he
              · rename_i s r1
                split at he
                · rename_i hs
                  simp only [Option.map_eq_some_iff, Prod.mk.injEq, Prod.exists] at he
                  obtain ⟨d, r2, hd, rfl, rfl⟩ := he
                  obtain ⟨h1, h2⟩ := digits_some hd
                  subst h2
                  refine ⟨.inr ⟨m, [s], d, hm, ?_, h1, rfl⟩, rfl⟩
                  rcases hs with rfl | rfl <;> simp
                · simp only [Option.map_eq_some_iff, Prod.mk.injEq, Prod.exists] at he
                  obtain ⟨d, r2, hd, rfl, rfl⟩ := he
                  obtain ⟨h1, h2⟩ := digits_some hd
                  rw [h2]
                  exact ⟨.inr ⟨m, [], d, hm, .inl rfl, h1, rfl⟩, rfl⟩
              · cases he
            · simp only [Option.some.injEq, Prod.mk.injEq] at he
              obtain ⟨rfl, rfl⟩ := he
              exact ⟨.inl rfl, rfl⟩
          · simp only [Option.some.injEq, Prod.mk.injEq] at he
            obtain ⟨rfl, rfl⟩ := he
            exact ⟨.inl rfl, rfl⟩
        refine ⟨a, b, e, rfl, ?_, A.1, B.1, C.1⟩
        rw [A.2, B.2, C.2]
        simp
  unfold number at h
  split at h
  · rename_i c r0
    split at h
    · rename_i hc
      simp only [Option.map_eq_some_iff, Prod.mk.injEq, Prod.exists] at h
      obtain ⟨y, r1, hy, rfl, rfl⟩ := h
      obtain ⟨a, b, e, e1, e2, ha, hb, he⟩ := hu _ _ _ hy
      subst hc e1
      refine ⟨?_, by rw [e2]; rfl⟩
      have := Num.mk [45] a b e (.inr rfl) ha hb he
      simpa using this
    · obtain ⟨a, b, e, e1, e2, ha, hb, he⟩ := hu _ _ _ h
      refine ⟨?_, e2⟩
      rw [e1]
      exact Num.mk [] a b e (.inl rfl) ha hb he
  · cases h

/-! ## Strings -/

theorem hex_val {b : UInt8} {n : Nat} : Hex b n ↔ hexVal b = some n := by
  constructor
  · intro h
    cases h with
    | digit h => simp [hexVal, h]
    | small h =>
      simp only [hexVal]
      rw [if_neg (by omega), if_pos (by omega)]
      congr 1; omega
    | large h =>
      simp only [hexVal]
      rw [if_neg (by omega), if_neg (by omega), if_pos (by omega)]
      congr 1; omega
  · intro h
    simp only [hexVal] at h
    split at h
    · rename_i hb; injection h with h; subst h; exact .digit b hb
    · split at h
      · rename_i hb; injection h with h; subst h
        have := Hex.small b hb
        rwa [show b.toNat - 97 + 10 = b.toNat - 87 by omega] at this
      · split at h
        · rename_i hb; injection h with h; subst h
          have := Hex.large b hb
          rwa [show b.toNat - 65 + 10 = b.toNat - 55 by omega] at this
        · cases h

theorem hex_lt {b : UInt8} {n : Nat} (h : Hex b n) : n < 16 := by
  cases h <;> omega

theorem esc_val {c e : Char} (h : (c, e) ∈ shortEscapes) :
    escVal (UInt8.ofNat c.toNat) = some (UInt8.ofNat e.toNat) ∧ UInt8.ofNat c.toNat ≠ 117 ∧ e.toNat < 128 := by
  simp only [shortEscapes, List.mem_cons, Prod.mk.injEq, List.mem_nil_iff, or_false] at h
  rcases h with h | h | h | h | h | h | h | h <;> (obtain ⟨rfl, rfl⟩ := h; decide)

theorem val_esc {b y : UInt8} (h : escVal b = some y) :
    ∃ c e : Char, (c, e) ∈ shortEscapes ∧ b = UInt8.ofNat c.toNat ∧ y = UInt8.ofNat e.toNat := by
  unfold escVal at h
  repeat' split at h
  · rename_i hb; cases h; exact ⟨'"', '"', by decide, by rw [hb]; rfl, rfl⟩
  · rename_i hb; cases h; exact ⟨'\\', '\\', by decide, by rw [hb]; rfl, rfl⟩
  · rename_i hb; cases h; exact ⟨'/', '/', by decide, by rw [hb]; rfl, rfl⟩
  · rename_i hb; cases h; exact ⟨'b', '\x08', by decide, by rw [hb]; rfl, rfl⟩
  · rename_i hb; cases h; exact ⟨'f', '\x0c', by decide, by rw [hb]; rfl, rfl⟩
  · rename_i hb; cases h; exact ⟨'n', '\n', by decide, by rw [hb]; rfl, rfl⟩
  · rename_i hb; cases h; exact ⟨'r', '\r', by decide, by rw [hb]; rfl, rfl⟩
  · rename_i hb; cases h; exact ⟨'t', '\t', by decide, by rw [hb]; rfl, rfl⟩
  · cases h

theorem raw_pos {t : Bytes} (h : Lex t) (r : Bytes) : raw 0 (t ++ 34 :: r) = some (t, r) := by
  induction h with
  | nil => simp [raw]
  | plain b t h1 h2 h3 ht ih =>
    simp only [List.cons_append, raw]
    rw [if_neg h1, if_neg h2, if_neg (by omega), ih]
    rfl
  | esc c e t h ht ih =>
    obtain ⟨h1, h2, _⟩ := esc_val h
    simp only [List.cons_append, raw]
    rw [if_neg (by decide), if_pos trivial, if_neg h2, h1, ih]
    rfl
  | uni a b c d x y z u t ha hb hc hd ht ih =>
    simp only [List.cons_append, raw]
    rw [if_neg (by decide), if_pos trivial, if_pos trivial]
    simp [raw, ih, hex_val.1 ha, hex_val.1 hb, hex_val.1 hc, hex_val.1 hd]

theorem raw_some (n : Nat) : ∀ (t x r : Bytes), t.length ≤ n → raw 0 t = some (x, r) → Lex x ∧ t = x ++ 34 :: r := by
  induction n with
  | zero =>
    intro t x r hn h
    cases t with
    | nil => simp [raw] at h
    | cons => simp at hn
  | succ n ih =>
    intro t x r hn h
    cases t with
    | nil => simp [raw] at h
    | cons b t =>
      simp only [List.length_cons] at hn
      simp only [raw] at h
      split at h
      · rename_i hb
        simp only [Option.some.injEq, Prod.mk.injEq] at h
        obtain ⟨rfl, rfl⟩ := h
        exact ⟨.nil, by rw [hb]; rfl⟩
      · rename_i h34
        split at h
        · rename_i h92
          subst h92
          simp only [Option.map_eq_some_iff, Prod.mk.injEq, Prod.exists] at h
          obtain ⟨y, r', h, rfl, rfl⟩ := h
          cases t with
          | nil => simp [raw] at h
          | cons c t =>
            simp only [raw] at h
            split at h
            · rename_i hu
              subst hu
              simp only [Option.map_eq_some_iff, Prod.mk.injEq, Prod.exists] at h
              obtain ⟨y, r1, h, rfl, rfl⟩ := h
              have st : ∀ k t y r, raw (k + 2) t = some (y, r) → ∃ b n t' y', t = b :: t' ∧ y = b :: y' ∧ Hex b n ∧
                  raw (if k = 0 then 0 else k + 1) t' = some (y', r) := by
                intro k t y r h
                cases t with
                | nil => simp [raw] at h
                | cons b t' =>
                  simp only [raw] at h
                  split at h
                  · rename_i hx
                    simp only [Option.map_eq_some_iff, Prod.mk.injEq, Prod.exists] at h
                    obtain ⟨y', r1, h, rfl, rfl⟩ := h
                    obtain ⟨n, hx⟩ := Option.isSome_iff_exists.1 hx
                    exact ⟨b, n, t', y', rfl, rfl, hex_val.2 hx, h⟩
                  · cases h
              obtain ⟨a1, n1, t1, y1, rfl, rfl, x1, h⟩ := st 3 _ _ _ h
              obtain ⟨a2, n2, t2, y2, rfl, rfl, x2, h⟩ := st 2 _ _ _ h
              obtain ⟨a3, n3, t3, y3, rfl, rfl, x3, h⟩ := st 1 _ _ _ h
              obtain ⟨a4, n4, t4, y4, rfl, rfl, x4, h⟩ := st 0 _ _ _ h
              simp only [List.length_cons] at hn
              obtain ⟨l1, l2⟩ := ih t4 y4 r1 (by omega) h
              exact ⟨.uni a1 a2 a3 a4 n1 n2 n3 n4 y4 x1 x2 x3 x4 l1, by rw [l2]; rfl⟩
            · split at h
              · rename_i he
                simp only [Option.map_eq_some_iff, Prod.mk.injEq, Prod.exists] at h
                obtain ⟨y, r1, h, rfl, rfl⟩ := h
                simp only [List.length_cons] at hn
                obtain ⟨l1, l2⟩ := ih t y r1 (by omega) h
                obtain ⟨v, he⟩ := Option.isSome_iff_exists.1 he
                obtain ⟨c', e', hm, rfl, _⟩ := val_esc he
                exact ⟨.esc c' e' y hm l1, by rw [l2]; rfl⟩
              · cases h
        · rename_i h92
          split at h
          · cases h
          · rename_i h32
            simp only [Option.map_eq_some_iff, Prod.mk.injEq, Prod.exists] at h
            obtain ⟨y, r1, h, rfl, rfl⟩ := h
            obtain ⟨l1, l2⟩ := ih t y r1 (by omega) h
            exact ⟨.plain b y h34 h92 (by omega) l1, by rw [l2]; rfl⟩

theorem unq_drop (k : Nat) (t : Bytes) : unq k t = unq 0 (t.drop k) := by
  induction k generalizing t with
  | zero => rfl
  | succ k ih =>
    cases t with
    | nil => simp [unq]
    | cons b t => simp only [unq, List.drop_succ_cons]; exact ih t

theorem utf8_append {a b : Bytes} (ha : utf8Valid a = true) (hb : utf8Valid b = true) : utf8Valid (a ++ b) = true := by
  obtain ⟨cs, rfl⟩ := (C23_utf8 _).1 ha
  obtain ⟨ds, rfl⟩ := (C23_utf8 _).1 hb
  exact (C23_utf8 _).2 ⟨cs ++ ds, by simp⟩

/-- Whatever is written between the quotes, the string is valid UTF-8. -/
theorem unq_valid (n : Nat) : ∀ (t s : Bytes), t.length ≤ n → unq 0 t = some s → utf8Valid s = true := by
  induction n with
  | zero =>
    intro t s hn h
    cases t with
    | nil => simp [unq] at h; subst h; rfl
    | cons => simp at hn
  | succ n ih =>
    intro t s hn h
    cases t with
    | nil => simp [unq] at h; subst h; rfl
    | cons b t =>
      simp only [List.length_cons] at hn
      have go : ∀ (k : Nat) (p s : Bytes), utf8Valid p = true → (unq k t).map (fun x => p ++ x) = some s → utf8Valid s = true := by
        intro k p s hp h
        simp only [Option.map_eq_some_iff] at h
        obtain ⟨x, hx, rfl⟩ := h
        rw [unq_drop] at hx
        exact utf8_append hp (ih _ _ (by rw [List.length_drop]; omega) hx)
      have hrune : ∀ m, utf8Valid (rune m) = true := by
        intro m
        have := valid_encode (Char.ofNat m) []
        rw [List.append_nil] at this
        rw [rune, this]; rfl
      simp only [unq] at h
      split at h
      · split at h
        · cases h
        · rename_i c r
          split at h
          · split at h
            · cases h
            · split at h
              · split at h
                · exact go _ _ _ (hrune _) h
                · exact go _ _ _ (by decide) h
              · exact go _ _ _ (hrune _) h
          · split at h
            · rename_i e he
              obtain ⟨c', e', hm, _, rfl⟩ := val_esc he
              refine go 1 [UInt8.ofNat e'.toNat] s ?_ h
              simp only [shortEscapes, List.mem_cons, Prod.mk.injEq, List.mem_nil_iff, or_false] at hm
              rcases hm with h | h | h | h | h | h | h | h <;> (obtain ⟨_, rfl⟩ := h; decide)
            · cases h
      · split at h
        · cases h
        · split at h
          · rename_i hb
            refine go 0 [b] s ?_ h
            simp [utf8Valid, hb]
          · split at h
            · rename_i hv; exact go _ _ _ hv h
            · split at h
              · rename_i hv; exact go _ _ _ hv h
              · split at h
                · rename_i hv; exact go _ _ _ hv h
                · exact go 0 _ _ (by decide) h

theorem valid_two {b : UInt8} {t : Bytes} (hb : 128 ≤ b.toNat) (h : utf8Valid ((b :: t).take 2) = true) :
    ∃ b1 t', t = b1 :: t' ∧ 128 ≤ b1.toNat := by
  cases t with
  | nil =>
    simp only [List.take, utf8Valid] at h
    rw [if_neg (by omega)] at h
    repeat' split at h
    all_goals cases h
  | cons b1 t =>
    refine ⟨b1, t, rfl, ?_⟩
    simp only [List.take, utf8Valid] at h
    rw [if_neg (by omega)] at h
    split at h
    · simp only [Bool.and_true, decide_eq_true_eq] at h; omega
    · repeat' split at h
      all_goals cases h

theorem valid_three {b : UInt8} {t : Bytes} (hb : 128 ≤ b.toNat) (h2 : utf8Valid ((b :: t).take 2) = false)
    (h : utf8Valid ((b :: t).take 3) = true) : ∃ b1 b2 t', t = b1 :: b2 :: t' ∧ 128 ≤ b1.toNat ∧ 128 ≤ b2.toNat := by
  cases t with
  | nil => simp only [List.take] at h h2; rw [h] at h2; cases h2
  | cons b1 t =>
    cases t with
    | nil => simp only [List.take] at h h2; rw [h] at h2; cases h2
    | cons b2 t =>
      refine ⟨b1, b2, t, rfl, ?_⟩
      simp only [List.take, utf8Valid] at h h2
      rw [if_neg (by omega)] at h h2
      split at h
      · rename_i hr
        rw [if_pos hr] at h2
        simp only [Bool.and_eq_true, decide_eq_true_eq] at h
        simp only [Bool.and_true, decide_eq_false_iff_not] at h2
        exact absurd h.1 h2
      · split at h
        · simp only [Bool.and_true, Bool.and_eq_true, decide_eq_true_eq] at h
          refine ⟨?_, h.2.1⟩
          have := h.1.1
          split at this <;> omega
        · split at h <;> cases h

theorem valid_four {b : UInt8} {t : Bytes} (hb : 128 ≤ b.toNat) (h2 : utf8Valid ((b :: t).take 2) = false)
    (h3 : utf8Valid ((b :: t).take 3) = false) (h : utf8Valid ((b :: t).take 4) = true) :
    ∃ b1 b2 b3 t', t = b1 :: b2 :: b3 :: t' ∧ 128 ≤ b1.toNat ∧ 128 ≤ b2.toNat ∧ 128 ≤ b3.toNat := by
  cases t with
  | nil => simp only [List.take] at h h2; rw [h] at h2; cases h2
  | cons b1 t =>
    cases t with
    | nil => simp only [List.take] at h h2; rw [h] at h2; cases h2
    | cons b2 t =>
      cases t with
      | nil => simp only [List.take] at h h3; rw [h] at h3; cases h3
      | cons b3 t =>
        refine ⟨b1, b2, b3, t, rfl, ?_⟩
        simp only [List.take] at h h2 h3
        rw [utf8Valid, if_neg (by omega)] at h h2 h3
        split at h
        · rename_i hr
          rw [if_pos hr] at h2
          simp only [Bool.and_eq_true, decide_eq_true_eq] at h
          simp only [utf8Valid, Bool.and_true, decide_eq_false_iff_not] at h2
          exact absurd h.1 h2
        · rename_i hr
          rw [if_neg hr] at h3
          split at h
          · rename_i hr
            rw [if_pos hr] at h3
            simp only [Bool.and_eq_true, decide_eq_true_eq] at h
            simp only [utf8Valid, Bool.and_true, Bool.and_eq_false_iff, decide_eq_false_iff_not] at h3
            rcases h3 with h3 | h3
            · exact absurd h.1.1 h3
            · exact absurd h.1.2 h3
          · split at h
            · simp only [utf8Valid, Bool.and_true, Bool.and_eq_true, decide_eq_true_eq] at h
              refine ⟨?_, h.1.2.1, h.2.1⟩
              have := h.1.1.1
              split at this <;> omega
            · cases h

theorem lex_tail {b : UInt8} {t : Bytes} (hb : b ≠ 92) (h : Lex (b :: t)) : Lex t := by
  cases h with
  | plain _ _ _ _ _ ht => exact ht
  | esc => exact absurd rfl hb
  | uni => exact absurd rfl hb

theorem lex_uni {l : Bytes} (h : Lex l) : ∀ a b c d t, l = 92 :: 117 :: a :: b :: c :: d :: t → Lex t := by
  intro a b c d t e
  cases h with
  | nil => cases e
  | plain b' t' h1 h2 h3 ht =>
    simp only [List.cons.injEq] at e
    exact absurd e.1 h2
  | esc c' e' t' h' ht' =>
    simp only [List.cons.injEq] at e
    exact absurd e.2.1 (esc_val h').2.1
  | uni a' b' c' d' _ _ _ _ t' _ _ _ _ ht =>
    simp only [List.cons.injEq] at e
    rw [← e.2.2.2.2.2.2]
    exact ht

theorem ne92 {b : UInt8} (h : 128 ≤ b.toNat) : b ≠ 92 := by
  rintro rfl
  exact absurd h (by decide)

/-- What the scanner lets through can be decoded. -/
theorem unq_total (n : Nat) : ∀ t : Bytes, t.length ≤ n → Lex t → ∃ s, unq 0 t = some s := by
  induction n with
  | zero =>
    intro t hn h
    cases t with
    | nil => exact ⟨[], rfl⟩
    | cons => simp at hn
  | succ n ih =>
    intro t hn h
    have go : ∀ (t : Bytes) (k : Nat) (p : Bytes), t.length ≤ n → Lex (t.drop k) → ∃ s, (unq k t).map (fun x => p ++ x) = some s := by
      intro t k p hn hl
      obtain ⟨s, hs⟩ := ih (t.drop k) (by rw [List.length_drop]; omega) hl
      exact ⟨p ++ s, by rw [unq_drop, hs]; rfl⟩
    cases h with
    | nil => exact ⟨[], rfl⟩
    | plain b t h1 h2 h3 ht =>
      simp only [List.length_cons] at hn
      simp only [unq]
      rw [if_neg h2, if_neg (by intro h; rcases h with h | h; exact h1 h; omega)]
      split
      · exact go t 0 [b] (by omega) ht
      · rename_i hb
        have hb : 128 ≤ b.toNat := by omega
        split
        · rename_i hv
          obtain ⟨b1, t', rfl, e1⟩ := valid_two hb hv
          exact go _ 1 _ (by omega) (lex_tail (ne92 e1) ht)
        · rename_i hv2
          have hv2 := Bool.eq_false_iff.2 hv2
          split
          · rename_i hv
            obtain ⟨b1, b2, t', rfl, e1, e2⟩ := valid_three hb hv2 hv
            exact go _ 2 _ (by omega) (lex_tail (ne92 e2) (lex_tail (ne92 e1) ht))
          · rename_i hv3
            have hv3 := Bool.eq_false_iff.2 hv3
            split
            · rename_i hv
              obtain ⟨b1, b2, b3, t', rfl, e1, e2, e3⟩ := valid_four hb hv2 hv3 hv
              exact go _ 3 _ (by omega) (lex_tail (ne92 e3) (lex_tail (ne92 e2) (lex_tail (ne92 e1) ht)))
            · exact go t 0 _ (by omega) ht
    | esc c e t h ht =>
      obtain ⟨h1, h2, _⟩ := esc_val h
      simp only [List.length_cons] at hn
      simp only [unq, h1]
      rw [if_pos trivial, if_neg h2]
      exact go (UInt8.ofNat c.toNat :: t) 1 [_] (by simp only [List.length_cons]; omega) ht
    | uni a b c d x y z u t ha hb hc hd ht =>
      simp only [List.length_cons] at hn
      have hg : getu4 (92 :: 117 :: a :: b :: c :: d :: t) = some (((x * 16 + y) * 16 + z) * 16 + u) := by
        simp [getu4, hex_val.1 ha, hex_val.1 hb, hex_val.1 hc, hex_val.1 hd]
      rw [unq]
      simp only [hg]
      rw [if_pos trivial, if_pos trivial]
      split
      · split
        · rename_i m hm
          refine go _ 11 _ (by simp only [List.length_cons]; omega) ?_
          have hm' : ∃ m, getu4 t = some m := by
            unfold low at hm
            simp only [List.drop] at hm
            split at hm
            · rename_i m' e; exact ⟨m', e⟩
            · cases hm
          obtain ⟨m', hm'⟩ := hm'
          unfold getu4 at hm'
          split at hm'
          · split at hm'
            · rename_i hxy
              obtain ⟨rfl, rfl⟩ := hxy
              exact lex_uni ht _ _ _ _ _ rfl
            · cases hm'
          · cases hm'
        · exact go _ 5 _ (by simp only [List.length_cons]; omega) ht
      · exact go _ 5 _ (by simp only [List.length_cons]; omega) ht

/-- The bytes of a character that is not ASCII: none is ASCII, and no shorter beginning is a character. -/
theorem char_bytes (c : Char) : (c.toNat < 128 ∧ String.utf8EncodeChar c = [UInt8.ofNat c.toNat]) ∨
    (∃ b b1, String.utf8EncodeChar c = [b, b1] ∧ 128 ≤ b.toNat ∧ 128 ≤ b1.toNat) ∨
    (∃ b b1 b2, String.utf8EncodeChar c = [b, b1, b2] ∧ 128 ≤ b.toNat ∧ 128 ≤ b1.toNat ∧ 128 ≤ b2.toNat ∧ utf8Valid [b, b1] = false) ∨
    (∃ b b1 b2 b3, String.utf8EncodeChar c = [b, b1, b2, b3] ∧ 128 ≤ b.toNat ∧ 128 ≤ b1.toNat ∧ 128 ≤ b2.toNat ∧ 128 ≤ b3.toNat ∧
      utf8Valid [b, b1] = false ∧ utf8Valid [b, b1, b2] = false) := by
  have hv' : c.val.toNat < 0xD800 ∨ 0xDFFF < c.val.toNat ∧ c.val.toNat < 0x110000 := c.valid
  have hc : c.toNat = c.val.toNat := rfl
  rw [hc]
  generalize hn : c.val.toNat = n at hv'
  simp only [String.utf8EncodeChar, hn]
  by_cases h1 : n ≤ 0x7f
  · left
    simp only [h1, if_true]
    exact ⟨by omega, trivial⟩
  · right
    by_cases h2 : n ≤ 0x7ff
    · left
      simp only [h1, h2, if_true, if_false]
      exact ⟨_, _, rfl, by simp only [UInt8.toNat_ofNat']; omega, by simp only [UInt8.toNat_ofNat']; omega⟩
    · right
      by_cases h3 : n ≤ 0xffff
      · left
        simp only [h1, h2, h3, if_true, if_false]
        refine ⟨_, _, _, rfl, by simp only [UInt8.toNat_ofNat']; omega, by simp only [UInt8.toNat_ofNat']; omega,
          by simp only [UInt8.toNat_ofNat']; omega, ?_⟩
        rw [utf8Valid]
        simp only [UInt8.toNat_ofNat']
        rw [if_neg (by omega), if_neg (by omega), if_pos (by omega)]
      · right
        simp only [h1, h2, h3, if_false]
        refine ⟨_, _, _, _, rfl, by simp only [UInt8.toNat_ofNat']; omega, by simp only [UInt8.toNat_ofNat']; omega,
          by simp only [UInt8.toNat_ofNat']; omega, by simp only [UInt8.toNat_ofNat']; omega, ?_, ?_⟩
        · rw [utf8Valid]
          simp only [UInt8.toNat_ofNat']
          rw [if_neg (by omega), if_neg (by omega), if_neg (by omega), if_pos (by omega)]
        · rw [utf8Valid]
          simp only [UInt8.toNat_ofNat']
          rw [if_neg (by omega), if_neg (by omega), if_neg (by omega), if_pos (by omega)]

theorem rune_char (c : Char) : rune c.toNat = String.utf8EncodeChar c := by
  unfold rune
  rw [Char.ofNat_toNat]

theorem plain_high {b : UInt8} (hb : 128 ≤ b.toNat) {t : Bytes} (ht : Lex t) : Lex (b :: t) := by
  refine .plain b t ?_ (ne92 hb) (by omega) ht
  rintro rfl
  exact absurd hb (by decide)

/-- What a writer means is what the decoder reads. -/
theorem str_means {cs : List Char} {t : Bytes} (h : Str cs t) : Lex t ∧ unq 0 t = some (utf8 cs) := by
  induction h with
  | nil => exact ⟨.nil, rfl⟩
  | plain c cs t h1 h2 h3 ht ih =>
    obtain ⟨hl, hu⟩ := ih
    have hval : utf8Valid (String.utf8EncodeChar c) = true := by
      have := valid_encode c []
      rw [List.append_nil] at this
      rw [this]; rfl
    have hcons : utf8 (c :: cs) = String.utf8EncodeChar c ++ utf8 cs := rfl
    rw [hcons]
    rcases char_bytes c with ⟨hlt, e⟩ | ⟨b, b1, e, g, g1⟩ | ⟨b, b1, b2, e, g, g1, g2, f2⟩ | ⟨b, b1, b2, b3, e, g, g1, g2, g3, f2, f3⟩
    · rw [e]
      have hn : (UInt8.ofNat c.toNat).toNat = c.toNat := by simp only [UInt8.toNat_ofNat']; omega
      have hne : ∀ (k : UInt8) (ch : Char), k.toNat = ch.toNat → c ≠ ch → UInt8.ofNat c.toNat ≠ k := by
        intro k ch hk hc he
        apply hc
        rw [← he, hn] at hk
        exact Char.toNat_inj.1 hk
      have n34 := hne 34 '"' (by decide) h1
      have n92 := hne 92 '\\' (by decide) h2
      refine ⟨.plain _ t n34 n92 (by omega) hl, ?_⟩
      simp only [List.cons_append, List.nil_append, unq]
      rw [if_neg n92, if_neg (by intro h; rcases h with h | h; exact n34 h; omega), if_pos (by omega), hu]
      rfl
    · rw [e] at hval ⊢
      refine ⟨plain_high g (plain_high g1 hl), ?_⟩
      simp only [List.cons_append, List.nil_append, unq]
      rw [if_neg (ne92 g), if_neg (by intro h; rcases h with rfl | h; exact absurd g (by decide); omega), if_neg (by omega)]
      simp only [List.take, hval, if_true, hu]
      rfl
    · rw [e] at hval ⊢
      refine ⟨plain_high g (plain_high g1 (plain_high g2 hl)), ?_⟩
      simp only [List.cons_append, List.nil_append, unq]
      rw [if_neg (ne92 g), if_neg (by intro h; rcases h with rfl | h; exact absurd g (by decide); omega), if_neg (by omega)]
      simp only [List.take, f2, hval, if_true, hu, Bool.false_eq_true, if_false]
      rfl
    · rw [e] at hval ⊢
      refine ⟨plain_high g (plain_high g1 (plain_high g2 (plain_high g3 hl))), ?_⟩
      simp only [List.cons_append, List.nil_append, unq]
      rw [if_neg (ne92 g), if_neg (by intro h; rcases h with rfl | h; exact absurd g (by decide); omega), if_neg (by omega)]
      simp only [List.take, f2, f3, hval, if_true, hu, Bool.false_eq_true, if_false]
      rfl
  | esc c e cs t h ht ih =>
    obtain ⟨h1, h2, h3⟩ := esc_val h
    refine ⟨.esc c e t h ih.1, ?_⟩
    have he : String.utf8EncodeChar e = [UInt8.ofNat e.toNat] := by
      simp only [shortEscapes, List.mem_cons, Prod.mk.injEq, List.mem_nil_iff, or_false] at h
      rcases h with h | h | h | h | h | h | h | h <;> (obtain ⟨_, rfl⟩ := h; decide)
    simp only [unq, h1]
    rw [if_pos trivial, if_neg h2, ih.2]
    simp [utf8, he]
  | uni ch a b c d x y z u cs t ha hb hc hd h ht ih =>
    refine ⟨.uni a b c d x y z u t ha hb hc hd ih.1, ?_⟩
    have hg : getu4 (92 :: 117 :: a :: b :: c :: d :: t) = some ch.toNat := by
      rw [← h]; simp [getu4, hex_val.1 ha, hex_val.1 hb, hex_val.1 hc, hex_val.1 hd]
    have hv : ch.toNat < 0xD800 ∨ 0xDFFF < ch.toNat ∧ ch.toNat < 0x110000 := ch.valid
    rw [unq]
    simp only [hg]
    rw [if_pos trivial, if_pos trivial, if_neg (by omega), unq_drop]
    show Option.map _ (unq 0 t) = _
    rw [ih.2, rune_char]
    rfl
  | pair ch a b c d a' b' c' d' x y z u x' y' z' u' hi lo cs t ha hb hc hd ha' hb' hc' hd' h1 h2 hhi hlo h ht ih =>
    have g2 : Lex (92 :: 117 :: a' :: b' :: c' :: d' :: t) := .uni a' b' c' d' x' y' z' u' t ha' hb' hc' hd' ih.1
    refine ⟨.uni a b c d x y z u _ ha hb hc hd g2, ?_⟩
    have hg : getu4 (92 :: 117 :: a :: b :: c :: d :: 92 :: 117 :: a' :: b' :: c' :: d' :: t) = some hi := by
      rw [← h1]; simp [getu4, hex_val.1 ha, hex_val.1 hb, hex_val.1 hc, hex_val.1 hd]
    have hg' : getu4 (92 :: 117 :: a' :: b' :: c' :: d' :: t) = some lo := by
      rw [← h2]; simp [getu4, hex_val.1 ha', hex_val.1 hb', hex_val.1 hc', hex_val.1 hd']
    have hlow : low hi (List.drop 4 (a :: b :: c :: d :: 92 :: 117 :: a' :: b' :: c' :: d' :: t)) = some lo := by
      simp only [List.drop, low, hg']
      rw [if_pos (by omega)]
    rw [unq]
    simp only [hg, hlow]
    rw [if_pos trivial, if_pos trivial, if_pos (by omega), unq_drop]
    show Option.map _ (unq 0 t) = _
    rw [ih.2, show (hi - 55296) * 1024 + (lo - 56320) + 65536 = ch.toNat by omega, rune_char]
    rfl
  | lone a b c d x y z u n cs t ha hb hc hd h hn hno ht ih =>
    refine ⟨.uni a b c d x y z u _ ha hb hc hd ih.1, ?_⟩
    have hg : getu4 (92 :: 117 :: a :: b :: c :: d :: t) = some n := by
      rw [← h]; simp [getu4, hex_val.1 ha, hex_val.1 hb, hex_val.1 hc, hex_val.1 hd]
    have hlow : low n (List.drop 4 (a :: b :: c :: d :: t)) = none := by
      simp only [List.drop, low]
      cases e : getu4 t with
      | none => rfl
      | some m =>
        simp only
        rw [if_neg]
        rintro ⟨h1, h2, h3⟩
        refine hno (by omega) ?_
        obtain ⟨a', b', c', d', x', y', z', u', r, e', i1, i2, i3, i4, em⟩ := getu4_some e
        exact ⟨a', b', c', d', x', y', z', u', r, e', i1, i2, i3, i4, by omega⟩
    rw [unq]
    simp only [hg, hlow]
    rw [if_pos trivial, if_pos trivial, if_pos (by omega), unq_drop]
    show Option.map _ (unq 0 t) = _
    rw [ih.2]
    rfl
  | bad b cs t hb hno ht ih =>
    refine ⟨plain_high hb ih.1, ?_⟩
    have hv : ∀ k, utf8Valid ((b :: t).take (k + 1)) = false := by
      intro k
      cases e : utf8Valid ((b :: t).take (k + 1)) with
      | false => rfl
      | true =>
        exfalso
        obtain ⟨ds, hd⟩ := (C23_utf8 _).1 e
        cases ds with
        | nil => simp at hd
        | cons c ds =>
          rw [List.flatMap_cons] at hd
          apply hno c (ds.flatMap String.utf8EncodeChar ++ (b :: t).drop (k + 1))
          rw [← List.append_assoc, ← hd, List.take_append_drop]
    simp only [unq]
    rw [if_neg (ne92 hb), if_neg (by intro h; rcases h with rfl | h; exact absurd hb (by decide); omega), if_neg (by omega)]
    simp only [hv 1, hv 2, hv 3, Bool.false_eq_true, if_false, ih.2]
    rfl
where
  getu4_some {t : Bytes} {m : Nat} (h : getu4 t = some m) : ∃ a b c d x y z u r, t = 92 :: 117 :: a :: b :: c :: d :: r ∧
      Hex a x ∧ Hex b y ∧ Hex c z ∧ Hex d u ∧ ((x * 16 + y) * 16 + z) * 16 + u = m := by
    unfold getu4 at h
    split at h
    · split at h
      · rename_i hxy
        obtain ⟨rfl, rfl⟩ := hxy
        split at h
        · rename_i ha hb hc hd
          injection h with h
          exact ⟨_, _, _, _, _, _, _, _, _, rfl, hex_val.2 ha, hex_val.2 hb, hex_val.2 hc, hex_val.2 hd, h⟩
        · cases h
      · cases h
    · cases h

/-- Whatever the scanner lets through between quotes stands for something. -/
theorem str_total (n : Nat) : ∀ t : Bytes, t.length ≤ n → Lex t → ∃ cs, Str cs t := by
  induction n with
  | zero =>
    intro t hn h
    cases t with
    | nil => exact ⟨[], .nil⟩
    | cons => simp at hn
  | succ n ih =>
    intro t hn h
    cases h with
    | nil => exact ⟨[], .nil⟩
    | plain b t h1 h2 h3 ht =>
      simp only [List.length_cons] at hn
      by_cases hx : ∃ c r, b :: t = String.utf8EncodeChar c ++ r
      · obtain ⟨c, r, e⟩ := hx
        have hr : Lex r ∧ c ≠ '"' ∧ c ≠ '\\' ∧ 32 ≤ c.toNat ∧ r.length ≤ n := by
          rcases char_bytes c with ⟨hlt, e'⟩ | ⟨b0, b1, e', g, g1⟩ | ⟨b0, b1, b2, e', g, g1, g2, f2⟩ | ⟨b0, b1, b2, b3, e', g, g1, g2, g3, f2, f3⟩
          · rw [e'] at e
            simp only [List.cons_append, List.nil_append, List.cons.injEq] at e
            obtain ⟨rfl, rfl⟩ := e
            have hn' : (UInt8.ofNat c.toNat).toNat = c.toNat := by simp only [UInt8.toNat_ofNat']; omega
            refine ⟨ht, ?_, ?_, by omega, by omega⟩
            · rintro rfl; exact h1 (by decide)
            · rintro rfl; exact h2 (by decide)
          all_goals
            have hc : ∀ ch : Char, ch.toNat < 128 → c ≠ ch := by
              rintro ch hch rfl
              have hs := String.utf8EncodeChar_eq_singleton (c := c) (by
                rw [Char.utf8Size_eq_one_iff]
                exact UInt32.le_iff_toNat_le.2 (by show c.toNat ≤ 127; omega))
              rw [hs] at e'
              cases e'
            have h32 : 32 ≤ c.toNat := by
              false_or_by_contra
              exact hc c (by omega) rfl
            rw [e'] at e
            simp only [List.cons_append, List.nil_append, List.cons.injEq] at e
            obtain ⟨rfl, rfl⟩ := e
            refine ⟨?_, hc _ (by decide), hc _ (by decide), h32, by simp only [List.length_cons] at hn; omega⟩
          · exact lex_tail (ne92 g1) ht
          · exact lex_tail (ne92 g2) (lex_tail (ne92 g1) ht)
          · exact lex_tail (ne92 g3) (lex_tail (ne92 g2) (lex_tail (ne92 g1) ht))
        obtain ⟨l, c1, c2, c3, c4⟩ := hr
        obtain ⟨cs, hcs⟩ := ih r c4 l
        rw [e]
        exact ⟨_, .plain c cs r c1 c2 c3 hcs⟩
      · have hno : ∀ c r, b :: t ≠ String.utf8EncodeChar c ++ r := fun c r e => hx ⟨c, r, e⟩
        have hb : 128 ≤ b.toNat := by
          false_or_by_contra
          have hv : b.toNat.isValidChar := .inl (by omega)
          have hn' : (Char.ofNat b.toNat).toNat = b.toNat := by
            unfold Char.ofNat
            rw [dif_pos hv]
            rfl
          have hs := String.utf8EncodeChar_eq_singleton (c := Char.ofNat b.toNat) (by
            rw [Char.utf8Size_eq_one_iff]
            exact UInt32.le_iff_toNat_le.2 (by show (Char.ofNat b.toNat).toNat ≤ 127; omega))
          refine hno (Char.ofNat b.toNat) t ?_
          rw [hs]
          have : (Char.ofNat b.toNat).val.toUInt8 = b := by
            apply UInt8.toNat_inj.1
            have : (Char.ofNat b.toNat).val.toNat = b.toNat := hn'
            simp only [UInt32.toNat_toUInt8, this]
            omega
          rw [this]
          rfl
        obtain ⟨cs, hcs⟩ := ih t (by omega) ht
        exact ⟨_, .bad b cs t hb hno hcs⟩
    | esc c e t h ht =>
      simp only [List.length_cons] at hn
      obtain ⟨cs, hcs⟩ := ih t (by omega) ht
      exact ⟨_, .esc c e cs t h hcs⟩
    | uni a b c d x y z u t ha hb hc hd ht =>
      simp only [List.length_cons] at hn
      obtain ⟨cs, hcs⟩ := ih t (by omega) ht
      have hxl := hex_lt ha; have hyl := hex_lt hb; have hzl := hex_lt hc; have hul := hex_lt hd
      by_cases hs : 0xD800 ≤ ((x * 16 + y) * 16 + z) * 16 + u ∧ ((x * 16 + y) * 16 + z) * 16 + u ≤ 0xDFFF
      · by_cases hp : ((x * 16 + y) * 16 + z) * 16 + u ≤ 0xDBFF ∧ LowNext t
        · obtain ⟨hhi, a', b', c', d', x', y', z', u', r, rfl, i1, i2, i3, i4, hlo⟩ := hp
          simp only [List.length_cons] at hn
          obtain ⟨cs', hcs'⟩ := ih r (by omega) (lex_uni ht _ _ _ _ _ rfl)
          have hv : (0x10000 + (((x * 16 + y) * 16 + z) * 16 + u - 0xD800) * 0x400 + (((x' * 16 + y') * 16 + z') * 16 + u' - 0xDC00)).isValidChar :=
            .inr ⟨by omega, by omega⟩
          refine ⟨_, .pair (Char.ofNat (0x10000 + (((x * 16 + y) * 16 + z) * 16 + u - 0xD800) * 0x400 + (((x' * 16 + y') * 16 + z') * 16 + u' - 0xDC00)))
            a b c d a' b' c' d' x y z u x' y' z' u' _ _ cs' r ha hb hc hd i1 i2 i3 i4 rfl rfl ⟨hs.1, hhi⟩ hlo ?_ hcs'⟩
          unfold Char.ofNat
          rw [dif_pos hv]
          rfl
        · exact ⟨_, .lone a b c d x y z u _ cs t ha hb hc hd rfl hs (fun h1 h2 => hp ⟨h1, h2⟩) hcs⟩
      · have hv : (((x * 16 + y) * 16 + z) * 16 + u).isValidChar := by
          unfold Nat.isValidChar
          omega
        refine ⟨_, .uni (Char.ofNat (((x * 16 + y) * 16 + z) * 16 + u)) a b c d x y z u cs t ha hb hc hd ?_ hcs⟩
        unfold Char.ofNat
        rw [dif_pos hv]
        rfl

/-- The meaning of a string for the decoder. -/
def Means (s t : Bytes) : Prop := Lex t ∧ unq 0 t = some s

theorem plainly_means {s t : Bytes} (h : Plainly s t) : Means s t := by
  obtain ⟨cs, rfl, hs⟩ := h
  exact str_means hs

theorem means_plainly {s t : Bytes} (h : Means s t) : Plainly s t := by
  obtain ⟨cs, hcs⟩ := str_total _ t (Nat.le_refl _) h.1
  have := (str_means hcs).2
  rw [h.2] at this
  injection this with this
  exact ⟨cs, this, hcs⟩

theorem string_pos {s t : Bytes} (h : Means s t) (r : Bytes) : string (t ++ 34 :: r) = some (s, r) := by
  unfold string
  rw [raw_pos h.1]
  simp [h.2]

theorem string_some {t s r : Bytes} (h : string t = some (s, r)) : ∃ q, Means s q ∧ t = q ++ 34 :: r := by
  unfold string at h
  split at h
  · cases h
  · rename_i k r' hr
    simp only [Option.map_eq_some_iff, Prod.mk.injEq] at h
    obtain ⟨s', hu, rfl, rfl⟩ := h
    obtain ⟨l1, l2⟩ := raw_some _ _ _ _ (Nat.le_refl _) hr
    exact ⟨k, ⟨l1, hu⟩, l2⟩

/-! ## Values -/

theorem ascii_lits : ascii "null" = [110, 117, 108, 108] ∧ ascii "true" = [116, 114, 117, 101] ∧ ascii "false" = [102, 97, 108, 115, 101] :=
  ⟨rfl, rfl, rfl⟩

theorem drop_prefix (w t : Bytes) : literal.dropPrefix? w (w ++ t) = some t := by
  induction w with
  | nil => rfl
  | cons a w ih => simp [literal.dropPrefix?, ih]

theorem drop_prefix_some {w t r : Bytes} (h : literal.dropPrefix? w t = some r) : t = w ++ r := by
  induction w generalizing t with
  | nil => simp [literal.dropPrefix?] at h; simp [h]
  | cons a w ih =>
    cases t with
    | nil => simp [literal.dropPrefix?] at h
    | cons b t =>
      simp only [literal.dropPrefix?] at h
      split at h
      · rename_i e
        rw [ih h, e]; rfl
      · cases h

/-- The first byte of a value. -/
theorem spells_head {M : Bytes → Bytes → Prop} {v : J} {s : Bytes} (h : Spells M v s) :
    ∃ b t, s = b :: t ∧ isWs b = false ∧ b ≠ 93 ∧ b ≠ 125 ∧ b ≠ 44 ∧ b ≠ 58 := by
  cases h with
  | null => exact ⟨_, _, ascii_lits.1, by decide⟩
  | true_ => exact ⟨_, _, ascii_lits.2.1, by decide⟩
  | false_ => exact ⟨_, _, ascii_lits.2.2, by decide⟩
  | str => exact ⟨_, _, rfl, by decide⟩
  | arr0 => exact ⟨_, _, rfl, by decide⟩
  | arr => exact ⟨_, _, rfl, by decide⟩
  | obj0 => exact ⟨_, _, rfl, by decide⟩
  | obj => exact ⟨_, _, rfl, by decide⟩
  | num t h =>
    obtain ⟨b, t, e, h⟩ := num_head h
    refine ⟨b, t, e, ?_⟩
    rcases h with rfl | hd
    · decide
    · have : 48 ≤ b.toNat ∧ b.toNat ≤ 57 := by simpa [isDigit] using hd
      refine ⟨?_, ?_, ?_, ?_, ?_⟩
      · cases hw : isWs b with
        | false => rfl
        | true =>
          rcases (ws_isWs (w := [b])).2 (by simpa using hw) b (.head _) with rfl | rfl | rfl | rfl <;> (revert this; decide)
      all_goals (rintro rfl; revert this; decide)
where
  num_head {t : Bytes} (h : Num t) : ∃ b r, t = b :: r ∧ (b = 45 ∨ isDigit b = true) := by
    obtain ⟨sign, a, b, e, hs, ha, hb, he⟩ := h
    rcases hs with rfl | rfl
    · rcases ha with rfl | ⟨hd, _⟩
      · exact ⟨48, _, rfl, .inr (by decide)⟩
      · obtain ⟨c, x, rfl, hc⟩ := digits_head hd
        exact ⟨c, _, rfl, .inr hc⟩
    · exact ⟨45, _, rfl, .inl rfl⟩

theorem literal_num {t r : Bytes} (h : Num t) (hr : Stop r) : literal (t ++ r) = some (.num t, r) := by
  obtain ⟨b, x, rfl, hb⟩ := spells_head.num_head h
  have hp : ∀ (c : UInt8) (w : Bytes), c ≠ 45 → isDigit c = false → literal.dropPrefix? (c :: w) (b :: x ++ r) = none := by
    intro c w h1 h2
    simp only [List.cons_append, literal.dropPrefix?]
    rw [if_neg]
    rintro rfl
    rcases hb with hb | hb
    · exact h1 hb
    · rw [h2] at hb; cases hb
  unfold literal
  rw [hp _ _ (by decide) (by decide), hp _ _ (by decide) (by decide), hp _ _ (by decide) (by decide), num_pos h hr]
  rfl

theorem stop_ws {w : Bytes} (hw : Ws w) {c : UInt8} (hc : c = 93 ∨ c = 125 ∨ c = 44) (r : Bytes) : Stop (w ++ c :: r) := by
  intro b hb
  cases w with
  | nil =>
    simp at hb
    subst hb
    rcases hc with rfl | rfl | rfl <;> decide
  | cons x w =>
    simp at hb
    subst hb
    rcases hw x (.head _) with rfl | rfl | rfl | rfl <;> decide

mutual
/-- Every text for a value is read. -/
theorem value_pos {v : J} {s : Bytes} : Spells Means v s → ∀ (n : Nat) (w rest : Bytes), 2 * s.length ≤ n → Ws w → ((∃ x, v = .num x) → Stop rest) →
    value n (w ++ s ++ rest) = some (v, rest)
  | .null, n, w, rest, hn, hw, hr => value_lit hw rest ascii_lits.1 (by decide) (by decide) (by decide) (by decide) hn rfl
  | .true_, n, w, rest, hn, hw, hr => value_lit hw rest ascii_lits.2.1 (by decide) (by decide) (by decide) (by decide) hn rfl
  | .false_, n, w, rest, hn, hw, hr => value_lit hw rest ascii_lits.2.2 (by decide) (by decide) (by decide) (by decide) hn rfl
  | .num t h, n, w, rest, hn, hw, hr => by
    obtain ⟨b, x, e, hb⟩ := spells_head.num_head h
    obtain ⟨b', x', e', h1, _⟩ := spells_head (Spells.num (M := Means) t h)
    rw [e] at e'
    simp only [List.cons.injEq] at e'
    obtain ⟨rfl, rfl⟩ := e'
    have hne : ∀ c : UInt8, isDigit c = false → c ≠ 45 → b ≠ c := by
      rintro c h1 h2 rfl
      rcases hb with hb | hb
      · exact h2 hb
      · rw [h1] at hb; cases hb
    exact value_lit hw rest e h1 (hne _ (by decide) (by decide)) (hne _ (by decide) (by decide)) (hne _ (by decide) (by decide)) hn
      (literal_num h (hr ⟨t, rfl⟩))
  | .str s t h, n, w, rest, hn, hw, hr => by
    obtain ⟨m, rfl⟩ : ∃ m, n = m + 1 := ⟨n - 1, by simp at hn; omega⟩
    have e : w ++ (34 :: t ++ [34]) ++ rest = w ++ 34 :: (t ++ 34 :: rest) := by simp
    rw [e, value, expect_neg hw (by decide) (by decide)]
    simp only
    rw [expect_neg hw (by decide) (by decide)]
    simp only
    rw [expect_pos hw (by decide)]
    simp only
    rw [string_pos h]
    rfl
  | .arr0 w' h, n, w, rest, hn, hw, hr => by
    obtain ⟨m, rfl⟩ : ∃ m, n = m + 1 := ⟨n - 1, by simp at hn; omega⟩
    have e : w ++ (91 :: w' ++ [93]) ++ rest = w ++ 91 :: (w' ++ 93 :: rest) := by simp
    rw [e, value, expect_neg hw (by decide) (by decide)]
    simp only
    rw [expect_pos hw (by decide)]
    simp only
    rw [expect_pos h (by decide)]
  | .obj0 w' h, n, w, rest, hn, hw, hr => by
    obtain ⟨m, rfl⟩ : ∃ m, n = m + 1 := ⟨n - 1, by simp at hn; omega⟩
    have e : w ++ (123 :: w' ++ [125]) ++ rest = w ++ 123 :: (w' ++ 125 :: rest) := by simp
    rw [e, value, expect_pos hw (by decide)]
    simp only
    rw [expect_pos h (by decide)]
  | .arr l t h, n, w, rest, hn, hw, hr => by
    obtain ⟨m, rfl⟩ : ∃ m, n = m + 1 := ⟨n - 1, by simp at hn; omega⟩
    have e : w ++ (91 :: t ++ [93]) ++ rest = w ++ 91 :: (t ++ 93 :: rest) := by simp
    rw [e, value, expect_neg hw (by decide) (by decide)]
    simp only
    rw [expect_pos hw (by decide)]
    simp only
    have hx : expect 93 (t ++ 93 :: rest) = none := by
      cases h with
      | one v w1 s w2 h1 h h2 =>
        obtain ⟨b, x, rfl, hb, h93, _⟩ := spells_head h
        have e : w1 ++ (b :: x) ++ w2 ++ 93 :: rest = w1 ++ b :: (x ++ w2 ++ 93 :: rest) := by simp
        rw [e, expect_neg h1 hb h93]
      | more v l w1 s w2 t h1 h h2 hl =>
        obtain ⟨b, x, rfl, hb, h93, _⟩ := spells_head h
        have e : w1 ++ (b :: x) ++ w2 ++ 44 :: t ++ 93 :: rest = w1 ++ b :: (x ++ w2 ++ 44 :: t ++ 93 :: rest) := by simp
        rw [e, expect_neg h1 hb h93]
    rw [hx]
    simp only
    rw [elems_pos h m rest (by simp at hn; omega)]
    rfl
  | .obj l t h, n, w, rest, hn, hw, hr => by
    obtain ⟨m, rfl⟩ : ∃ m, n = m + 1 := ⟨n - 1, by simp at hn; omega⟩
    have e : w ++ (123 :: t ++ [125]) ++ rest = w ++ 123 :: (t ++ 125 :: rest) := by simp
    rw [e, value, expect_pos hw (by decide)]
    simp only
    have hx : expect 125 (t ++ 125 :: rest) = none := by
      cases h with
      | one k v w0 q w1 w2 s w3 h0 hk h1 h2 h h3 =>
        simp only [List.append_assoc, List.cons_append]
        rw [expect_neg h0 (by decide) (by decide)]
      | more k v l w0 q w1 w2 s w3 t h0 hk h1 h2 h h3 hl =>
        simp only [List.append_assoc, List.cons_append]
        rw [expect_neg h0 (by decide) (by decide)]
    rw [hx]
    simp only
    rw [members_pos h m rest (by simp at hn; omega)]
    rfl

theorem value_lit {w : Bytes} (hw : Ws w) (rest : Bytes) {s : Bytes} {b : UInt8} {t : Bytes} (e : s = b :: t) (hb : isWs b = false)
    (h1 : b ≠ 123) (h2 : b ≠ 91) (h3 : b ≠ 34) {n : Nat} (hn : 2 * s.length ≤ n) {v : J} (hl : literal (s ++ rest) = some (v, rest)) :
    value n (w ++ s ++ rest) = some (v, rest) := by
  obtain ⟨m, rfl⟩ : ∃ m, n = m + 1 := ⟨n - 1, by rw [e] at hn; simp at hn; omega⟩
  have e' : w ++ s ++ rest = w ++ b :: (t ++ rest) := by rw [e]; simp
  have e2 : (w ++ b :: (t ++ rest)).dropWhile isWs = s ++ rest := by
    rw [dropWs hw, dropNone hb, e]; rfl
  rw [e', value, expect_neg hw hb h1]
  simp only
  rw [expect_neg hw hb h2]
  simp only
  rw [expect_neg hw hb h3]
  simp only
  rw [e2, hl]

theorem elems_pos {l : List J} {t : Bytes} : Elems Means l t → ∀ (n : Nat) (rest : Bytes), 2 * t.length + 1 ≤ n →
    elems n (t ++ 93 :: rest) = some (l, rest)
  | .one v w1 s w2 h1 h h2, n, rest, hn => by
    obtain ⟨m, rfl⟩ : ∃ m, n = m + 1 := ⟨n - 1, by omega⟩
    have e : w1 ++ s ++ w2 ++ 93 :: rest = w1 ++ s ++ (w2 ++ 93 :: rest) := by simp
    rw [e, elems, value_pos h m w1 (w2 ++ 93 :: rest) (by simp at hn; omega) h1 (fun _ => stop_ws h2 (.inl rfl) rest)]
    simp only
    rw [expect_pos h2 (by decide)]
  | .more v l w1 s w2 t h1 h h2 hl, n, rest, hn => by
    obtain ⟨m, rfl⟩ : ∃ m, n = m + 1 := ⟨n - 1, by omega⟩
    have e : w1 ++ s ++ w2 ++ 44 :: t ++ 93 :: rest = w1 ++ s ++ (w2 ++ 44 :: (t ++ 93 :: rest)) := by simp
    rw [e, elems, value_pos h m w1 _ (by simp at hn; omega) h1 (fun _ => stop_ws h2 (.inr (.inr rfl)) _)]
    simp only
    rw [expect_neg h2 (by decide) (by decide)]
    simp only
    rw [expect_pos h2 (by decide)]
    simp only
    rw [elems_pos hl m rest (by simp at hn; omega)]
    rfl

theorem members_pos {l : List (Bytes × J)} {t : Bytes} : Members Means l t → ∀ (n : Nat) (rest : Bytes), 2 * t.length + 1 ≤ n →
    members n (t ++ 125 :: rest) = some (l, rest)
  | .one k v w0 q w1 w2 s w3 h0 hk h1 h2 h h3, n, rest, hn => by
    obtain ⟨m, rfl⟩ : ∃ m, n = m + 1 := ⟨n - 1, by omega⟩
    have e : w0 ++ 34 :: q ++ 34 :: w1 ++ 58 :: w2 ++ s ++ w3 ++ 125 :: rest =
        w0 ++ 34 :: (q ++ 34 :: (w1 ++ 58 :: (w2 ++ s ++ (w3 ++ 125 :: rest)))) := by simp
    rw [e, members, expect_pos h0 (by decide)]
    simp only
    rw [string_pos hk]
    simp only
    rw [expect_pos h1 (by decide)]
    simp only
    rw [value_pos h m w2 _ (by simp at hn; omega) h2 (fun _ => stop_ws h3 (.inr (.inl rfl)) rest)]
    simp only
    rw [expect_pos h3 (by decide)]
  | .more k v l w0 q w1 w2 s w3 t h0 hk h1 h2 h h3 hl, n, rest, hn => by
    obtain ⟨m, rfl⟩ : ∃ m, n = m + 1 := ⟨n - 1, by omega⟩
    have e : w0 ++ 34 :: q ++ 34 :: w1 ++ 58 :: w2 ++ s ++ w3 ++ 44 :: t ++ 125 :: rest =
        w0 ++ 34 :: (q ++ 34 :: (w1 ++ 58 :: (w2 ++ s ++ (w3 ++ 44 :: (t ++ 125 :: rest))))) := by simp
    rw [e, members, expect_pos h0 (by decide)]
    simp only
    rw [string_pos hk]
    simp only
    rw [expect_pos h1 (by decide)]
    simp only
    rw [value_pos h m w2 _ (by simp at hn; omega) h2 (fun _ => stop_ws h3 (.inr (.inr rfl)) _)]
    simp only
    rw [expect_neg h3 (by decide) (by decide)]
    simp only
    rw [expect_pos h3 (by decide)]
    simp only
    rw [members_pos hl m rest (by simp at hn; omega)]
    rfl
end

/-- Only texts for values are read. -/
theorem read_some (n : Nat) :
    (∀ t v r, value n t = some (v, r) → ∃ w s, Ws w ∧ Spells Means v s ∧ t = w ++ s ++ r) ∧
    (∀ t l r, elems n t = some (l, r) → ∃ s, Elems Means l s ∧ t = s ++ 93 :: r) ∧
    (∀ t l r, members n t = some (l, r) → ∃ s, Members Means l s ∧ t = s ++ 125 :: r) := by
  induction n with
  | zero => exact ⟨by simp [value], by simp [elems], by simp [members]⟩
  | succ n ih =>
    obtain ⟨ihv, ihe, ihm⟩ := ih
    refine ⟨?_, ?_, ?_⟩
    · intro t v r h
      rw [value] at h
      split at h
      · rename_i r1 h1
        obtain ⟨w, hw, rfl⟩ := expect_some h1
        split at h
        · rename_i r2 h2
          obtain ⟨w', hw', rfl⟩ := expect_some h2
          simp only [Option.some.injEq, Prod.mk.injEq] at h
          obtain ⟨rfl, rfl⟩ := h
          exact ⟨w, _, hw, .obj0 w' hw', by simp⟩
        · simp only [Option.map_eq_some_iff, Prod.mk.injEq, Prod.exists] at h
          obtain ⟨l, r2, hm, rfl, rfl⟩ := h
          obtain ⟨s, hs, rfl⟩ := ihm _ _ _ hm
          exact ⟨w, _, hw, .obj l s hs, by simp⟩
      · split at h
        · rename_i r1 h1
          obtain ⟨w, hw, rfl⟩ := expect_some h1
          split at h
          · rename_i r2 h2
            obtain ⟨w', hw', rfl⟩ := expect_some h2
            simp only [Option.some.injEq, Prod.mk.injEq] at h
            obtain ⟨rfl, rfl⟩ := h
            exact ⟨w, _, hw, .arr0 w' hw', by simp⟩
          · simp only [Option.map_eq_some_iff, Prod.mk.injEq, Prod.exists] at h
            obtain ⟨l, r2, hm, rfl, rfl⟩ := h
            obtain ⟨s, hs, rfl⟩ := ihe _ _ _ hm
            exact ⟨w, _, hw, .arr l s hs, by simp⟩
        · split at h
          · rename_i r1 h1
            obtain ⟨w, hw, rfl⟩ := expect_some h1
            simp only [Option.map_eq_some_iff, Prod.mk.injEq, Prod.exists] at h
            obtain ⟨s, r2, hs, rfl, rfl⟩ := h
            obtain ⟨q, hq, rfl⟩ := string_some hs
            exact ⟨w, _, hw, .str s q hq, by simp⟩
          · have key : ∀ x, t.dropWhile isWs = x → ∃ w, Ws w ∧ t = w ++ x := by
              intro x hx
              refine ⟨t.takeWhile isWs, ws_isWs.2 fun b hb => List.all_eq_true.1 List.all_takeWhile b hb, ?_⟩
              rw [← hx]
              exact List.takeWhile_append_dropWhile.symm
            obtain ⟨w, hw, ht⟩ := key _ rfl
            generalize hx : t.dropWhile isWs = x at h ht
            rw [ht]
            unfold literal at h
            split at h
            · rename_i r1 h1
              simp only [Option.some.injEq, Prod.mk.injEq] at h
              obtain ⟨rfl, rfl⟩ := h
              exact ⟨w, _, hw, .null, by rw [drop_prefix_some h1, ascii_lits.1]; simp⟩
            · split at h
              · rename_i r1 h1
                simp only [Option.some.injEq, Prod.mk.injEq] at h
                obtain ⟨rfl, rfl⟩ := h
                exact ⟨w, _, hw, .true_, by rw [drop_prefix_some h1, ascii_lits.2.1]; simp⟩
              · split at h
                · rename_i r1 h1
                  simp only [Option.some.injEq, Prod.mk.injEq] at h
                  obtain ⟨rfl, rfl⟩ := h
                  exact ⟨w, _, hw, .false_, by rw [drop_prefix_some h1, ascii_lits.2.2]; simp⟩
                · simp only [Option.map_eq_some_iff, Prod.mk.injEq, Prod.exists] at h
                  obtain ⟨y, r1, hn, rfl, rfl⟩ := h
                  obtain ⟨n1, n2⟩ := num_some hn
                  exact ⟨w, _, hw, .num y n1, by rw [n2]; simp⟩
    · intro t l r h
      rw [elems] at h
      split at h
      · cases h
      · rename_i v r1 hv
        obtain ⟨w, s, hw, hs, rfl⟩ := ihv _ _ _ hv
        split at h
        · rename_i r2 h2
          obtain ⟨w', hw', rfl⟩ := expect_some h2
          simp only [Option.some.injEq, Prod.mk.injEq] at h
          obtain ⟨rfl, rfl⟩ := h
          exact ⟨_, .one v w s w' hw hs hw', by simp⟩
        · split at h
          · cases h
          · rename_i r2 h2
            obtain ⟨w', hw', rfl⟩ := expect_some h2
            simp only [Option.map_eq_some_iff, Prod.mk.injEq, Prod.exists] at h
            obtain ⟨l', r3, hm, rfl, rfl⟩ := h
            obtain ⟨s', hs', rfl⟩ := ihe _ _ _ hm
            exact ⟨_, .more v l' w s w' s' hw hs hw' hs', by simp⟩
    · intro t l r h
      rw [members] at h
      split at h
      · cases h
      · rename_i r0 h0
        obtain ⟨w0, hw0, rfl⟩ := expect_some h0
        split at h
        · cases h
        · rename_i k r1 hk
          obtain ⟨q, hq, rfl⟩ := string_some hk
          split at h
          · cases h
          · rename_i r2 h2
            obtain ⟨w1, hw1, rfl⟩ := expect_some h2
            split at h
            · cases h
            · rename_i v r3 hv
              obtain ⟨w2, s, hw2, hs, rfl⟩ := ihv _ _ _ hv
              split at h
              · rename_i r4 h4
                obtain ⟨w3, hw3, rfl⟩ := expect_some h4
                simp only [Option.some.injEq, Prod.mk.injEq] at h
                obtain ⟨rfl, rfl⟩ := h
                exact ⟨_, .one k v w0 q w1 w2 s w3 hw0 hq hw1 hw2 hs hw3, by simp⟩
              · split at h
                · cases h
                · rename_i r4 h4
                  obtain ⟨w3, hw3, rfl⟩ := expect_some h4
                  simp only [Option.map_eq_some_iff, Prod.mk.injEq, Prod.exists] at h
                  obtain ⟨l', r5, hm, rfl, rfl⟩ := h
                  obtain ⟨s', hs', rfl⟩ := ihm _ _ _ hm
                  exact ⟨_, .more k v l' w0 q w1 w2 s w3 s' hw0 hq hw1 hw2 hs hw3 hs', by simp⟩

/-- What begins with a text for a value gives that value. -/
theorem parse_pos {v : J} {w s rest : Bytes} (hw : Ws w) (h : Spells Means v s) (hr : (∃ x, v = .num x) → Stop rest) :
    parse (w ++ s ++ rest) = some v := by
  unfold parse
  rw [value_pos h _ w rest (by simp; omega) hw hr]
  rfl

mutual
theorem spells_mono {M M' : Bytes → Bytes → Prop} (hm : ∀ s t, M s t → M' s t) {v : J} {s : Bytes} : Spells M v s → Spells M' v s
  | .null => .null
  | .true_ => .true_
  | .false_ => .false_
  | .num t h => .num t h
  | .str s t h => .str s t (hm s t h)
  | .arr0 w h => .arr0 w h
  | .arr l t h => .arr l t (elems_mono hm h)
  | .obj0 w h => .obj0 w h
  | .obj l t h => .obj l t (members_mono hm h)

theorem elems_mono {M M' : Bytes → Bytes → Prop} (hm : ∀ s t, M s t → M' s t) {l : List J} {t : Bytes} : Elems M l t → Elems M' l t
  | .one v w1 s w2 h1 h h2 => .one v w1 s w2 h1 (spells_mono hm h) h2
  | .more v l w1 s w2 t h1 h h2 hl => .more v l w1 s w2 t h1 (spells_mono hm h) h2 (elems_mono hm hl)

theorem members_mono {M M' : Bytes → Bytes → Prop} (hm : ∀ s t, M s t → M' s t) {l : List (Bytes × J)} {t : Bytes} :
    Members M l t → Members M' l t
  | .one k v w0 q w1 w2 s w3 h0 hk h1 h2 h h3 => .one k v w0 q w1 w2 s w3 h0 (hm k q hk) h1 h2 (spells_mono hm h) h3
  | .more k v l w0 q w1 w2 s w3 t h0 hk h1 h2 h h3 hl =>
    .more k v l w0 q w1 w2 s w3 t h0 (hm k q hk) h1 h2 (spells_mono hm h) h3 (members_mono hm hl)
end

/-- The decoder reads exactly the texts that begin, after white space, with a JSON text (numbers aside), whatever follows. -/
theorem parse_iff {v : J} (hv : ∀ x, v ≠ .num x) (t : Bytes) :
    parse t = some v ↔ ∃ w s rest, Ws w ∧ Spells Means v s ∧ t = w ++ s ++ rest := by
  constructor
  · intro h
    unfold parse at h
    simp only [Option.map_eq_some_iff, Prod.exists, exists_and_right, exists_eq_right] at h
    obtain ⟨r, h⟩ := h
    obtain ⟨w, s, hw, hs, e⟩ := (read_some _).1 _ _ _ h
    exact ⟨w, s, r, hw, hs, e⟩
  · rintro ⟨w, s, rest, hw, hs, rfl⟩
    exact parse_pos hw hs (fun ⟨x, e⟩ => absurd e (hv x))

mutual
/-- All strings of a value that was read are valid UTF-8. -/
inductive Valid : J → Prop
  | null : Valid .null
  | bool (b : Bool) : Valid (.bool b)
  | num (t : Bytes) (h : Num t) : Valid (.num t)
  | str (s : Bytes) (h : utf8Valid s = true) : Valid (.str s)
  | arr (l : List J) (h : ValidL l) : Valid (.arr l)
  | obj (l : List (Bytes × J)) (h : ValidM l) : Valid (.obj l)

inductive ValidL : List J → Prop
  | nil : ValidL []
  | cons (v : J) (l : List J) (h : Valid v) (hl : ValidL l) : ValidL (v :: l)

inductive ValidM : List (Bytes × J) → Prop
  | nil : ValidM []
  | cons (k : Bytes) (v : J) (l : List (Bytes × J)) (hk : utf8Valid k = true) (h : Valid v) (hl : ValidM l) : ValidM ((k, v) :: l)
end

theorem means_valid {s t : Bytes} (h : Means s t) : utf8Valid s = true := unq_valid _ _ _ (Nat.le_refl _) h.2

mutual
theorem spells_valid {v : J} {s : Bytes} : Spells Means v s → Valid v
  | .null => .null
  | .true_ => .bool _
  | .false_ => .bool _
  | .num t h => .num t h
  | .str s t h => .str s (means_valid h)
  | .arr0 w h => .arr _ .nil
  | .arr l t h => .arr l (elems_valid h)
  | .obj0 w h => .obj _ .nil
  | .obj l t h => .obj l (members_valid h)

theorem elems_valid {l : List J} {t : Bytes} : Elems Means l t → ValidL l
  | .one v w1 s w2 h1 h h2 => .cons v [] (spells_valid h) .nil
  | .more v l w1 s w2 t h1 h h2 hl => .cons v l (spells_valid h) (elems_valid hl)

theorem members_valid {l : List (Bytes × J)} {t : Bytes} : Members Means l t → ValidM l
  | .one k v w0 q w1 w2 s w3 h0 hk h1 h2 h h3 => .cons k v [] (means_valid hk) (spells_valid h) .nil
  | .more k v l w0 q w1 w2 s w3 t h0 hk h1 h2 h h3 hl => .cons k v l (means_valid hk) (spells_valid h) (members_valid hl)
end

theorem parse_valid {t : Bytes} {v : J} (h : parse t = some v) : Valid v := by
  unfold parse at h
  simp only [Option.map_eq_some_iff, Prod.exists, exists_and_right, exists_eq_right] at h
  obtain ⟨r, h⟩ := h
  obtain ⟨w, s, hw, hs, e⟩ := (read_some _).1 _ _ _ h
  exact spells_valid hs

end MS.Json
