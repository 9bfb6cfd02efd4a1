import Verif.Model.Proto
/-!
# What `string` fields may hold: UTF-8 (part of C23)

The specification is Lean's own encoder `String.utf8EncodeChar`: a byte string is valid if it is the encoding of some
characters (Unicode scalar values).
-/
namespace MS.Proto

/-- The encoding of some characters. -/
def IsUtf8 (bs : Bytes) : Prop := ∃ cs : List Char, bs = cs.flatMap String.utf8EncodeChar

theorem encode_of {n : Nat} (hn : n < 0xD800 ∨ 0xDFFF < n ∧ n < 0x110000) {bs : Bytes}
    (h : bs.map UInt8.toNat =
      if n ≤ 0x7f then [n] else if n ≤ 0x7ff then [n / 64 + 0xc0, n % 64 + 0x80]
      else if n ≤ 0xffff then [n / 4096 + 0xe0, n / 64 % 64 + 0x80, n % 64 + 0x80]
      else [n / 262144 + 0xf0, n / 4096 % 64 + 0x80, n / 64 % 64 + 0x80, n % 64 + 0x80]) :
    ∃ c : Char, bs = String.utf8EncodeChar c := by
  have hv : n.isValidChar := by
    rcases hn with h | h
    · exact .inl h
    · exact .inr h
  refine ⟨Char.ofNatAux n hv, ?_⟩
  have hinj : ∀ a b : Bytes, a.map UInt8.toNat = b.map UInt8.toNat → a = b := by
    intro a
    induction a with
    | nil => intro b h; cases b with
      | nil => rfl
      | cons => simp at h
    | cons x xs ih => intro b h; cases b with
      | nil => simp at h
      | cons y ys =>
        simp only [List.map_cons, List.cons.injEq] at h
        rw [UInt8.toNat_inj.mp h.1, ih ys h.2]
  apply hinj
  rw [h]
  have e : (Char.ofNatAux n hv).val.toNat = n := by
    simp [Char.ofNatAux, UInt32.toNat]
  simp only [String.utf8EncodeChar, e]
  by_cases h1 : n ≤ 0x7f
  · simp only [h1, if_true, List.map_cons, List.map_nil, UInt8.toNat_ofNat']
    congr 1; omega
  · by_cases h2 : n ≤ 0x7ff
    · simp only [h1, h2, if_true, if_false, List.map_cons, List.map_nil, UInt8.toNat_ofNat']
      congr 1
      · omega
      · congr 1; omega
    · by_cases h3 : n ≤ 0xffff
      · simp only [h1, h2, h3, if_true, if_false, List.map_cons, List.map_nil, UInt8.toNat_ofNat']
        congr 1
        · omega
        · congr 1
          · omega
          · congr 1; omega
      · simp only [h1, h2, h3, if_false, List.map_cons, List.map_nil, UInt8.toNat_ofNat']
        congr 1
        · omega
        · congr 1
          · omega
          · congr 1
            · omega
            · congr 1; omega

theorem valid_encode (c : Char) (r : Bytes) : utf8Valid (String.utf8EncodeChar c ++ r) = utf8Valid r := by
  have hv := c.valid
  have hv' : c.val.toNat < 0xD800 ∨ 0xDFFF < c.val.toNat ∧ c.val.toNat < 0x110000 := hv
  generalize hn : c.val.toNat = n at hv'
  simp only [String.utf8EncodeChar, hn]
  by_cases h1 : n ≤ 0x7f
  · simp only [h1, if_true, List.cons_append, List.nil_append]
    conv => lhs; unfold utf8Valid
    rw [if_pos (by simp only [UInt8.toNat_ofNat']; omega)]
  · by_cases h2 : n ≤ 0x7ff
    · simp only [h1, h2, if_true, if_false, List.cons_append, List.nil_append]
      rw [utf8Valid]
      simp only [UInt8.toNat_ofNat']
      rw [if_neg (by omega), if_pos (by omega)]
      rw [decide_eq_true (by omega)]; rfl
    · by_cases h3 : n ≤ 0xffff
      · simp only [h1, h2, h3, if_true, if_false, List.cons_append, List.nil_append]
        rw [utf8Valid]
        simp only [UInt8.toNat_ofNat']
        rw [if_neg (by omega), if_neg (by omega), if_pos (by omega)]
        rw [decide_eq_true (by constructor <;> split <;> omega), decide_eq_true (by omega)]; rfl
      · simp only [h1, h2, h3, if_false, List.cons_append, List.nil_append]
        rw [utf8Valid]
        simp only [UInt8.toNat_ofNat']
        rw [if_neg (by omega), if_neg (by omega), if_neg (by omega), if_pos (by omega)]
        rw [decide_eq_true (by constructor <;> split <;> omega), decide_eq_true (by omega), decide_eq_true (by omega)]; rfl

theorem isUtf8_cons {a b : Bytes} (ha : ∃ c : Char, a = String.utf8EncodeChar c) (hb : IsUtf8 b) : IsUtf8 (a ++ b) := by
  obtain ⟨c, rfl⟩ := ha
  obtain ⟨cs, rfl⟩ := hb
  exact ⟨c :: cs, rfl⟩

theorem valid_isUtf8 (bs : Bytes) : utf8Valid bs = true → IsUtf8 bs := by
  fun_induction utf8Valid bs with
  | case1 => intro _; exact ⟨[], rfl⟩
  | case2 b0 r h ih =>
    intro hv
    have : b0 :: r = [b0] ++ r := rfl
    rw [this]
    refine isUtf8_cons (encode_of (n := b0.toNat) (by omega) ?_) (ih hv)
    rw [if_pos (by omega)]; rfl
  | case3 b0 h1 h2 b1 r ih =>
    intro hv
    simp only [Bool.and_eq_true, decide_eq_true_eq] at hv
    obtain ⟨g1, g2⟩ := hv
    have : b0 :: b1 :: r = [b0, b1] ++ r := rfl
    rw [this]
    refine isUtf8_cons (encode_of (n := (b0.toNat - 0xC0) * 64 + (b1.toNat - 0x80)) (by omega) ?_) (ih g2)
    rw [if_neg (by omega), if_pos (by omega)]
    simp only [List.map_cons, List.map_nil]
    congr 1
    · omega
    · congr 1; omega
  | case4 => intro h; simp at h
  | case5 b0 h1 h2 h3 b1 b2 r ih =>
    intro hv
    simp only [Bool.and_eq_true, decide_eq_true_eq] at hv
    obtain ⟨⟨g1, g2⟩, g3⟩ := hv
    have : b0 :: b1 :: b2 :: r = [b0, b1, b2] ++ r := rfl
    rw [this]
    have k1 : 0x80 ≤ b1.toNat ∧ b1.toNat ≤ 0xBF ∧ (b0.toNat = 0xE0 → 0xA0 ≤ b1.toNat) ∧ (b0.toNat = 0xED → b1.toNat ≤ 0x9F) := by
      obtain ⟨a, b⟩ := g1
      split at a <;> split at b <;> omega
    refine isUtf8_cons (encode_of (n := (b0.toNat - 0xE0) * 4096 + (b1.toNat - 0x80) * 64 + (b2.toNat - 0x80)) (by omega) ?_) (ih g3)
    rw [if_neg (by omega), if_neg (by omega), if_pos (by omega)]
    simp only [List.map_cons, List.map_nil]
    congr 1
    · omega
    · congr 1
      · omega
      · congr 1; omega
  | case6 => intro h; simp at h
  | case7 b0 h1 h2 h3 h4 b1 b2 b3 r ih =>
    intro hv
    simp only [Bool.and_eq_true, decide_eq_true_eq] at hv
    obtain ⟨⟨⟨g1, g2⟩, g3⟩, g4⟩ := hv
    have : b0 :: b1 :: b2 :: b3 :: r = [b0, b1, b2, b3] ++ r := rfl
    rw [this]
    have k1 : 0x80 ≤ b1.toNat ∧ b1.toNat ≤ 0xBF ∧ (b0.toNat = 0xF0 → 0x90 ≤ b1.toNat) ∧ (b0.toNat = 0xF4 → b1.toNat ≤ 0x8F) := by
      obtain ⟨a, b⟩ := g1
      split at a <;> split at b <;> omega
    refine isUtf8_cons (encode_of (n := (b0.toNat - 0xF0) * 262144 + (b1.toNat - 0x80) * 4096 + (b2.toNat - 0x80) * 64 +
      (b3.toNat - 0x80)) (by omega) ?_) (ih g4)
    rw [if_neg (by omega), if_neg (by omega), if_neg (by omega)]
    simp only [List.map_cons, List.map_nil]
    congr 1
    · omega
    · congr 1
      · omega
      · congr 1
        · omega
        · congr 1; omega
  | case8 => intro h; simp at h
  | case9 => intro h; simp at h

/-- C23: the strings that are sent and accepted are exactly the encodings of lists of characters. -/
theorem C23_utf8 (bs : Bytes) : utf8Valid bs = true ↔ IsUtf8 bs := by
  refine ⟨valid_isUtf8 bs, ?_⟩
  rintro ⟨cs, rfl⟩
  induction cs with
  | nil => simp [utf8Valid]
  | cons c cs ih => rw [List.flatMap_cons, valid_encode, ih]

/-- A title with characters of one to four bytes. -/
example : utf8Valid ("aé€𝄞".toList.flatMap String.utf8EncodeChar) = true := (C23_utf8 _).2 ⟨_, rfl⟩

/-- C23: samples that a peer writes one by one instead of packed, which proto3 allows, are read as well. -/
theorem C23_unpacked (lows highs : List UInt64) :
    applyAll sQueueChunkRequest {} (lows.map (fun v => (3, .i64 v)) ++ highs.map (fun v => (4, .i64 v))) =
      some { sampleLow := lows, sampleHigh := highs } := by
  have h2 : ∀ (l pre : List UInt64) (lo : List UInt64),
      applyAll sQueueChunkRequest { sampleLow := lo, sampleHigh := pre } (l.map (fun v => (4, .i64 v))) =
        some { sampleLow := lo, sampleHigh := pre ++ l } := by
    intro l
    induction l with
    | nil => intro pre lo; simp [applyAll]
    | cons v l ih => intro pre lo; simp only [List.map_cons, applyAll, sQueueChunkRequest]; rw [ih]; simp
  have h1 : ∀ (l pre : List UInt64),
      applyAll sQueueChunkRequest { sampleLow := pre } (l.map (fun v => (3, .i64 v)) ++ highs.map (fun v => (4, .i64 v))) =
        some { sampleLow := pre ++ l, sampleHigh := highs } := by
    intro l
    induction l with
    | nil => intro pre; simpa using h2 highs [] pre
    | cons v l ih => intro pre; simp only [List.map_cons, List.cons_append, applyAll, sQueueChunkRequest]; rw [ih]; simp
  simpa using h1 lows []

end MS.Proto
