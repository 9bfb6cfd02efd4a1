import Verif.Props.Json
/-!
# Properties C115 and C116: the users file and the lyrics files, from the text to what the server knows
-/
set_option linter.unusedSimpArgs false
set_option linter.unusedVariables false
namespace MS.Json
open MS.Proto MS.Wire MS.SongInfo
open MS.Auth (UserAuth Users readUsers)

/-! ## Specification: base64 (RFC 4648) -/

def alphabet : List Char := "ABCDEFGHIJKLMNOPQRSTUVWXYZabcdefghijklmnopqrstuvwxyz0123456789+/".toList

/-- The character for six bits. -/
def sixBits (n : Nat) : UInt8 := UInt8.ofNat (alphabet.getD n 'A').toNat

/-- The standard encoding with padding. -/
def b64enc : Bytes → Bytes
  | x :: y :: z :: r =>
    sixBits (x.toNat / 4) :: sixBits (x.toNat % 4 * 16 + y.toNat / 16) :: sixBits (y.toNat % 16 * 4 + z.toNat / 64) :: sixBits (z.toNat % 64) :: b64enc r
  | [x, y] => [sixBits (x.toNat / 4), sixBits (x.toNat % 4 * 16 + y.toNat / 16), sixBits (y.toNat % 16 * 4), 61]
  | [x] => [sixBits (x.toNat / 4), sixBits (x.toNat % 4 * 16), 61, 61]
  | [] => []

/-- `s` is the encoding of `k`, possibly with line breaks. -/
def B64 (k s : Bytes) : Prop := s.filter (fun b => b ≠ 13 ∧ b ≠ 10) = b64enc k

/-- `s` has the form of an encoding: characters of the alphabet and at most two `=` at the end, a multiple of four in all, line breaks
not counted. -/
def B64Text (s : Bytes) : Prop :=
  ∃ body pad, s.filter (fun b => b ≠ 13 ∧ b ≠ 10) = body ++ pad ∧ (∀ b ∈ body, ∃ c ∈ alphabet, b = UInt8.ofNat c.toNat) ∧
    (pad = [] ∨ pad = [61] ∨ pad = [61, 61]) ∧ (body ++ pad).length % 4 = 0

/-! ## Specification: numbers -/

/-- The number that digits spell. -/
inductive Dec : Bytes → Nat → Prop
  | nil : Dec [] 0
  | snoc (d : Bytes) (n : Nat) (b : UInt8) (h : Dec d n) : Dec (d ++ [b]) (10 * n + (b.toNat - 48))

/-- `t` spells the whole number `i`. -/
def IntText (i : Int) (t : Bytes) : Prop :=
  ∃ d n, Digits d ∧ Dec d n ∧ ((t = d ∧ i = n) ∨ (t = 45 :: d ∧ i = -n))

/-! ## Specification: the files -/

/-- The field `n` of an object: what the last member of that name says; `skip`: values that say nothing. -/
def Field {α : Type} (n : String) (skip : J → Prop) (Is : J → α → Prop) (zero : α) (fs : List (Bytes × J)) (x : α) : Prop :=
  (∃ before m after, fs = before ++ m :: after ∧ IsName n m.1 ∧ Is m.2 x ∧ ∀ y ∈ after, IsName n y.1 → skip y.2) ∨
  ((∀ y ∈ fs, IsName n y.1 → skip y.2) ∧ x = zero)

/-- A value that is not there. -/
def Null (v : J) : Prop := v = .null

/-- A byte in an array. -/
def ByteText (v : J) : Prop := v = .null ∨ ∃ t n, v = .num t ∧ IntText n t ∧ 0 ≤ n ∧ n < 256 ∧ t.head? ≠ some 45

/-- A value that fits a user's type. -/
def FitsUser (v : J) : Prop :=
  v = .null ∨ ∃ fs, v = .obj fs ∧
    ∀ m ∈ fs, (IsName "password" m.1 → m.2 = .null ∨ ∃ s, m.2 = .str s) ∧
      (IsName "pubKey" m.1 → m.2 = .null ∨ (∃ s, m.2 = .str s ∧ B64Text s) ∨ ∃ l, m.2 = .arr l ∧ ∀ x ∈ l, ByteText x)

/-- The value of a user: `"password"` is the password and `"pubKey"` the key in base64; both may be missing or null, anything else may
be there. -/
def UserText (v : J) (a : UserAuth) : Prop :=
  FitsUser v ∧ ((v = .null ∧ a = ⟨[], []⟩) ∨
    ∃ fs, v = .obj fs ∧ Field "password" Null (fun v p => v = .str p) [] fs a.password ∧
      Field "pubKey" (fun _ => False) (fun v k => (v = .null ∧ k = []) ∨ ∃ s, v = .str s ∧ B64 k s) [] fs a.pubKey)

/-- A value that fits a table of users. -/
def FitsUsers (v : J) : Prop := v = .null ∨ ∃ ms, v = .obj ms ∧ ∀ m ∈ ms, FitsUser m.2

/-- What of a file `v` is the value of: some white space, a text of the value and whatever comes then. -/
def FileOf (v : J) (t : Bytes) : Prop := ∃ w s rest, Ws w ∧ Spells Plainly v s ∧ t = w ++ s ++ rest

/-- A value that fits a word's type. -/
def FitsWord (v : J) : Prop :=
  v = .null ∨ ∃ fs, v = .obj fs ∧
    ∀ m ∈ fs, (IsName "timestamp" m.1 → m.2 = .null ∨ ∃ t i, m.2 = .num t ∧ IntText i t ∧ -2 ^ 63 ≤ i ∧ i < 2 ^ 63) ∧
      (IsName "caption" m.1 → m.2 = .null ∨ ∃ s, m.2 = .str s)

/-- The value of a word and what it says. -/
def WordText (v : J) (a : Word) : Prop :=
  FitsWord v ∧ ((v = .null ∧ a = ⟨0, []⟩) ∨
    ∃ fs, v = .obj fs ∧ Field "timestamp" Null (fun v x => ∃ t, v = .num t ∧ IntText x.toInt t) 0 fs a.timestamp ∧
      Field "caption" Null (fun v c => v = .str c) [] fs a.caption)

/-- Element by element. -/
inductive Each {α β : Type} (R : α → β → Prop) : List α → List β → Prop
  | nil : Each R [] []
  | cons (a : α) (b : β) (l : List α) (m : List β) (h : R a b) (hl : Each R l m) : Each R (a :: l) (b :: m)

/-- A line is an array of words. -/
def LineText (v : J) (l : List Word) : Prop := (v = .null ∧ l = []) ∨ ∃ vs, v = .arr vs ∧ Each WordText vs l

/-- Lyrics are an array of lines. -/
def LyricsText (v : J) (l : Lyrics) : Prop := (v = .null ∧ l = []) ∨ ∃ vs, v = .arr vs ∧ Each LineText vs l

/-! ## Base64 -/

theorem val_six : ∀ n : Fin 64, b64val (sixBits n.val) = some n.val ∧ sixBits n.val ≠ 61 := by decide +kernel

theorem b64val_six {n : Nat} (h : n < 64) : b64val (sixBits n) = some n ∧ sixBits n ≠ 61 := val_six ⟨n, h⟩

theorem ofNat_eq {n : Nat} {x : UInt8} (h : n % 256 = x.toNat) : UInt8.ofNat n = x := by
  apply UInt8.toNat_inj.1
  simp only [UInt8.toNat_ofNat']
  omega

theorem b64go_enc (k : Bytes) : b64go (b64enc k) = some k := by
  induction k using b64enc.induct with
  | case1 x y z r ih =>
    have hx := x.toNat_lt; have hy := y.toNat_lt; have hz := z.toNat_lt
    have ha := b64val_six (n := x.toNat / 4) (by omega)
    have hb := b64val_six (n := x.toNat % 4 * 16 + y.toNat / 16) (by omega)
    have hc := b64val_six (n := y.toNat % 16 * 4 + z.toNat / 64) (by omega)
    have hd := b64val_six (n := z.toNat % 64) (by omega)
    rw [b64enc, b64go, ha.1, hb.1]
    simp only [hc.1, hd.1, if_neg hc.2, if_neg hd.2, ih, Option.map_some]
    rw [ofNat_eq (x := x) (by omega), ofNat_eq (x := y) (by omega), ofNat_eq (x := z) (by omega)]
  | case2 x y =>
    have hx := x.toNat_lt; have hy := y.toNat_lt
    have ha := b64val_six (n := x.toNat / 4) (by omega)
    have hb := b64val_six (n := x.toNat % 4 * 16 + y.toNat / 16) (by omega)
    have hc := b64val_six (n := y.toNat % 16 * 4) (by omega)
    rw [b64enc, b64go, ha.1, hb.1]
    simp only [hc.1, if_neg hc.2, if_true]
    rw [ofNat_eq (x := x) (by omega), ofNat_eq (x := y) (by omega)]
  | case3 x =>
    have hx := x.toNat_lt
    have ha := b64val_six (n := x.toNat / 4) (by omega)
    have hb := b64val_six (n := x.toNat % 4 * 16) (by omega)
    rw [b64enc, b64go, ha.1, hb.1]
    simp only [if_true, and_self]
    rw [ofNat_eq (x := x) (by omega)]
  | case4 => rfl

theorem filter_same (s : Bytes) : s.filter (fun b => !(b == 13 || b == 10)) = s.filter (fun b => b ≠ 13 ∧ b ≠ 10) := by
  apply List.filter_congr
  intro b _
  by_cases h1 : b = 13 <;> by_cases h2 : b = 10 <;> simp [h1, h2]

theorem base64_enc {k s : Bytes} (h : B64 k s) : base64 s = some k := by
  unfold base64
  rw [filter_same, h, b64go_enc]

theorem val_alpha : ∀ n : Fin 256, (b64val (UInt8.ofNat n.val)).isSome = true ↔ ∃ c ∈ alphabet, UInt8.ofNat n.val = UInt8.ofNat c.toNat := by
  decide +kernel

theorem b64val_alpha (b : UInt8) : (b64val b).isSome = true ↔ ∃ c ∈ alphabet, b = UInt8.ofNat c.toNat := by
  have := val_alpha ⟨b.toNat, b.toNat_lt⟩
  rwa [show UInt8.ofNat b.toNat = b from ofNat_eq (by have := b.toNat_lt; omega)] at this

theorem not_alpha61 : ¬ ∃ c ∈ alphabet, (61 : UInt8) = UInt8.ofNat c.toNat := by decide +kernel

theorem b64go_iff (t : Bytes) : (b64go t).isSome = true ↔ ∃ body pad, t = body ++ pad ∧ (∀ b ∈ body, ∃ c ∈ alphabet, b = UInt8.ofNat c.toNat) ∧
    (pad = [] ∨ pad = [61] ∨ pad = [61, 61]) ∧ (body ++ pad).length % 4 = 0 := by
  constructor
  · generalize hn : t.length = n
    induction n using Nat.strongRecOn generalizing t with
    | _ n ih =>
      match t, hn with
      | [], _ => exact fun _ => ⟨[], [], rfl, by simp, .inl rfl, rfl⟩
      | [a], _ => intro h; simp [b64go] at h
      | [a, b], _ => intro h; simp [b64go] at h
      | [a, b, c], _ => intro h; simp [b64go] at h
      | a :: b :: c :: d :: r, hn =>
        intro h
        rw [b64go] at h
        cases hx : b64val a with
        | none => rw [hx] at h; simp at h
        | some x =>
        cases hy : b64val b with
        | none => rw [hx, hy] at h; simp at h
        | some y =>
        rw [hx, hy] at h
        have ha := (b64val_alpha a).1 (by simp [hx])
        have hb := (b64val_alpha b).1 (by simp [hy])
        simp only at h
        by_cases hc : c = 61
        · rw [if_pos hc] at h
          by_cases hd : d = 61 ∧ r = []
          · obtain ⟨rfl, rfl⟩ := hd
            subst hc
            exact ⟨[a, b], [61, 61], rfl, by simp [ha, hb], .inr (.inr rfl), by simp⟩
          · rw [if_neg hd] at h; simp at h
        · rw [if_neg hc] at h
          cases hcv : b64val c with
          | none => rw [hcv] at h; simp at h
          | some cv =>
            have hc' := (b64val_alpha c).1 (by simp [hcv])
            rw [hcv] at h
            simp only at h
            by_cases hd : d = 61
            · rw [if_pos hd] at h
              by_cases hr : r = []
              · subst hd hr
                exact ⟨[a, b, c], [61], rfl, by simp [ha, hb, hc'], .inr (.inl rfl), by simp⟩
              · rw [if_neg hr] at h; simp at h
            · rw [if_neg hd] at h
              cases hdv : b64val d with
              | none => rw [hdv] at h; simp at h
              | some dv =>
                have hd' := (b64val_alpha d).1 (by simp [hdv])
                rw [hdv] at h
                simp only [Option.isSome_map] at h
                obtain ⟨body, pad, e, h1, h2, h3⟩ := ih r.length (by rw [← hn]; simp; omega) r rfl h
                subst e
                refine ⟨a :: b :: c :: d :: body, pad, rfl, ?_, h2, by simp at h3 ⊢; omega⟩
                intro z hz
                simp only [List.mem_cons] at hz
                rcases hz with rfl | rfl | rfl | rfl | hz
                · exact ha
                · exact hb
                · exact hc'
                · exact hd'
                · exact h1 z hz
  · rintro ⟨body, pad, rfl, h1, h2, h3⟩
    have hv : ∀ b : UInt8, (∃ c ∈ alphabet, b = UInt8.ofNat c.toNat) → (∃ n, b64val b = some n) ∧ b ≠ 61 := by
      intro b hb
      refine ⟨Option.isSome_iff_exists.1 ((b64val_alpha b).2 hb), ?_⟩
      rintro rfl
      exact not_alpha61 hb
    generalize hn : body.length = n
    induction n using Nat.strongRecOn generalizing body with
    | _ n ih =>
      match body, h1, h3, hn with
      | a :: b :: c :: d :: r, h1, h3, hn =>
        obtain ⟨⟨x, hx⟩, _⟩ := hv a (h1 a (by simp))
        obtain ⟨⟨y, hy⟩, _⟩ := hv b (h1 b (by simp))
        obtain ⟨⟨z, hz⟩, nz⟩ := hv c (h1 c (by simp))
        obtain ⟨⟨u, hu⟩, nu⟩ := hv d (h1 d (by simp))
        have := ih r.length (by rw [← hn]; simp; omega) r (fun b hb => h1 b (by simp [hb])) (by simp at h3 ⊢; omega) rfl
        simp only [List.cons_append, b64go, hx, hy, hz, hu, if_neg nz, if_neg nu, Option.isSome_map]
        exact this
      | [a, b, c], h1, h3, hn =>
        obtain ⟨⟨x, hx⟩, _⟩ := hv a (h1 a (by simp))
        obtain ⟨⟨y, hy⟩, _⟩ := hv b (h1 b (by simp))
        obtain ⟨⟨z, hz⟩, nz⟩ := hv c (h1 c (by simp))
        rcases h2 with rfl | rfl | rfl
        · simp at h3
        · simp [b64go, hx, hy, hz, nz]
        · simp at h3
      | [a, b], h1, h3, hn =>
        obtain ⟨⟨x, hx⟩, _⟩ := hv a (h1 a (by simp))
        obtain ⟨⟨y, hy⟩, _⟩ := hv b (h1 b (by simp))
        rcases h2 with rfl | rfl | rfl
        · simp at h3
        · simp at h3
        · simp [b64go, hx, hy]
      | [a], h1, h3, hn => rcases h2 with rfl | rfl | rfl <;> simp at h3
      | [], h1, h3, hn =>
        rcases h2 with rfl | rfl | rfl
        · rfl
        · simp at h3
        · simp at h3

theorem base64_iff (s : Bytes) : (base64 s).isSome = true ↔ B64Text s := by
  unfold base64 B64Text
  rw [filter_same, b64go_iff]

/-! ## Numbers -/

theorem dec_val {d : Bytes} {n : Nat} (h : Dec d n) : digitsVal d = n := by
  induction h with
  | nil => rfl
  | snoc d n b h ih =>
    unfold digitsVal at *
    rw [List.foldl_append, ih]
    simp
    omega

theorem dec_of (d : Bytes) : Dec d (digitsVal d) := by
  generalize hn : d.length = n
  induction n generalizing d with
  | zero => rw [List.length_eq_zero_iff.1 hn]; exact .nil
  | succ n ih =>
    obtain ⟨l, b, rfl⟩ : ∃ l b, d = l ++ [b] := ⟨d.dropLast, d.getLast (by rintro rfl; cases hn), (List.dropLast_concat_getLast _).symm⟩
    have := Dec.snoc l _ b (ih l (by simp at hn; exact hn))
    have e : 10 * digitsVal l + (b.toNat - 48) = digitsVal (l ++ [b]) := by
      unfold digitsVal
      rw [List.foldl_append]
      simp
      omega
    rwa [e] at this

theorem digits_all {d : Bytes} (h : Digits d) : d.all isDigit = true := by
  rw [List.all_eq_true]
  intro b hb
  simp [isDigit, h.2 b hb]

theorem head_digits {d : Bytes} (h : Digits d) : d.head? ≠ some 45 := by
  obtain ⟨b, t, rfl, hb⟩ := digits_head h
  simp only [List.head?_cons, ne_eq, Option.some.injEq]
  rintro rfl
  exact absurd hb (by decide)

theorem parseInt_iff {t : Bytes} (ht : Num t) (x : Int64) : parseInt t = some x ↔ IntText x.toInt t := by
  have hval : ∀ (d : Bytes), d.all isDigit = true → d ≠ [] → Digits d := by
    intro d h hn
    refine ⟨hn, fun b hb => ?_⟩
    have := List.all_eq_true.1 h b hb
    simpa [isDigit] using this
  have hrange : ∀ i : Int, -2 ^ 63 ≤ i → i < 2 ^ 63 → (Int64.ofInt i).toInt = i := by
    intro i h1 h2
    exact Int64.toInt_ofInt_of_le h1 h2
  constructor
  · intro h
    unfold parseInt at h
    by_cases h45 : t.head? = some 45
    · simp only [h45, if_true] at h
      obtain ⟨d, rfl⟩ : ∃ d, t = 45 :: d := by
        cases t with
        | nil => simp at h45
        | cons b d => simp at h45; exact ⟨d, by rw [h45]⟩
      simp only [List.drop_succ_cons, List.drop_zero] at h
      split at h
      · rename_i ha
        split at h
        · rename_i hr
          injection h with h
          subst h
          rw [hrange _ hr.1 hr.2]
          refine ⟨d, digitsVal d, hval d ha ?_, dec_of d, .inr ⟨rfl, rfl⟩⟩
          rintro rfl
          obtain ⟨sign, a, b, e, hs, ha', hb, he, hx⟩ := num_inv ht
          have ha0 : a ≠ [] := by rcases ha' with rfl | ⟨h, _⟩; simp; exact h.1
          have := congrArg List.length hx
          have hal := List.length_pos_iff.2 ha0
          rcases hs with rfl | rfl
          · obtain ⟨b0, t0, rfl, hb0⟩ : ∃ b t, a = b :: t ∧ isDigit b = true := by
              rcases ha' with rfl | ⟨h, _⟩
              · exact ⟨48, [], rfl, by decide⟩
              · exact digits_head h
            simp at hx
            rw [← hx.1] at hb0
            exact absurd hb0 (by decide)
          · simp only [List.length_append, List.length_cons, List.length_nil] at this; omega
        · cases h
      · cases h
    · simp only [if_neg h45] at h
      split at h
      · rename_i ha
        split at h
        · rename_i hr
          injection h with h
          subst h
          rw [hrange _ hr.1 hr.2]
          refine ⟨t, digitsVal t, hval t ha ?_, dec_of t, .inl ⟨rfl, rfl⟩⟩
          rintro rfl
          obtain ⟨sign, a, b, e, hs, ha', hb, he, hx⟩ := num_inv ht
          have ha0 : a ≠ [] := by rcases ha' with rfl | ⟨h, _⟩; simp; exact h.1
          have := congrArg List.length hx
          have hal := List.length_pos_iff.2 ha0
          simp at this; omega
        · cases h
      · cases h
  · rintro ⟨d, n, hd, hn, h⟩
    have hlo := x.le_toInt
    have hhi := x.toInt_lt
    have e := dec_val hn
    rcases h with ⟨rfl, hx⟩ | ⟨rfl, hx⟩
    · unfold parseInt
      simp only [if_neg (head_digits hd), digits_all hd, if_true, e, ← hx]
      rw [if_pos ⟨hlo, hhi⟩, Int64.ofInt_toInt]
    · unfold parseInt
      simp only [List.head?_cons, if_true, List.drop_succ_cons, List.drop_zero, digits_all hd, e, ← hx]
      rw [if_pos ⟨hlo, hhi⟩, Int64.ofInt_toInt]
where
  num_inv {t : Bytes} (h : Num t) : ∃ sign a b e, (sign = [] ∨ sign = [45]) ∧ (a = [48] ∨ (Digits a ∧ a.head? ≠ some 48)) ∧
      (b = [] ∨ ∃ d, Digits d ∧ b = 46 :: d) ∧
      (e = [] ∨ ∃ (m : UInt8) (s d : Bytes), (m = 101 ∨ m = 69) ∧ (s = [] ∨ s = [43] ∨ s = [45]) ∧ Digits d ∧ e = m :: s ++ d) ∧
      t = sign ++ a ++ b ++ e := by
    obtain ⟨sign, a, b, e, hs, ha, hb, he⟩ := h
    exact ⟨sign, a, b, e, hs, ha, hb, he, rfl⟩

theorem parseInt_some_iff {t : Bytes} (ht : Num t) : (parseInt t).isSome = true ↔ ∃ i, IntText i t ∧ -2 ^ 63 ≤ i ∧ i < 2 ^ 63 := by
  rw [Option.isSome_iff_exists]
  constructor
  · rintro ⟨x, h⟩
    exact ⟨x.toInt, (parseInt_iff ht x).1 h, x.le_toInt, x.toInt_lt⟩
  · rintro ⟨i, h, h1, h2⟩
    refine ⟨Int64.ofInt i, (parseInt_iff ht _).2 ?_⟩
    rw [Int64.toInt_ofInt_of_le h1 h2]
    exact h

/-! ## Names -/

theorem name_password {k : Bytes} (hk : utf8Valid k = true) : foldEq nPassword k = true ↔ IsName "password" k :=
  fold_name (n := "password") (b := nPassword) (by decide) (by unfold Letter; decide) hk
theorem name_pubKey {k : Bytes} (hk : utf8Valid k = true) : foldEq nPubKey k = true ↔ IsName "pubKey" k :=
  fold_name (n := "pubKey") (b := nPubKey) (by decide) (by unfold Letter; decide) hk
theorem name_timestamp {k : Bytes} (hk : utf8Valid k = true) : foldEq nTimestamp k = true ↔ IsName "timestamp" k :=
  fold_name (n := "timestamp") (b := nTimestamp) (by decide) (by unfold Letter; decide) hk
theorem name_caption {k : Bytes} (hk : utf8Valid k = true) : foldEq nCaption k = true ↔ IsName "caption" k :=
  fold_name (n := "caption") (b := nCaption) (by decide) (by unfold Letter; decide) hk

theorem name_unique {n m : String} {k : Bytes} (h1 : IsName n k) (h2 : IsName m k) : n.toList.map foldChar = m.toList.map foldChar := by
  obtain ⟨cs, rfl, e1⟩ := h1
  obtain ⟨ds, e, e2⟩ := h2
  rw [← e1, enc_all_inj e, e2]

theorem pass_key {k : Bytes} (h1 : IsName "password" k) (h2 : IsName "pubKey" k) : False :=
  absurd (name_unique h1 h2) (by decide)
theorem time_caption {k : Bytes} (h1 : IsName "timestamp" k) (h2 : IsName "caption" k) : False :=
  absurd (name_unique h1 h2) (by decide)

theorem validM_mem {l : List (Bytes × J)} (h : ValidM l) : ∀ m ∈ l, utf8Valid m.1 = true ∧ Valid m.2 := by
  induction l with
  | nil => simp
  | cons x l ih =>
    cases h with
    | cons k v _ hk hv hl =>
      intro m hm
      rcases List.mem_cons.1 hm with rfl | hm
      · exact ⟨hk, hv⟩
      · exact ih hl m hm

theorem validL_mem {l : List J} (h : ValidL l) : ∀ v ∈ l, Valid v := by
  induction l with
  | nil => simp
  | cons x l ih =>
    cases h with
    | cons v _ hv hl =>
      intro m hm
      rcases List.mem_cons.1 hm with rfl | hm
      · exact hv
      · exact ih hl m hm

/-! ## Users -/

theorem storeAll_some {α β : Type} {f : α → β → Option α} {P : β → Prop} (a : α) (l : List β) (h : ∀ a, ∀ b ∈ l, (f a b).isSome = true ↔ P b) :
    (storeAll f a l).isSome = true ↔ ∀ b ∈ l, P b := by
  induction l generalizing a with
  | nil => simp [storeAll]
  | cons b l ih =>
    rw [storeAll]
    cases e : f a b with
    | none =>
      have : ¬ P b := fun hp => by have := (h a b (.head _)).2 hp; rw [e] at this; cases this
      simp [this]
    | some a' =>
      have : P b := (h a b (.head _)).1 (by rw [e]; rfl)
      simp only [ih a' (fun a b hb => h a b (.tail _ hb)), List.mem_cons, forall_eq_or_imp, this, true_and]

theorem toUser_fits {ext : Bytes → List J → Option Bytes} (hext : ∀ cur l, (ext cur l).isSome = true ↔ ∀ x ∈ l, ByteText x) {v : J} (hv : Valid v) :
    (toUser ext v).isSome = true ↔ FitsUser v := by
  cases v with
  | null => simp [toUser, FitsUser]
  | bool b => simp [toUser, FitsUser]
  | num t => simp [toUser, FitsUser]
  | str s => simp [toUser, FitsUser]
  | arr l => simp [toUser, FitsUser]
  | obj fs =>
    cases hv with
    | obj _ hv =>
    have hm := validM_mem hv
    rw [toUser]
    have hF : FitsUser (.obj fs) ↔ ∀ m ∈ fs, (IsName "password" m.1 → m.2 = .null ∨ ∃ s, m.2 = .str s) ∧
      (IsName "pubKey" m.1 → m.2 = .null ∨ (∃ s, m.2 = .str s ∧ B64Text s) ∨ ∃ l, m.2 = .arr l ∧ ∀ x ∈ l, ByteText x) := by
      simp [FitsUser]
    rw [hF]
    apply storeAll_some
    intro a m hmem
    have hmv := (hm m hmem).1
    by_cases hP : IsName "password" m.1
    · have hK : ¬ IsName "pubKey" m.1 := fun h => pass_key hP h
      rw [if_pos ((name_password hmv).2 hP)]
      cases m.2 <;> simp [setString, hP, hK]
    · rw [if_neg (fun e => hP ((name_password hmv).1 e))]
      by_cases hK : IsName "pubKey" m.1
      · rw [if_pos ((name_pubKey hmv).2 hK)]
        cases m.2 <;> simp [setBytes, hP, hK, base64_iff, hext]
      · rw [if_neg (fun e => hK ((name_pubKey hmv).1 e))]
        simp [hP, hK]

/-! ## Fields -/

theorem field_last {α β : Type} {n : String} {skip : J → Prop} {Is : J → β → Prop} {zero x : β} {f : α → Bytes × J → Option α} {π : α → β}
    {set : β → J → Option β} {l : List (Bytes × J)}
    (hin : ∀ a, ∀ m ∈ l, IsName n m.1 → ∀ a', f a m = some a' → set (π a) m.2 = some (π a'))
    (hout : ∀ a, ∀ m ∈ l, ¬ IsName n m.1 → ∀ a', f a m = some a' → π a' = π a)
    (hIs : ∀ v y c, Is v y → set c v = some y) (hskip : ∀ v c, skip v → set c v = some c)
    {a b : α} (hs : storeAll f a l = some b) (ha : π a = zero) (hF : Field n skip Is zero l x) : π b = x := by
  have key : ∀ (l : List (Bytes × J)) (a : α), (∀ a, ∀ m ∈ l, IsName n m.1 → ∀ a', f a m = some a' → set (π a) m.2 = some (π a')) →
      (∀ a, ∀ m ∈ l, ¬ IsName n m.1 → ∀ a', f a m = some a' → π a' = π a) → storeAll f a l = some b →
      ((∀ y ∈ l, IsName n y.1 → skip y.2) → π b = π a) ∧
      ((∃ before m after, l = before ++ m :: after ∧ IsName n m.1 ∧ Is m.2 x ∧ ∀ y ∈ after, IsName n y.1 → skip y.2) → π b = x) := by
    intro l
    induction l with
    | nil =>
      intro a _ _ hs
      simp only [storeAll, Option.some.injEq] at hs
      subst hs
      refine ⟨fun _ => rfl, ?_⟩
      rintro ⟨before, m, after, e, _⟩
      simp at e
    | cons m l ih =>
      intro a hin hout hs
      rw [storeAll] at hs
      cases e : f a m with
      | none => rw [e] at hs; cases hs
      | some a' =>
        rw [e] at hs
        obtain ⟨i1, i2⟩ := ih a' (fun a m hm => hin a m (.tail _ hm)) (fun a m hm => hout a m (.tail _ hm)) hs
        constructor
        · intro hall
          rw [i1 fun y hy => hall y (.tail _ hy)]
          by_cases hn : IsName n m.1
          · have h1 := hin a m (.head _) hn a' e
            rw [hskip _ _ (hall m (.head _) hn)] at h1
            injection h1 with h1
            exact h1.symm
          · exact hout a m (.head _) hn a' e
        · rintro ⟨before, m', after, el, hn, hi, hr⟩
          cases before with
          | nil =>
            simp only [List.nil_append, List.cons.injEq] at el
            obtain ⟨rfl, rfl⟩ := el
            rw [i1 hr]
            have h1 := hin a m (.head _) hn a' e
            rw [hIs _ _ _ hi] at h1
            injection h1 with h1
            exact h1.symm
          | cons y before =>
            simp only [List.cons_append, List.cons.injEq] at el
            obtain ⟨rfl, rfl⟩ := el
            exact i2 ⟨before, m', after, rfl, hn, hi, hr⟩
  obtain ⟨k1, k2⟩ := key l a hin hout hs
  rcases hF with h | ⟨h, rfl⟩
  · exact k2 h
  · rw [k1 h, ha]

theorem field_total {β : Type} {n : String} {skip : J → Prop} {Is : J → β → Prop} {zero : β} {l : List (Bytes × J)}
    (h : ∀ m ∈ l, IsName n m.1 → skip m.2 ∨ ∃ y, Is m.2 y) : ∃ x, Field n skip Is zero l x := by
  suffices H : (∃ before m after x, l = before ++ m :: after ∧ IsName n m.1 ∧ Is m.2 x ∧ ∀ y ∈ after, IsName n y.1 → skip y.2) ∨
      ∀ y ∈ l, IsName n y.1 → skip y.2 by
    rcases H with ⟨b, m, a, x, H⟩ | H
    · exact ⟨x, .inl ⟨b, m, a, H⟩⟩
    · exact ⟨zero, .inr ⟨H, rfl⟩⟩
  induction l with
  | nil => exact .inr (by simp)
  | cons m l ih =>
    rcases ih fun m hm => h m (.tail _ hm) with ⟨b, m', a, x, rfl, H⟩ | H
    · exact .inl ⟨m :: b, m', a, x, rfl, H⟩
    · by_cases hn : IsName n m.1
      · rcases h m (.head _) hn with hs | ⟨y, hy⟩
        · refine .inr fun z hz hzn => ?_
          rcases List.mem_cons.1 hz with rfl | hz
          · exact hs
          · exact H z hz hzn
        · exact .inl ⟨[], m, l, y, rfl, hn, hy, H⟩
      · refine .inr fun z hz hzn => ?_
        rcases List.mem_cons.1 hz with rfl | hz
        · exact absurd hzn hn
        · exact H z hz hzn

theorem toUser_text {ext : Bytes → List J → Option Bytes} (hext : ∀ cur l, (ext cur l).isSome = true ↔ ∀ x ∈ l, ByteText x) {v : J} {a : UserAuth}
    (hv : Valid v) (h : UserText v a) : toUser ext v = some a := by
  obtain ⟨hfit, h⟩ := h
  obtain ⟨b, hb⟩ := Option.isSome_iff_exists.1 ((toUser_fits hext hv).2 hfit)
  rw [hb]
  congr 1
  rcases h with ⟨rfl, rfl⟩ | ⟨fs, rfl, h1, h2⟩
  · simp [toUser] at hb; exact hb.symm
  · cases hv with
    | obj _ hv =>
    have hm := validM_mem hv
    rw [toUser] at hb
    have e1 : b.password = a.password := by
      refine field_last (π := UserAuth.password) (set := setString) ?_ ?_ ?_ ?_ hb rfl h1
      · intro c m hmem hn c' e
        rw [if_pos ((name_password (hm m hmem).1).2 hn)] at e
        simp only [Option.map_eq_some_iff] at e
        obtain ⟨x, hx, rfl⟩ := e
        exact hx
      · intro c m hmem hn c' e
        rw [if_neg (fun h => hn ((name_password (hm m hmem).1).1 h))] at e
        split at e
        · simp only [Option.map_eq_some_iff] at e
          obtain ⟨x, hx, rfl⟩ := e
          rfl
        · injection e with e; rw [e]
      · rintro v y c rfl; rfl
      · rintro v c rfl; rfl
    have e2 : b.pubKey = a.pubKey := by
      refine field_last (π := UserAuth.pubKey) (set := setBytes ext) ?_ ?_ ?_ ?_ hb rfl h2
      · intro c m hmem hn c' e
        rw [if_neg (fun h => pass_key ((name_password (hm m hmem).1).1 h) hn), if_pos ((name_pubKey (hm m hmem).1).2 hn)] at e
        simp only [Option.map_eq_some_iff] at e
        obtain ⟨x, hx, rfl⟩ := e
        exact hx
      · intro c m hmem hn c' e
        split at e
        · simp only [Option.map_eq_some_iff] at e
          obtain ⟨x, hx, rfl⟩ := e
          rfl
        · rw [if_neg (fun h => hn ((name_pubKey (hm m hmem).1).1 h))] at e
          injection e with e; rw [e]
      · rintro v y c (⟨rfl, rfl⟩ | ⟨s, rfl, hs⟩)
        · rfl
        · exact base64_enc hs
      · rintro v c ⟨⟩
    cases a; cases b
    simp only at e1 e2
    rw [e1, e2]

theorem toMembers_some {ext : Bytes → List J → Option Bytes} {ms : List (Bytes × J)} {l : List (Bytes × Option UserAuth)}
    (h : toMembers ext ms = some l) : Each (fun m p => m.1 = p.1 ∧ ∃ a, p.2 = some a ∧ toUser ext m.2 = some a) ms l := by
  induction ms generalizing l with
  | nil => simp [toMembers] at h; subst h; exact .nil
  | cons m ms ih =>
    obtain ⟨k, v⟩ := m
    rw [toMembers] at h
    cases e : toUser ext v with
    | none => rw [e] at h; cases h
    | some a =>
      rw [e] at h
      simp only [Option.map_eq_some_iff] at h
      obtain ⟨x, hx, rfl⟩ := h
      exact .cons _ _ _ _ ⟨rfl, a, rfl, e⟩ (ih hx)

theorem toMembers_iff {ext : Bytes → List J → Option Bytes} (ms : List (Bytes × J)) :
    (toMembers ext ms).isSome = true ↔ ∀ m ∈ ms, (toUser ext m.2).isSome = true := by
  induction ms with
  | nil => simp [toMembers]
  | cons m ms ih =>
    obtain ⟨k, v⟩ := m
    rw [toMembers]
    cases e : toUser ext v with
    | none => simp [e]
    | some a => simp [e, ih]

theorem each_split {α β : Type} {R : α → β → Prop} {l : List α} {m : List β} (h : Each R l m) (f : α → Bytes) (g : β → Bytes)
    (hfg : ∀ a b, R a b → f a = g b) (k : Bytes) (P : β → Prop) (Q : α → Prop) (hPQ : ∀ a b, R a b → (P b ↔ Q a)) :
    (∃ before b after, m = before ++ b :: after ∧ g b = k ∧ (∀ x ∈ after, g x ≠ k) ∧ P b) ↔
    (∃ before a after, l = before ++ a :: after ∧ f a = k ∧ (∀ x ∈ after, f x ≠ k) ∧ Q a) := by
  have hall : ∀ (l : List α) (m : List β), Each R l m → ((∀ x ∈ m, g x ≠ k) ↔ ∀ x ∈ l, f x ≠ k) := by
    intro l m h
    induction h with
    | nil => simp
    | cons a b l m h hl ih => simp only [List.mem_cons, forall_eq_or_imp, ih, hfg a b h]
  induction h with
  | nil => simp
  | cons a b l m h hl ih =>
    constructor
    · rintro ⟨before, b', after, e, h1, h2, h3⟩
      cases before with
      | nil =>
        simp only [List.nil_append, List.cons.injEq] at e
        obtain ⟨rfl, rfl⟩ := e
        exact ⟨[], a, l, rfl, by rw [hfg a _ h, h1], (hall l m hl).1 h2, (hPQ a _ h).1 h3⟩
      | cons x before =>
        simp only [List.cons_append, List.cons.injEq] at e
        obtain ⟨rfl, rfl⟩ := e
        obtain ⟨before', a', after', rfl, r⟩ := ih.1 ⟨before, b', after, rfl, h1, h2, h3⟩
        exact ⟨a :: before', a', after', rfl, r⟩
    · rintro ⟨before, a', after, e, h1, h2, h3⟩
      cases before with
      | nil =>
        simp only [List.nil_append, List.cons.injEq] at e
        obtain ⟨rfl, rfl⟩ := e
        exact ⟨[], b, m, rfl, by rw [← hfg _ b h, h1], (hall l m hl).2 h2, (hPQ _ b h).2 h3⟩
      | cons x before =>
        simp only [List.cons_append, List.cons.injEq] at e
        obtain ⟨rfl, rfl⟩ := e
        obtain ⟨before', b', after', rfl, r⟩ := ih.2 ⟨before, a', after, rfl, h1, h2, h3⟩
        exact ⟨b :: before', b', after', rfl, r⟩

theorem file_parse {v : J} {t : Bytes} (hv : ∀ x, v ≠ .num x) (h : FileOf v t) : parse t = some v ∧ Valid v := by
  obtain ⟨w, s, rest, hw, hs, rfl⟩ := h
  have hs := spells_mono (fun _ _ => plainly_means) hs
  exact ⟨parse_pos hw hs (fun ⟨x, e⟩ => absurd e (hv x)), spells_valid hs⟩

/-- A number is read as a number, or as none. -/
theorem file_num {x t : Bytes} (h : FileOf (.num x) t) : parse t = none ∨ ∃ y, parse t = some (.num y) := by
  obtain ⟨w, s, rest, hw, hs, rfl⟩ := h
  cases hs with
  | num _ hn =>
  obtain ⟨b, y, rfl, hb⟩ := spells_head.num_head hn
  have hne : ∀ c : UInt8, c ≠ 45 → isDigit c = false → b ≠ c := by
    rintro c h1 h2 rfl
    rcases hb with hb | hb
    · exact h1 hb
    · rw [hb] at h2; cases h2
  have hws : isWs b = false := by
    cases e : isWs b with
    | false => rfl
    | true =>
      simp only [isWs, Bool.or_eq_true, beq_iff_eq] at e
      rcases e with ((e | e) | e) | e
      all_goals exact absurd e (hne _ (by decide) (by decide))
  have e : w ++ b :: y ++ rest = w ++ b :: (y ++ rest) := by simp
  have hl : ∀ t, literal (b :: t) = (number (b :: t)).map fun x => (.num x.1, x.2) := by
    intro t
    simp only [literal, literal.dropPrefix?]
    rw [if_neg (fun h => hne 110 (by decide) (by decide) h.symm), if_neg (fun h => hne 116 (by decide) (by decide) h.symm),
      if_neg (fun h => hne 102 (by decide) (by decide) h.symm)]
  unfold parse
  rw [e, value, expect_neg hw hws (hne 123 (by decide) (by decide)), expect_neg hw hws (hne 91 (by decide) (by decide)),
    expect_neg hw hws (hne 34 (by decide) (by decide))]
  simp only [dropWs hw, dropNone hws, hl]
  cases number (b :: (y ++ rest)) with
  | none => exact .inl rfl
  | some z => exact .inr ⟨z.1, rfl⟩

theorem parse_file {t : Bytes} {v : J} (h : parse t = some v) : FileOf v t := by
  unfold parse at h
  simp only [Option.map_eq_some_iff, Prod.exists, exists_and_right, exists_eq_right] at h
  obtain ⟨r, h⟩ := h
  obtain ⟨w, s, hw, hs, e⟩ := (read_some _).1 _ _ _ h
  exact ⟨w, s, r, hw, spells_mono (fun _ _ h => means_plainly h) hs, e⟩

/-- C115: a users file is read as it is written: for each user the last member of that name, with its password and key. -/
theorem C115_users (ext : Bytes → List J → Option Bytes) (hext : ∀ cur l, (ext cur l).isSome = true ↔ ∀ x ∈ l, ByteText x)
    (name why t : Bytes) (ms : List (Bytes × J)) (hf : FileOf (.obj ms) t)
    (hu : ∀ m ∈ ms, ∃ a, UserText m.2 a) :
    ∃ users, readUsersFile ext name (.ok t) why = .ok users ∧
      ∀ user a, users user = some a ↔
        ∃ before m after, ms = before ++ m :: after ∧ m.1 = user ∧ (∀ x ∈ after, x.1 ≠ user) ∧ UserText m.2 a := by
  obtain ⟨hp, hv⟩ := file_parse (by simp) hf
  cases hv with
  | obj _ hv =>
  have hm := validM_mem hv
  have hsome : (toMembers ext ms).isSome = true := by
    rw [toMembers_iff]
    intro m h
    obtain ⟨a, ha⟩ := hu m h
    rw [toUser_text hext (hm m h).2 ha]
    rfl
  obtain ⟨l, hl⟩ := Option.isSome_iff_exists.1 hsome
  refine ⟨readUsers l, by simp [readUsersFile, hp, hl], ?_⟩
  intro user a
  have hE := toMembers_some hl
  have hE' : Each (fun (m : Bytes × J) (p : Bytes × Option UserAuth) => m.1 = p.1 ∧ (a = p.2.getD ⟨[], []⟩ ↔ UserText m.2 a)) ms l := by
    have : ∀ (ms : List (Bytes × J)) l, Each (fun (m : Bytes × J) (p : Bytes × Option UserAuth) => m.1 = p.1 ∧ ∃ a, p.2 = some a ∧ toUser ext m.2 = some a) ms l →
        (∀ m ∈ ms, Valid m.2 ∧ ∃ a, UserText m.2 a) →
        Each (fun (m : Bytes × J) (p : Bytes × Option UserAuth) => m.1 = p.1 ∧ (a = p.2.getD ⟨[], []⟩ ↔ UserText m.2 a)) ms l := by
      intro ms l h
      induction h with
      | nil => exact fun _ => .nil
      | cons m p ms l h hl ih =>
        intro hall
        refine .cons _ _ _ _ ⟨h.1, ?_⟩ (ih fun m hm => hall m (.tail _ hm))
        obtain ⟨b, hb, htu⟩ := h.2
        obtain ⟨hv, c, hc⟩ := hall m (.head _)
        rw [hb, Option.getD_some]
        have hbc : b = c := by
          have := toUser_text hext hv hc
          rw [htu] at this
          injection this
        constructor
        · rintro rfl; rw [hbc]; exact hc
        · intro ha
          have := toUser_text hext hv ha
          rw [htu] at this
          injection this with this
          exact this.symm
    exact this ms l hE (fun m h => ⟨(hm m h).2, hu m h⟩)
  rw [MS.Auth.C53_users_file]
  refine Iff.trans ?_ (each_split hE' (fun m => m.1) (fun p => p.1) (fun _ _ h => h.1) user (fun p => a = p.2.getD ⟨[], []⟩)
    (fun m => UserText m.2 a) (fun _ _ h => h.2))
  constructor
  · rintro ⟨before, m, after, e, h1, h2⟩
    exact ⟨before, (user, m), after, e, rfl, h1, h2⟩
  · rintro ⟨before, ⟨u, m⟩, after, e, rfl, h1, h2⟩
    exact ⟨before, m, after, e, h1, h2⟩

/-- C115: whom the server lets in, in terms of the file: with a password that is not empty and is the one in the last member of that
name; with the key there. -/
theorem C115_login {K : Type} (parseKey : Bytes → Option K) (marshal : K → Bytes)
    (ext : Bytes → List J → Option Bytes) (hext : ∀ cur l, (ext cur l).isSome = true ↔ ∀ x ∈ l, ByteText x) (name why t : Bytes) (ms : List (Bytes × J)) (hf : FileOf (.obj ms) t)
    (hu : ∀ m ∈ ms, ∃ a, UserText m.2 a) :
    ∃ users, readUsersFile ext name (.ok t) why = .ok users ∧
      (∀ user p, MS.Auth.accepts parseKey marshal users (.password user p) = true ↔
        p ≠ [] ∧ ∃ before m after a, ms = before ++ m :: after ∧ m.1 = user ∧ (∀ x ∈ after, x.1 ≠ user) ∧ UserText m.2 a ∧ a.password = p) ∧
      (∀ user k, MS.Auth.accepts parseKey marshal users (.key user k) = true ↔
        ∃ before m after a stored, ms = before ++ m :: after ∧ m.1 = user ∧ (∀ x ∈ after, x.1 ≠ user) ∧ UserText m.2 a ∧
          a.pubKey ≠ [] ∧ parseKey a.pubKey = some stored ∧ marshal stored = marshal k) := by
  obtain ⟨users, h1, h2⟩ := C115_users ext hext name why t ms hf hu
  refine ⟨users, h1, fun user p => ?_, fun user k => ?_⟩
  · rw [MS.Auth.accepts_iff]
    show MS.Auth.HasPassword users user p ↔ _
    unfold MS.Auth.HasPassword
    constructor
    · rintro ⟨a, ha, rfl, hp⟩
      obtain ⟨b, m, c, r⟩ := (h2 user a).1 ha
      exact ⟨hp, b, m, c, a, r.1, r.2.1, r.2.2.1, r.2.2.2, rfl⟩
    · rintro ⟨hp, b, m, c, a, r1, r2, r3, r4, rfl⟩
      exact ⟨a, (h2 user a).2 ⟨b, m, c, r1, r2, r3, r4⟩, rfl, hp⟩
  · rw [MS.Auth.accepts_iff]
    show MS.Auth.HasKey parseKey marshal users user k ↔ _
    unfold MS.Auth.HasKey
    constructor
    · rintro ⟨a, st, ha, r1, r2, r3⟩
      obtain ⟨b, m, c, r⟩ := (h2 user a).1 ha
      exact ⟨b, m, c, a, st, r.1, r.2.1, r.2.2.1, r.2.2.2, r1, r2, r3⟩
    · rintro ⟨b, m, c, a, st, r1, r2, r3, r4, q⟩
      exact ⟨a, st, (h2 user a).2 ⟨b, m, c, r1, r2, r3, r4⟩, q⟩

theorem accepted_of (ext : Bytes → List J → Option Bytes) (hext : ∀ cur l, (ext cur l).isSome = true ↔ ∀ x ∈ l, ByteText x)
    (name why t : Bytes) (v : J) (hf : FileOf v t) :
    (∃ users, readUsersFile ext name (.ok t) why = .ok users) ↔ FitsUsers v := by
  by_cases hx : ∃ x, v = .num x
  · obtain ⟨x, rfl⟩ := hx
    rcases file_num hf with e | ⟨y, e⟩ <;> simp [readUsersFile, e, FitsUsers]
  have hv : ∀ x, v ≠ .num x := fun x e => hx ⟨x, e⟩
  obtain ⟨hp, hval⟩ := file_parse hv hf
  cases v with
  | null => simp [readUsersFile, hp, FitsUsers]
  | bool b => simp [readUsersFile, hp, FitsUsers]
  | num t => exact absurd rfl (hv t)
  | str s => simp [readUsersFile, hp, FitsUsers]
  | arr l => simp [readUsersFile, hp, FitsUsers]
  | obj ms =>
    cases hval with
    | obj _ hval =>
    have hm := validM_mem hval
    have h1 : FitsUsers (.obj ms) ↔ ∀ m ∈ ms, FitsUser m.2 := by simp [FitsUsers]
    have h2 : (∀ m ∈ ms, FitsUser m.2) ↔ (toMembers ext ms).isSome = true := by
      rw [toMembers_iff]
      exact ⟨fun h m hmem => (toUser_fits hext (hm m hmem).2).2 (h m hmem), fun h m hmem => (toUser_fits hext (hm m hmem).2).1 (h m hmem)⟩
    rw [h1, h2]
    cases e : toMembers ext ms with
    | none => simp [readUsersFile, hp, e]
    | some l => simp [readUsersFile, hp, e]

/-- C115: a file is accepted exactly if it begins with a value that fits. -/
theorem C115_accepted_iff (ext : Bytes → List J → Option Bytes) (hext : ∀ cur l, (ext cur l).isSome = true ↔ ∀ x ∈ l, ByteText x)
    (name why t : Bytes) : (∃ users, readUsersFile ext name (.ok t) why = .ok users) ↔ ∃ v, FileOf v t ∧ FitsUsers v := by
  constructor
  · intro h
    cases e : parse t with
    | none =>
      obtain ⟨u, h⟩ := h
      simp [readUsersFile, e] at h
    | some v => exact ⟨v, parse_file e, (accepted_of ext hext name why t v (parse_file e)).1 h⟩
  · rintro ⟨v, hf, h⟩
    exact (accepted_of ext hext name why t v hf).2 h

/-- C115: every failure names the file: one that cannot be opened, and one that does not begin with a value that fits. -/
theorem C115_errors (ext : Bytes → List J → Option Bytes) (hext : ∀ cur l, (ext cur l).isSome = true ↔ ∀ x ∈ l, ByteText x) (name why : Bytes) :
    (∀ e, readUsersFile ext name (.error e) why = .error (ascii "failed to open users file (" ++ name ++ ascii "): " ++ e)) ∧
    (∀ t, (¬ ∃ v, FileOf v t ∧ FitsUsers v) →
      readUsersFile ext name (.ok t) why = .error (ascii "failed to decode users file (" ++ name ++ ascii "): " ++ why)) := by
  refine ⟨fun e => rfl, fun t h => ?_⟩
  rw [← C115_accepted_iff ext hext name why t] at h
  have hd : (∃ u, readUsersFile ext name (.ok t) why = .ok u) ∨
      readUsersFile ext name (.ok t) why = .error (ascii "failed to decode users file (" ++ name ++ ascii "): " ++ why) := by
    unfold readUsersFile
    repeat' split
    · rename_i e; cases e
    all_goals first | exact .inr rfl | exact .inl ⟨_, rfl⟩
  exact hd.resolve_left h

/-! ## Lyrics -/

theorem toAtom_fits {v : J} (hv : Valid v) : (toAtom v).isSome = true ↔ FitsWord v := by
  cases v with
  | null => simp [toAtom, FitsWord]
  | bool b => simp [toAtom, FitsWord]
  | num t => simp [toAtom, FitsWord]
  | str s => simp [toAtom, FitsWord]
  | arr l => simp [toAtom, FitsWord]
  | obj fs =>
    cases hv with
    | obj _ hv =>
    have hm := validM_mem hv
    rw [toAtom]
    have hF : FitsWord (.obj fs) ↔ ∀ m ∈ fs, (IsName "timestamp" m.1 → m.2 = .null ∨ ∃ t i, m.2 = .num t ∧ IntText i t ∧ -2 ^ 63 ≤ i ∧ i < 2 ^ 63) ∧
      (IsName "caption" m.1 → m.2 = .null ∨ ∃ s, m.2 = .str s) := by
      simp only [FitsWord, reduceCtorEq, J.obj.injEq, exists_eq_left', false_or]
    rw [hF]
    apply storeAll_some
    intro a m hmem
    obtain ⟨hmv, hmj⟩ := hm m hmem
    by_cases hP : IsName "timestamp" m.1
    · have hK : ¬ IsName "caption" m.1 := fun h => time_caption hP h
      rw [if_pos ((name_timestamp hmv).2 hP), Option.isSome_map]
      generalize m.2 = v at hmj
      cases v with
      | num t =>
        cases hmj with
        | num _ hn => simp only [setInt, parseInt_some_iff hn, hP, hK, reduceCtorEq, J.num.injEq, false_or, true_implies, false_implies, and_true, exists_and_left, exists_eq_left']
      | null => simp [setInt, hP, hK]
      | bool => simp [setInt, hP, hK]
      | str => simp [setInt, hP, hK]
      | arr => simp [setInt, hP, hK]
      | obj => simp [setInt, hP, hK]
    · rw [if_neg (fun e => hP ((name_timestamp hmv).1 e))]
      by_cases hK : IsName "caption" m.1
      · rw [if_pos ((name_caption hmv).2 hK)]
        cases m.2 <;> simp [setString, hP, hK]
      · rw [if_neg (fun e => hK ((name_caption hmv).1 e))]
        simp [hP, hK]

theorem toAtom_text {v : J} {a : Word} (hv : Valid v) (h : WordText v a) : toAtom v = some a := by
  obtain ⟨hfit, h⟩ := h
  obtain ⟨b, hb⟩ := Option.isSome_iff_exists.1 ((toAtom_fits hv).2 hfit)
  rw [hb]
  congr 1
  rcases h with ⟨rfl, rfl⟩ | ⟨fs, rfl, h1, h2⟩
  · simp [toAtom] at hb; exact hb.symm
  · cases hv with
    | obj _ hv =>
    have hm := validM_mem hv
    rw [toAtom] at hb
    have e1 : b.timestamp = a.timestamp := by
      have h1' : Field "timestamp" Null (fun v x => ∃ t, v = .num t ∧ Num t ∧ IntText x.toInt t) 0 fs a.timestamp := by
        rcases h1 with ⟨before, m, after, rfl, hn, ⟨t, ht, hi⟩, hr⟩ | h1
        · refine .inl ⟨before, m, after, rfl, hn, ⟨t, ht, ?_, hi⟩, hr⟩
          have := (hm m (by simp)).2
          rw [ht] at this
          cases this
          assumption
        · exact .inr h1
      refine field_last (π := Word.timestamp) (set := setInt) ?_ ?_ ?_ ?_ hb rfl h1'
      · intro c m hmem hn c' e
        rw [if_pos ((name_timestamp (hm m hmem).1).2 hn)] at e
        simp only [Option.map_eq_some_iff] at e
        obtain ⟨x, hx, rfl⟩ := e
        exact hx
      · intro c m hmem hn c' e
        rw [if_neg (fun h => hn ((name_timestamp (hm m hmem).1).1 h))] at e
        split at e
        · simp only [Option.map_eq_some_iff] at e
          obtain ⟨x, hx, rfl⟩ := e
          rfl
        · injection e with e; rw [e]
      · rintro v y c ⟨t, rfl, hn, hi⟩
        exact (parseInt_iff hn y).2 hi
      · rintro v c rfl; rfl
    have e2 : b.caption = a.caption := by
      refine field_last (π := Word.caption) (set := setString) ?_ ?_ ?_ ?_ hb rfl h2
      · intro c m hmem hn c' e
        rw [if_neg (fun h => time_caption ((name_timestamp (hm m hmem).1).1 h) hn), if_pos ((name_caption (hm m hmem).1).2 hn)] at e
        simp only [Option.map_eq_some_iff] at e
        obtain ⟨x, hx, rfl⟩ := e
        exact hx
      · intro c m hmem hn c' e
        split at e
        · simp only [Option.map_eq_some_iff] at e
          obtain ⟨x, hx, rfl⟩ := e
          rfl
        · rw [if_neg (fun h => hn ((name_caption (hm m hmem).1).1 h))] at e
          injection e with e; rw [e]
      · rintro v y c rfl; rfl
      · rintro v c rfl; rfl
    cases a; cases b
    simp only at e1 e2
    rw [e1, e2]

theorem word_total {v : J} (h : FitsWord v) : ∃ a, WordText v a := by
  rcases h with rfl | ⟨fs, rfl, hf⟩
  · exact ⟨⟨0, []⟩, .inl rfl, .inl ⟨rfl, rfl⟩⟩
  · obtain ⟨x, hx⟩ := field_total (n := "timestamp") (skip := Null) (Is := fun v (x : Int64) => ∃ t, v = .num t ∧ IntText x.toInt t) (zero := 0) (l := fs) (by
      intro m hm hn
      rcases (hf m hm).1 hn with h | ⟨t, i, h, hi, h1, h2⟩
      · exact .inl h
      · exact .inr ⟨Int64.ofInt i, t, h, by rw [Int64.toInt_ofInt_of_le h1 h2]; exact hi⟩)
    obtain ⟨y, hy⟩ := field_total (n := "caption") (skip := Null) (Is := fun v (c : Bytes) => v = .str c) (zero := []) (l := fs) (by
      intro m hm hn
      exact (hf m hm).2 hn)
    exact ⟨⟨x, y⟩, .inr ⟨fs, rfl, hf⟩, .inr ⟨fs, rfl, hx, hy⟩⟩

theorem toAtom_iff {v : J} {a : Word} (hv : Valid v) : toAtom v = some a ↔ WordText v a := by
  refine ⟨fun h => ?_, toAtom_text hv⟩
  obtain ⟨b, hb⟩ := word_total ((toAtom_fits hv).1 (by rw [h]; rfl))
  have := toAtom_text hv hb
  rw [h] at this
  injection this with this
  rw [this]; exact hb

theorem mapAll_each {α β : Type} {f : α → Option β} {l : List α} {m : List β} : mapAll f l = some m ↔ Each (fun a b => f a = some b) l m := by
  induction l generalizing m with
  | nil =>
    simp only [mapAll, Option.some.injEq]
    constructor
    · rintro rfl; exact .nil
    · intro h; cases h; rfl
  | cons a l ih =>
    rw [mapAll]
    cases e : f a with
    | none =>
      simp only [reduceCtorEq, false_iff]
      intro h
      cases h with
      | cons _ b _ _ h hl => rw [e] at h; cases h
    | some b =>
      simp only [Option.map_eq_some_iff]
      constructor
      · rintro ⟨x, hx, rfl⟩
        exact .cons _ _ _ _ e (ih.1 hx)
      · intro h
        cases h with
        | cons _ b' _ m' h hl =>
          rw [e] at h
          injection h with h
          subst h
          exact ⟨m', ih.2 hl, rfl⟩

theorem mapAll_some {α β : Type} {f : α → Option β} (l : List α) : (mapAll f l).isSome = true ↔ ∀ a ∈ l, (f a).isSome = true := by
  induction l with
  | nil => simp [mapAll]
  | cons a l ih =>
    rw [mapAll]
    cases e : f a with
    | none => simp [e]
    | some b => simp [e, ih]

theorem each_mem {α β : Type} {R S : α → β → Prop} {l : List α} {m : List β} (h : Each R l m) (hrs : ∀ a ∈ l, ∀ b, R a b → S a b) : Each S l m := by
  induction h with
  | nil => exact .nil
  | cons a b l m h hl ih => exact .cons _ _ _ _ (hrs a (.head _) b h) (ih fun a ha => hrs a (.tail _ ha))

theorem toLine_iff {v : J} {l : List Word} (hv : Valid v) : toLine v = some l ↔ LineText v l := by
  cases v with
  | null => simp only [toLine, Option.some.injEq, LineText, reduceCtorEq, false_and, exists_false, or_false, true_and]; exact eq_comm
  | arr vs =>
    cases hv with
    | arr _ hv =>
    have hm := validL_mem hv
    simp only [toLine, mapAll_each, LineText, reduceCtorEq, false_and, J.arr.injEq, exists_eq_left', false_or]
    exact ⟨fun h => each_mem h fun y hy a => (toAtom_iff (hm y hy)).1, fun h => each_mem h fun y hy a => (toAtom_iff (hm y hy)).2⟩
  | _ => simp [toLine, LineText]

theorem toLyrics_iff {v : J} {l : Lyrics} (hv : Valid v) : toLyrics v = some l ↔ LyricsText v l := by
  cases v with
  | null => simp only [toLyrics, Option.some.injEq, LyricsText, reduceCtorEq, false_and, exists_false, or_false, true_and]; exact eq_comm
  | arr vs =>
    cases hv with
    | arr _ hv =>
    have hm := validL_mem hv
    simp only [toLyrics, mapAll_each, LyricsText, reduceCtorEq, false_and, J.arr.injEq, exists_eq_left', false_or]
    exact ⟨fun h => each_mem h fun y hy a => (toLine_iff (hm y hy)).1, fun h => each_mem h fun y hy a => (toLine_iff (hm y hy)).2⟩
  | _ => simp [toLyrics, LyricsText]

/-- C116: exactly the lyrics that are written in the file are read. -/
theorem C116_lyrics (t : Bytes) (l : Lyrics) : lyricsFile t = some l ↔ ∃ v, FileOf v t ∧ LyricsText v l := by
  constructor
  · intro h
    unfold lyricsFile at h
    cases e : parse t with
    | none => rw [e] at h; cases h
    | some v =>
      rw [e] at h
      exact ⟨v, parse_file e, (toLyrics_iff (parse_valid e)).1 h⟩
  · rintro ⟨v, hf, h⟩
    have hv : ∀ x, v ≠ .num x := by rcases h with ⟨rfl, _⟩ | ⟨vs, rfl, _⟩ <;> simp
    obtain ⟨hp, hval⟩ := file_parse hv hf
    rw [lyricsFile, hp]
    exact (toLyrics_iff hval).2 h

theorem storeAll_inv {α β : Type} {f : α → β → Option α} {I : α → Prop} {l : List β} (h : ∀ a, ∀ b ∈ l, ∀ a', I a → f a b = some a' → I a')
    {a a' : α} (ha : I a) (hs : storeAll f a l = some a') : I a' := by
  induction l generalizing a with
  | nil => simp [storeAll] at hs; subst hs; exact ha
  | cons b l ih =>
    rw [storeAll] at hs
    cases e : f a b with
    | none => rw [e] at hs; cases hs
    | some c =>
      rw [e] at hs
      exact ih (fun a b hb => h a b (.tail _ hb)) (h a b (.head _) c ha e) hs

theorem atom_valid {v : J} {a : Word} (hv : Valid v) (h : toAtom v = some a) : utf8Valid a.caption = true := by
  cases v with
  | null => simp [toAtom] at h; subst h; rfl
  | obj fs =>
    cases hv with
    | obj _ hv =>
    have hm := validM_mem hv
    rw [toAtom] at h
    refine storeAll_inv (I := fun w : Word => utf8Valid w.caption = true) ?_ (by rfl) h
    intro b m hmem b' hb e
    split at e
    · simp only [Option.map_eq_some_iff] at e
      obtain ⟨x, _, rfl⟩ := e
      exact hb
    · split at e
      · simp only [Option.map_eq_some_iff] at e
        obtain ⟨x, hx, rfl⟩ := e
        have := (hm m hmem).2
        generalize m.2 = v at hx this
        cases v with
        | null => simp [setString] at hx; subst hx; exact hb
        | str s =>
          simp [setString] at hx
          subst hx
          cases this
          assumption
        | _ => simp [setString] at hx
      · injection e with e
        subst e
        exact hb
  | _ => simp [toAtom] at h

theorem each_right {α β : Type} {R : α → β → Prop} {l : List α} {m : List β} (h : Each R l m) : ∀ b ∈ m, ∃ a ∈ l, R a b := by
  induction h with
  | nil => simp
  | cons a b l m h hl ih =>
    intro x hx
    rcases List.mem_cons.1 hx with rfl | hx
    · exact ⟨a, .head _, h⟩
    · obtain ⟨y, hy, r⟩ := ih x hx
      exact ⟨y, .tail _ hy, r⟩

/-- C116: whatever is in the file, captions are UTF-8. -/
theorem C116_utf8 (t : Bytes) (l : Lyrics) (h : lyricsFile t = some l) : ∀ line ∈ l, ∀ w ∈ line, utf8Valid w.caption = true := by
  unfold lyricsFile at h
  cases e : parse t with
  | none => rw [e] at h; cases h
  | some v =>
    rw [e] at h
    have hv := parse_valid e
    cases v with
    | null => simp [toLyrics] at h; subst h; simp
    | arr vs =>
      cases hv with
      | arr _ hv =>
      simp only [toLyrics, mapAll_each] at h
      intro line hline w hw
      obtain ⟨x, hx, hl⟩ := each_right h line hline
      have hxv := validL_mem hv x hx
      cases x with
      | null => simp [toLine] at hl; subst hl; cases hw
      | arr ws =>
        cases hxv with
        | arr _ hxv =>
        simp only [toLine, mapAll_each] at hl
        obtain ⟨y, hy, ha⟩ := each_right hl w hw
        exact atom_valid (validL_mem hxv y hy) ha
      | _ => simp [toLine] at hl
    | _ => simp [toLyrics] at h

/-- C116: the announcement of a song, and so what the infoer has, carries the lyrics in the file beside it. -/
theorem C116_announced (env : Env) (hj : env.json = lyricsFile) (start : UInt64) (filename : Bytes) (length : Int64) (t : Bytes) (v : J) (l : Lyrics)
    (ht : env.file (env.join env.audioDir (filename ++ ascii ".json")) = some t) (hf : FileOf v t) (h : LyricsText v l) :
    (received (newSong env start filename length)).lyrics = l ∧
    ∃ tags, Known env start filename length ⟨filename, start, length, l, tags⟩ := by
  obtain ⟨tags, htags⟩ : ∃ tags : Tags, ((∃ c, env.file (env.join env.audioDir filename) = some c ∧ env.tags c = some tags) ∨
      ((∀ c, env.file (env.join env.audioDir filename) = some c → env.tags c = none) ∧ tags = ⟨[], [], []⟩)) := by
    cases e : env.file (env.join env.audioDir filename) with
    | none => exact ⟨⟨[], [], []⟩, .inr ⟨by simp, rfl⟩⟩
    | some c =>
      cases e' : env.tags c with
      | none => exact ⟨⟨[], [], []⟩, .inr ⟨by rintro _ ⟨⟩; exact e', rfl⟩⟩
      | some tg => exact ⟨tg, .inl ⟨c, rfl, e'⟩⟩
  have hK : Known env start filename length ⟨filename, start, length, l, tags⟩ :=
    ⟨rfl, rfl, rfl, .inl ⟨t, ht, by rw [hj]; exact (C116_lyrics t l).2 ⟨v, hf, h⟩⟩, htags⟩
  exact ⟨by rw [C54_lossless _ _ _ _ _ hK], tags, hK⟩

/-- C116: a file that is not JSON, or in which anything does not fit, counts as no lyrics at all. -/
theorem C116_all_or_nothing (env : Env) (hj : env.json = lyricsFile) (start : UInt64) (filename : Bytes) (length : Int64) (t : Bytes)
    (ht : env.file (env.join env.audioDir (filename ++ ascii ".json")) = some t)
    (h : ¬ ∃ v l, FileOf v t ∧ LyricsText v l) : (received (newSong env start filename length)).lyrics = [] := by
  have hn : lyricsFile t = none := by
    cases e : lyricsFile t with
    | none => rfl
    | some l =>
      obtain ⟨v, hf, hl⟩ := (C116_lyrics t l).1 e
      exact absurd ⟨v, l, hf, hl⟩ h
  have hc : collectLyrics env filename = [] := by
    rw [json_bytes] at ht
    simp [collectLyrics, ht, hj, hn]
  simp [received, newSong, hc, toWireLyrics]

/-- C116: no lyrics file keeps an announcement from being sent; only the name and the tags of the song can. -/
theorem C116_sent_iff (z : Zlib) (env : Env) (hj : env.json = lyricsFile) (start : UInt64) (filename : Bytes) (length : Int64) (s : Song)
    (h : Known env start filename length s) :
    (toWire z (.newSongInfo (newSong env start filename length))).isSome ↔
      utf8Valid filename = true ∧ utf8Valid s.tags.title = true ∧ utf8Valid s.tags.artist = true ∧ utf8Valid s.tags.album = true := by
  rw [C54_sent_iff z env start filename length s h]
  obtain ⟨e, _, _, hl, _⟩ := h
  have hc : ∀ l ∈ s.lyrics, ∀ w ∈ l, utf8Valid w.caption = true := by
    rcases hl with ⟨c, _, hc⟩ | ⟨_, hc⟩
    · rw [hj] at hc
      exact C116_utf8 c _ hc
    · rw [hc]; simp
  simp only [Utf8, e]
  constructor
  · rintro ⟨h1, _, h3⟩; exact ⟨h1, h3⟩
  · rintro ⟨h1, h3⟩; exact ⟨h1, hc, h3⟩

/-! ## Every table and all lyrics can be written -/

theorem hex_small : ∀ n : Fin 16, ∃ b : UInt8, Hex b n.val := by
  intro n
  have h := n.isLt
  by_cases h9 : n.val ≤ 9
  · refine ⟨UInt8.ofNat (n.val + 48), ?_⟩
    have e : (UInt8.ofNat (n.val + 48)).toNat = n.val + 48 := by simp only [UInt8.toNat_ofNat']; omega
    have := Hex.digit (UInt8.ofNat (n.val + 48)) (by omega)
    rwa [show (UInt8.ofNat (n.val + 48)).toNat - 48 = n.val by omega] at this
  · refine ⟨UInt8.ofNat (n.val + 87), ?_⟩
    have e : (UInt8.ofNat (n.val + 87)).toNat = n.val + 87 := by simp only [UInt8.toNat_ofNat']; omega
    have := Hex.small (UInt8.ofNat (n.val + 87)) (by omega)
    rwa [show (UInt8.ofNat (n.val + 87)).toNat - 97 + 10 = n.val by omega] at this

theorem str_exists (cs : List Char) : ∃ t, Str cs t := by
  induction cs with
  | nil => exact ⟨[], .nil⟩
  | cons c cs ih =>
    obtain ⟨t, ht⟩ := ih
    by_cases h1 : c = '"'
    · subst h1; exact ⟨_, .esc '"' '"' cs t (by decide) ht⟩
    · by_cases h2 : c = '\\'
      · subst h2; exact ⟨_, .esc '\\' '\\' cs t (by decide) ht⟩
      · by_cases h3 : 32 ≤ c.toNat
        · exact ⟨_, .plain c cs t h1 h2 h3 ht⟩
        · obtain ⟨a, ha⟩ := hex_small 0
          obtain ⟨x, hx⟩ := hex_small ⟨c.toNat / 16, by omega⟩
          obtain ⟨y, hy⟩ := hex_small ⟨c.toNat % 16, by omega⟩
          exact ⟨_, .uni c a a x y _ _ _ _ cs t ha ha hx hy (by simp only [Fin.val_zero]; omega) ht⟩

theorem plainly_exists {s : Bytes} (h : utf8Valid s = true) : ∃ t, Plainly s t := by
  obtain ⟨cs, rfl⟩ := (C23_utf8 _).1 h
  obtain ⟨t, ht⟩ := str_exists cs
  exact ⟨t, cs, rfl, ht⟩

theorem ws_nil : Ws [] := by intro b hb; cases hb

mutual
theorem spells_exists {v : J} : Valid v → ∃ s, Spells Plainly v s
  | .null => ⟨_, .null⟩
  | .bool true => ⟨_, .true_⟩
  | .bool false => ⟨_, .false_⟩
  | .num t h => ⟨_, .num t h⟩
  | .str s h => by obtain ⟨t, ht⟩ := plainly_exists h; exact ⟨_, .str s t ht⟩
  | .arr l h => by
    rcases elems_exists h with rfl | ⟨t, ht⟩
    · exact ⟨_, .arr0 [] ws_nil⟩
    · exact ⟨_, .arr l t ht⟩
  | .obj l h => by
    rcases members_exists h with rfl | ⟨t, ht⟩
    · exact ⟨_, .obj0 [] ws_nil⟩
    · exact ⟨_, .obj l t ht⟩

theorem elems_exists {l : List J} : ValidL l → l = [] ∨ ∃ t, Elems Plainly l t
  | .nil => .inl rfl
  | .cons v l h hl => by
    obtain ⟨s, hs⟩ := spells_exists h
    rcases elems_exists hl with rfl | ⟨t, ht⟩
    · exact .inr ⟨_, .one v [] s [] ws_nil hs ws_nil⟩
    · exact .inr ⟨_, .more v l [] s [] t ws_nil hs ws_nil ht⟩

theorem members_exists {l : List (Bytes × J)} : ValidM l → l = [] ∨ ∃ t, Members Plainly l t
  | .nil => .inl rfl
  | .cons k v l hk h hl => by
    obtain ⟨q, hq⟩ := plainly_exists hk
    obtain ⟨s, hs⟩ := spells_exists h
    rcases members_exists hl with rfl | ⟨t, ht⟩
    · exact .inr ⟨_, .one k v [] q [] [] s [] ws_nil hq ws_nil ws_nil hs ws_nil⟩
    · exact .inr ⟨_, .more k v l [] q [] [] s [] t ws_nil hq ws_nil ws_nil hs ws_nil ht⟩
end

theorem file_exists {v : J} (h : Valid v) : ∃ t, FileOf v t := by
  obtain ⟨s, hs⟩ := spells_exists h
  exact ⟨_, [], s, [], ws_nil, hs, rfl⟩

theorem ascii_name (n : String) : IsName n (utf8 n.toList) := ⟨_, rfl, rfl⟩

theorem six_ascii (n : Nat) : (sixBits n).toNat < 128 ∧ sixBits n ≠ 13 ∧ sixBits n ≠ 10 := by
  by_cases h : n < 64
  · exact (by decide +kernel : ∀ n : Fin 64, (sixBits n.val).toNat < 128 ∧ sixBits n.val ≠ 13 ∧ sixBits n.val ≠ 10) ⟨n, h⟩
  · have hl : alphabet.length = 64 := by decide +kernel
    have : sixBits n = 65 := by
      unfold sixBits
      rw [List.getD_eq_getElem?_getD, List.getElem?_eq_none (by omega)]
      decide
    rw [this]; decide

theorem b64enc_ascii (k : Bytes) : ∀ b ∈ b64enc k, b.toNat < 128 ∧ b ≠ 13 ∧ b ≠ 10 := by
  have h61 : (61 : UInt8).toNat < 128 ∧ (61 : UInt8) ≠ 13 ∧ (61 : UInt8) ≠ 10 := by decide
  induction k using b64enc.induct with
  | case1 x y z r ih =>
    intro b hb
    simp only [b64enc, List.mem_cons] at hb
    rcases hb with rfl | rfl | rfl | rfl | hb
    · exact six_ascii _
    · exact six_ascii _
    · exact six_ascii _
    · exact six_ascii _
    · exact ih b hb
  | case2 x y =>
    intro b hb
    simp only [b64enc, List.mem_cons, List.not_mem_nil, or_false] at hb
    rcases hb with rfl | rfl | rfl | rfl
    · exact six_ascii _
    · exact six_ascii _
    · exact six_ascii _
    · exact h61
  | case3 x =>
    intro b hb
    simp only [b64enc, List.mem_cons, List.not_mem_nil, or_false] at hb
    rcases hb with rfl | rfl | rfl | rfl
    · exact six_ascii _
    · exact six_ascii _
    · exact h61
    · exact h61
  | case4 => intro b hb; cases hb

theorem b64_self (k : Bytes) : B64 k (b64enc k) := by
  unfold B64
  rw [List.filter_eq_self]
  intro b hb
  simp [(b64enc_ascii k b hb).2]

theorem ascii_valid {s : Bytes} (h : ∀ b ∈ s, b.toNat < 128) : utf8Valid s = true := by
  induction s with
  | nil => rfl
  | cons b s ih =>
    have hb := h b (.head _)
    have : String.utf8EncodeChar (Char.ofNat b.toNat) = [b] := by
      have hv : b.toNat.isValidChar := .inl (by omega)
      have hn : (Char.ofNat b.toNat).toNat = b.toNat := by
        unfold Char.ofNat
        rw [dif_pos hv]
        rfl
      rcases char_bytes (Char.ofNat b.toNat) with ⟨_, e⟩ | ⟨b0, b1, e, g, _⟩ | ⟨b0, b1, b2, e, g, _⟩ | ⟨b0, b1, b2, b3, e, g, _⟩
      · rw [e, hn]; congr 1; exact ofNat_eq (by omega)
      all_goals
        exfalso
        have hs := String.utf8EncodeChar_eq_singleton (c := Char.ofNat b.toNat) (by
          rw [Char.utf8Size_eq_one_iff]
          exact UInt32.le_iff_toNat_le.2 (by show (Char.ofNat b.toNat).toNat ≤ 127; omega))
        rw [hs] at e
        cases e
    have h2 := utf8_append (a := [b]) (b := s) (by rw [← this]; exact (C23_utf8 _).2 ⟨[Char.ofNat b.toNat], by simp⟩) (ih fun b hb => h b (.tail _ hb))
    exact h2

/-- A user's entry as one writes it. -/
def entry (a : UserAuth) : J := .obj [(utf8 "password".toList, .str a.password), (utf8 "pubKey".toList, .str (b64enc a.pubKey))]

theorem b64_text {k s : Bytes} (h : B64 k s) : B64Text s := by
  rw [← base64_iff, base64_enc h]
  rfl

theorem entry_text (a : UserAuth) : UserText (entry a) a := by
  have n1 : ¬ IsName "password" (utf8 "pubKey".toList) := fun h => pass_key h (ascii_name _)
  have n2 : ¬ IsName "pubKey" (utf8 "password".toList) := fun h => pass_key (ascii_name _) h
  refine ⟨.inr ⟨_, rfl, ?_⟩, .inr ⟨_, rfl, .inl ⟨[], _, _, rfl, ascii_name _, rfl, ?_⟩, .inl ⟨[_], _, [], rfl, ascii_name _, .inr ⟨_, rfl, b64_self _⟩, by simp⟩⟩⟩
  · intro m hm
    simp only [List.mem_cons, List.not_mem_nil, or_false] at hm
    rcases hm with rfl | rfl
    · exact ⟨fun _ => .inr ⟨_, rfl⟩, fun h => absurd h n2⟩
    · exact ⟨fun h => absurd h n1, fun _ => .inr (.inl ⟨_, rfl, b64_text (b64_self _)⟩)⟩
  · intro y hy hn
    simp only [List.mem_cons, List.not_mem_nil, or_false] at hy
    subst hy
    exact absurd hn n1

theorem utf8_valid (cs : List Char) : utf8Valid (utf8 cs) = true := (C23_utf8 _).2 ⟨cs, rfl⟩

/-- C115: every table with names and passwords in UTF-8 has a file that is read as this table. -/
theorem C115_every_table (ext : Bytes → List J → Option Bytes) (hext : ∀ cur l, (ext cur l).isSome = true ↔ ∀ x ∈ l, ByteText x)
    (name why : Bytes) (table : List (Bytes × UserAuth))
    (hn : ∀ p ∈ table, utf8Valid p.1 = true ∧ utf8Valid p.2.password = true) :
    ∃ t users, readUsersFile ext name (.ok t) why = .ok users ∧
      ∀ user a, users user = some a ↔ ∃ before after, table = before ++ (user, a) :: after ∧ ∀ x ∈ after, x.1 ≠ user := by
  have hval : ValidM (table.map fun p => (p.1, entry p.2)) := by
    clear hext ext name why
    induction table with
    | nil => exact .nil
    | cons p l ih =>
      refine .cons _ _ _ (hn p (.head _)).1 (.obj _ (.cons _ _ _ (utf8_valid _) (.str _ (hn p (.head _)).2) (.cons _ _ _ (utf8_valid _) (.str _ ?_) .nil)))
        (ih fun p hp => hn p (.tail _ hp))
      exact ascii_valid fun b hb => (b64enc_ascii _ b hb).1
  obtain ⟨t, ht⟩ := file_exists (.obj _ hval)
  obtain ⟨users, h1, h2⟩ := C115_users ext hext name why t _ ht (by
    intro m hm
    simp only [List.mem_map] at hm
    obtain ⟨p, _, rfl⟩ := hm
    exact ⟨p.2, entry_text p.2⟩)
  refine ⟨t, users, h1, fun user a => (h2 user a).trans ?_⟩
  have hE : Each (fun (p : Bytes × UserAuth) (m : Bytes × J) => p.1 = m.1 ∧ (UserText m.2 a ↔ p.2 = a)) table (table.map fun p => (p.1, entry p.2)) := by
    have : ∀ table : List (Bytes × UserAuth), (∀ p ∈ table, utf8Valid p.2.password = true) →
        Each (fun (p : Bytes × UserAuth) (m : Bytes × J) => p.1 = m.1 ∧ (UserText m.2 a ↔ p.2 = a)) table (table.map fun p => (p.1, entry p.2)) := by
      intro table
      induction table with
      | nil => exact fun _ => .nil
      | cons p l ih =>
        intro hall
        refine .cons _ _ _ _ ⟨rfl, ?_, ?_⟩ (ih fun p hp => hall p (.tail _ hp))
        · intro h
          have hv : Valid (entry p.2) := .obj _ (.cons _ _ _ (utf8_valid _) (.str _ (hall p (.head _)))
            (.cons _ _ _ (utf8_valid _) (.str _ (ascii_valid fun b hb => (b64enc_ascii _ b hb).1)) .nil))
          have e1 := toUser_text hext hv (entry_text p.2)
          rw [toUser_text hext hv h] at e1
          injection e1 with e1
          exact e1.symm
        · rintro rfl; exact entry_text _
    exact this table fun p hp => (hn p hp).2
  refine (each_split hE (fun p => p.1) (fun m => m.1) (fun _ _ h => h.1) user (fun m => UserText m.2 a) (fun p => p.2 = a) (fun _ _ h => h.2)).trans ?_
  constructor
  · rintro ⟨before, ⟨u, a'⟩, after, e, rfl, h, rfl⟩
    exact ⟨before, after, e, h⟩
  · rintro ⟨before, after, e, h⟩
    exact ⟨before, (user, a), after, e, rfl, h, rfl⟩

theorem digits_exist (n : Nat) : ∃ d, Digits d ∧ Dec d n ∧ (d = [48] ∨ d.head? ≠ some 48) := by
  induction n using Nat.strongRecOn with
  | _ n ih =>
    have hdig : ∀ m, m < 10 → (UInt8.ofNat (m + 48)).toNat = m + 48 := by
      intro m hm; simp only [UInt8.toNat_ofNat']; omega
    by_cases h : n < 10
    · refine ⟨[UInt8.ofNat (n + 48)], ⟨by simp, ?_⟩, ?_, ?_⟩
      · intro b hb
        simp only [List.mem_cons, List.not_mem_nil, or_false] at hb
        rw [hb, hdig n h]; omega
      · have := Dec.snoc [] 0 (UInt8.ofNat (n + 48)) .nil
        rwa [hdig n h, show 10 * 0 + (n + 48 - 48) = n by omega] at this
      · by_cases h0 : n = 0
        · subst h0; exact .inl rfl
        · refine .inr ?_
          simp only [List.head?_cons, ne_eq, Option.some.injEq]
          intro e
          have := congrArg UInt8.toNat e
          rw [hdig n h] at this
          have h48 : (48 : UInt8).toNat = 48 := by decide
          omega
    · obtain ⟨d, h1, h2, h3⟩ := ih (n / 10) (by omega)
      have hm := hdig (n % 10) (by omega)
      refine ⟨d ++ [UInt8.ofNat (n % 10 + 48)], ⟨by simp, ?_⟩, ?_, ?_⟩
      · intro b hb
        rcases List.mem_append.1 hb with hb | hb
        · exact h1.2 b hb
        · simp only [List.mem_cons, List.not_mem_nil, or_false] at hb
          rw [hb, hm]; omega
      · have := Dec.snoc d _ (UInt8.ofNat (n % 10 + 48)) h2
        rwa [hm, show 10 * (n / 10) + (n % 10 + 48 - 48) = n by omega] at this
      · refine .inr ?_
        rcases h3 with rfl | h3
        · exfalso
          have := dec_val h2
          have e : digitsVal [48] = 0 := by decide
          omega
        · cases d with
          | nil => exact absurd rfl h1.1
          | cons b d => simpa using h3

theorem int_exists (i : Int) : ∃ t, IntText i t ∧ Num t := by
  obtain ⟨d, h1, h2, h3⟩ := digits_exist i.natAbs
  have ha : d = [48] ∨ (Digits d ∧ d.head? ≠ some 48) := h3.imp id fun h => ⟨h1, h⟩
  by_cases hi : 0 ≤ i
  · exact ⟨d, ⟨d, _, h1, h2, .inl ⟨rfl, by omega⟩⟩, by simpa using Num.mk [] d [] [] (.inl rfl) ha (.inl rfl) (.inl rfl)⟩
  · exact ⟨45 :: d, ⟨d, _, h1, h2, .inr ⟨rfl, by omega⟩⟩, by simpa using Num.mk [45] d [] [] (.inr rfl) ha (.inl rfl) (.inl rfl)⟩

theorem each_exists {α β : Type} {R : α → β → Prop} {V : α → Prop} (m : List β) (h : ∀ b ∈ m, ∃ a, V a ∧ R a b) : ∃ l, (∀ a ∈ l, V a) ∧ Each R l m := by
  induction m with
  | nil => exact ⟨[], by simp, .nil⟩
  | cons b m ih =>
    obtain ⟨a, hv, ha⟩ := h b (.head _)
    obtain ⟨l, hl, he⟩ := ih fun b hb => h b (.tail _ hb)
    exact ⟨a :: l, by simpa using ⟨hv, hl⟩, .cons _ _ _ _ ha he⟩

theorem validL_of {l : List J} (h : ∀ v ∈ l, Valid v) : ValidL l := by
  induction l with
  | nil => exact .nil
  | cons v l ih => exact .cons _ _ (h v (.head _)) (ih fun v hv => h v (.tail _ hv))

theorem word_exists (a : Word) (h : utf8Valid a.caption = true) : ∃ v, Valid v ∧ WordText v a := by
  obtain ⟨t, ht, hn⟩ := int_exists a.timestamp.toInt
  have n1 : ¬ IsName "timestamp" (utf8 "caption".toList) := fun h => time_caption h (ascii_name _)
  have n2 : ¬ IsName "caption" (utf8 "timestamp".toList) := fun h => time_caption (ascii_name _) h
  refine ⟨.obj [(utf8 "timestamp".toList, .num t), (utf8 "caption".toList, .str a.caption)],
    .obj _ (.cons _ _ _ (utf8_valid _) (.num _ hn) (.cons _ _ _ (utf8_valid _) (.str _ h) .nil)), .inr ⟨_, rfl, ?_⟩,
    .inr ⟨_, rfl, .inl ⟨[], _, _, rfl, ascii_name _, ⟨t, rfl, ht⟩, ?_⟩, .inl ⟨[_], _, [], rfl, ascii_name _, rfl, by simp⟩⟩⟩
  · intro m hm
    simp only [List.mem_cons, List.not_mem_nil, or_false] at hm
    rcases hm with rfl | rfl
    · exact ⟨fun _ => .inr ⟨t, _, rfl, ht, a.timestamp.le_toInt, a.timestamp.toInt_lt⟩, fun h => absurd h n2⟩
    · exact ⟨fun h => absurd h n1, fun _ => .inr ⟨_, rfl⟩⟩
  · intro y hy hx
    simp only [List.mem_cons, List.not_mem_nil, or_false] at hy
    subst hy
    exact absurd hx n1

/-- C116: all lyrics, of any number of lines, with any times and any captions in UTF-8, can be written. -/
theorem C116_every_lyrics (l : Lyrics) : (∃ t, lyricsFile t = some l) ↔ ∀ line ∈ l, ∀ w ∈ line, utf8Valid w.caption = true := by
  constructor
  · rintro ⟨t, h⟩; exact C116_utf8 t l h
  · intro h
    obtain ⟨vs, hv, he⟩ := each_exists (R := LineText) (V := Valid) l (by
      intro line hline
      obtain ⟨ws, hw, he⟩ := each_exists (R := WordText) (V := Valid) line fun w hw => word_exists w (h line hline w hw)
      exact ⟨.arr ws, .arr _ (validL_of hw), .inr ⟨ws, rfl, he⟩⟩)
    obtain ⟨t, ht⟩ := file_exists (.arr _ (validL_of hv))
    exact ⟨t, (C116_lyrics t l).2 ⟨_, ht, .inr ⟨vs, rfl, he⟩⟩⟩

/-! ## Examples -/

/-- what the file says of a user -/
def ask (t : Bytes) (user : Bytes) : Option (Option UserAuth) :=
  match readUsersFile (fun _ _ => none) [] (.ok t) [] with
  | .ok u => some (u user)
  | .error _ => none

/-- README.md:19-26, with a key in base64 and more users: `{   "username": {  "password": "a password",  "pubKey": "AAECAw=="  },  "x":{"PassWord":"\u0070\""},"y":{}, "x":{}   }  trailing` -/
def exUsers : Bytes := [123, 10, 32, 32, 34, 117, 115, 101, 114, 110, 97, 109, 101, 34, 58, 32, 123, 10, 32, 34, 112, 97, 115, 115, 119, 111, 114, 100, 34, 58, 32, 34, 97, 32, 112, 97, 115, 115, 119, 111, 114, 100, 34, 44, 10, 32, 34, 112, 117, 98, 75, 101, 121, 34, 58, 32, 34, 65, 65, 69, 67, 65, 119, 61, 61, 34, 10, 32, 125, 44, 10, 32, 34, 120, 34, 58, 123, 34, 80, 97, 115, 115, 87, 111, 114, 100, 34, 58, 34, 92, 117, 48, 48, 55, 48, 92, 34, 34, 125, 44, 34, 121, 34, 58, 123, 125, 44, 32, 34, 120, 34, 58, 123, 125, 32, 10, 32, 125, 10, 32, 116, 114, 97, 105, 108, 105, 110, 103]
example : ask exUsers [117, 115, 101, 114, 110, 97, 109, 101] = some (some ⟨[97, 32, 112, 97, 115, 115, 119, 111, 114, 100], [0, 1, 2, 3]⟩) := by decide +kernel
example : ask exUsers [120] = some (some ⟨[], []⟩) := by decide +kernel
example : ask exUsers [122] = some none := by decide +kernel
/-- `{"x":{"PassWord":"\u0070\"", "PubKEY":"AA\n=="}}`, where K is the Kelvin sign -/
example : ask [123, 34, 120, 34, 58, 123, 34, 80, 97, 115, 115, 87, 111, 114, 100, 34, 58, 34, 92, 117, 48, 48, 55, 48, 92, 34, 34, 44, 32, 34, 80, 117, 98, 226, 132, 170, 69, 89, 34, 58, 34, 65, 65, 92, 110, 61, 61, 34, 125, 125] [120] = some (some ⟨[112, 34], [0]⟩) := by decide +kernel
/-- The key in README.md:23 as it stands is not base64: such a file is refused. `{"u":{"pubKey":"a public key"}}` -/
example : ask [123, 34, 117, 34, 58, 123, 34, 112, 117, 98, 75, 101, 121, 34, 58, 34, 97, 32, 112, 117, 98, 108, 105, 99, 32, 107, 101, 121, 34, 125, 125] [117] = none := by decide +kernel
/-- a number for a password `{"u":{"password":5}}` -/
example : ask [123, 34, 117, 34, 58, 123, 34, 112, 97, 115, 115, 119, 111, 114, 100, 34, 58, 53, 125, 125] [117] = none := by decide +kernel
/-- a comma too many `{"u":{"password":"x"},}` -/
example : ask [123, 34, 117, 34, 58, 123, 34, 112, 97, 115, 115, 119, 111, 114, 100, 34, 58, 34, 120, 34, 125, 44, 125] [117] = none := by decide +kernel
/-- README.md:29-52, in short: `[ [ {"timestamp": 1234, "caption": "The "}, {"timestamp":5678,"caption":"end"}],[{"caption":"x","timestamp":-10112}] ]` -/
example : lyricsFile [91, 32, 91, 32, 123, 34, 116, 105, 109, 101, 115, 116, 97, 109, 112, 34, 58, 32, 49, 50, 51, 52, 44, 32, 34, 99, 97, 112, 116, 105, 111, 110, 34, 58, 32, 34, 84, 104, 101, 32, 34, 125, 44, 32, 123, 34, 116, 105, 109, 101, 115, 116, 97, 109, 112, 34, 58, 53, 54, 55, 56, 44, 34, 99, 97, 112, 116, 105, 111, 110, 34, 58, 34, 101, 110, 100, 34, 125, 93, 44, 91, 123, 34, 99, 97, 112, 116, 105, 111, 110, 34, 58, 34, 120, 34, 44, 34, 116, 105, 109, 101, 115, 116, 97, 109, 112, 34, 58, 45, 49, 48, 49, 49, 50, 125, 93, 32, 93] = some [[⟨1234, [84, 104, 101, 32]⟩, ⟨5678, [101, 110, 100]⟩], [⟨-10112, [120]⟩]] := by decide +kernel
/-- a fraction: no lyrics at all: `[[{"timestamp":1}],[{"timestamp":1.5}]]` -/
example : lyricsFile [91, 91, 123, 34, 116, 105, 109, 101, 115, 116, 97, 109, 112, 34, 58, 49, 125, 93, 44, 91, 123, 34, 116, 105, 109, 101, 115, 116, 97, 109, 112, 34, 58, 49, 46, 53, 125, 93, 93] = none := by decide +kernel
/-- too large: `[[{"timestamp":9223372036854775808}]]` -/
example : lyricsFile [91, 91, 123, 34, 116, 105, 109, 101, 115, 116, 97, 109, 112, 34, 58, 57, 50, 50, 51, 51, 55, 50, 48, 51, 54, 56, 53, 52, 55, 55, 53, 56, 48, 56, 125, 93, 93] = none := by decide +kernel
/-- the least: `[[{"timestamp":-9223372036854775808}]]` -/
example : lyricsFile [91, 91, 123, 34, 116, 105, 109, 101, 115, 116, 97, 109, 112, 34, 58, 45, 57, 50, 50, 51, 51, 55, 50, 48, 51, 54, 56, 53, 52, 55, 55, 53, 56, 48, 56, 125, 93, 93] = some [[⟨-9223372036854775808, []⟩]] := by decide +kernel
/-- an exponent: `[[{"timestamp":1e3}]]` -/
example : lyricsFile [91, 91, 123, 34, 116, 105, 109, 101, 115, 116, 97, 109, 112, 34, 58, 49, 101, 51, 125, 93, 93] = none := by decide +kernel
/-- a lone surrogate: `[[{"caption":"\ud800"}], null]` -/
example : lyricsFile [91, 91, 123, 34, 99, 97, 112, 116, 105, 111, 110, 34, 58, 34, 92, 117, 100, 56, 48, 48, 34, 125, 93, 44, 32, 110, 117, 108, 108, 93] = some [[⟨0, [0xEF, 0xBF, 0xBD]⟩], []] := by decide +kernel

open Classical in
/-- the hypothesis on keys given as arrays -/
example : ∃ ext : Bytes → List J → Option Bytes, ∀ cur l, (ext cur l).isSome = true ↔ ∀ x ∈ l, ByteText x :=
  ⟨fun _ l => if ∀ x ∈ l, ByteText x then some [] else none, by
    intro cur l
    by_cases h : ∀ x ∈ l, ByteText x
    · simp only [if_pos h, Option.isSome_some, true_iff]; exact h
    · simp only [if_neg h, Option.isSome_none, Bool.false_eq_true, false_iff]; exact h⟩

/-- the hypotheses of `C115_users` and `C115_login` -/
example : ∃ t, FileOf (.obj [(ascii "a", entry ⟨ascii "pw", [1, 2]⟩), (ascii "b", .obj [])]) t ∧
    ∀ m ∈ [(ascii "a", entry ⟨ascii "pw", [1, 2]⟩), (ascii "b", J.obj [])], ∃ a, UserText m.2 a := by
  have hv : Valid (.obj [(ascii "a", entry ⟨ascii "pw", [1, 2]⟩), (ascii "b", .obj [])]) :=
    .obj _ (.cons _ _ _ (by decide) (.obj _ (.cons _ _ _ (utf8_valid _) (.str _ (by decide)) (.cons _ _ _ (utf8_valid _) (.str _ (by decide +kernel)) .nil)))
      (.cons _ _ _ (by decide) (.obj _ .nil) .nil))
  obtain ⟨t, ht⟩ := file_exists hv
  refine ⟨t, ht, ?_⟩
  simp only [List.mem_cons, List.not_mem_nil, or_false, forall_eq_or_imp, forall_eq]
  exact ⟨⟨_, entry_text _⟩, ⟨⟨[], []⟩, .inr ⟨[], rfl, by simp⟩, .inr ⟨[], rfl, .inr ⟨by simp, rfl⟩, .inr ⟨by simp, rfl⟩⟩⟩⟩

/-- files that fit and files that do not -/
example : FitsUsers (.obj [(ascii "a", .null)]) ∧ ¬ FitsUsers (.arr []) ∧ ¬ FitsUsers (.obj [(ascii "a", .obj [(utf8 "password".toList, .bool true)])]) := by
  refine ⟨.inr ⟨_, rfl, by simp [FitsUser]⟩, by simp [FitsUsers], ?_⟩
  rintro (h | ⟨ms, h, hm⟩)
  · cases h
  · cases h
    rcases hm _ (.head _) with h | ⟨fs, h, hf⟩
    · cases h
    · cases h
      rcases (hf _ (.head _)).1 (ascii_name _) with h | ⟨s, h⟩ <;> cases h
/-- a lyrics file as the environment of an announcement has it -/
example (t : Bytes) (v : J) (l : Lyrics) (hf : FileOf v t) (h : LyricsText v l) :
    (received (newSong { file := fun p => if p = ascii "a.json" then some t else none, join := fun _ b => b, json := lyricsFile, tags := fun _ => none, audioDir := [] } 5 (ascii "a") 7)).lyrics = l :=
  (C116_announced _ rfl 5 (ascii "a") 7 t v l (by simp; decide) hf h).1

end MS.Json
