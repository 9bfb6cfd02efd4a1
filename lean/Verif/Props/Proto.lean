import Verif.Model.Proto
/-!
# Property C55: protocol messages encode losslessly
-/
namespace MS.Proto

theorem u8_toNat (n : Nat) (h : n < 256) : (UInt8.ofNat n).toNat = n := by
  simp [UInt8.toNat_ofNat']; omega

theorem decVarint_enc : ∀ (k n : Nat) (r : Bytes), n < 2 * 128 ^ k → decVarint (k + 1) (encVarint n ++ r) = some (n, r) := by
  intro k
  induction k with
  | zero =>
    intro n r h
    rw [encVarint, if_pos (by omega)]
    simp only [List.cons_append, List.nil_append, decVarint]
    rw [u8_toNat _ (by omega), if_pos (by omega), if_neg (by omega)]
  | succ k ih =>
    intro n r h
    rw [encVarint]
    split
    · rename_i hlt
      simp only [List.cons_append, List.nil_append, decVarint]
      rw [u8_toNat _ (by omega), if_pos hlt, if_neg (by omega)]
    · rename_i hlt
      simp only [List.cons_append]
      rw [decVarint, u8_toNat _ (by omega), if_neg (by omega), ih (n / 128) r (by
        rw [Nat.pow_succ] at h
        omega)]
      simp only
      congr 2
      omega

/-- Specification: the bytes of a varint, in groups of seven bits from the lowest, all but the last marked with the high bit. -/
inductive IsVarint : Bytes → Nat → Prop
  | last (b : UInt8) (h : b.toNat < 128) : IsVarint [b] b.toNat
  | more (b : UInt8) (bs : Bytes) (n : Nat) (h : 128 ≤ b.toNat) (hs : IsVarint bs n) : IsVarint (b :: bs) (b.toNat % 128 + 128 * n)

theorem decVarint_iff : ∀ (k : Nat) (bs : Bytes) (n : Nat) (r : Bytes), decVarint (k + 1) bs = some (n, r) ↔
    ∃ pre, IsVarint pre n ∧ bs = pre ++ r ∧ pre.length ≤ k + 1 ∧ n < 2 * 128 ^ k := by
  intro k
  induction k with
  | zero =>
    intro bs n r
    cases bs with
    | nil =>
      simp only [decVarint, reduceCtorEq, false_iff]
      rintro ⟨pre, hp, he, -, -⟩
      cases hp <;> simp at he
    | cons b bs =>
      simp only [decVarint]
      constructor
      · intro h
        split at h
        · split at h
          · simp at h
          · rename_i h1 h2
            simp at h
            obtain ⟨rfl, rfl⟩ := h
            exact ⟨[b], .last b h1, rfl, by simp, by simp at h2 ⊢; omega⟩
        · simp at h
      · rintro ⟨pre, hp, he, hl, hn⟩
        cases hp with
        | last b' h =>
          simp at he
          obtain ⟨rfl, rfl⟩ := he
          rw [if_pos h, if_neg (by simp at hn ⊢; omega)]
        | more b' bs' n' h hs => cases hs <;> simp at hl
  | succ k ih =>
    intro bs n r
    cases bs with
    | nil =>
      simp only [decVarint, reduceCtorEq, false_iff]
      rintro ⟨pre, hp, he, -, -⟩
      cases hp <;> simp at he
    | cons b bs =>
      have hpow : 128 ^ (k + 1) = 128 * 128 ^ k := by rw [Nat.pow_succ, Nat.mul_comm]
      have hpos : 0 < 128 ^ k := Nat.pow_pos (by omega)
      rw [decVarint]
      constructor
      · intro h
        split at h
        · rename_i h1
          rw [if_neg (by omega)] at h
          simp at h
          obtain ⟨rfl, rfl⟩ := h
          exact ⟨[b], .last b h1, rfl, by simp, by omega⟩
        · rename_i h1
          cases hd : decVarint (k + 1) bs with
          | none => rw [hd] at h; simp at h
          | some p =>
            obtain ⟨v, r'⟩ := p
            rw [hd] at h
            simp at h
            obtain ⟨rfl, rfl⟩ := h
            obtain ⟨pre, a1, a2, a3, a4⟩ := (ih bs v r').1 hd
            have hb := b.toNat_lt
            have e : b.toNat - 128 = b.toNat % 128 := by omega
            refine ⟨b :: pre, ?_, by rw [a2]; rfl, by simp; omega, by omega⟩
            rw [e]
            exact .more b pre v (by omega) a1
      · rintro ⟨pre, hp, he, hl, hn⟩
        cases hp with
        | last b' h =>
          simp at he
          obtain ⟨rfl, rfl⟩ := he
          rw [if_pos h, if_neg (by omega)]
        | more b' bs' n' h hs =>
          simp only [List.cons_append, List.cons.injEq] at he
          obtain ⟨rfl, rfl⟩ := he
          have hb := b.toNat_lt
          rw [if_neg (by omega), (ih (bs' ++ r) n' r).2 ⟨bs', hs, rfl, by simpa using hl, by omega⟩]
          simp; omega

/-- C55: of the bytes received a number is read exactly if they begin with its varint, of at most ten bytes, and it has at most 64
bits: numbers are never cut to 64 bits. -/
theorem C55_varint (bs : Bytes) (n : Nat) (r : Bytes) : decVarint 10 bs = some (n, r) ↔
    ∃ pre, IsVarint pre n ∧ bs = pre ++ r ∧ pre.length ≤ 10 ∧ n < 2 ^ 64 := by
  have : 2 * 128 ^ 9 = 2 ^ 64 := by decide
  rw [← this]
  exact decVarint_iff 9 bs n r

/-- Non-vacuity: the largest number; the same bytes with the next bit set are not a number; a number with superfluous bytes. -/
example : decVarint 10 [255, 255, 255, 255, 255, 255, 255, 255, 255, 1, 7] = some (2 ^ 64 - 1, [7]) ∧
    decVarint 10 [255, 255, 255, 255, 255, 255, 255, 255, 255, 2, 7] = none ∧ decVarint 10 [129, 128, 0, 9] = some (1, [9]) := by
  decide

theorem decVarint10 (n : Nat) (h : n < 2 ^ 64) (r : Bytes) : decVarint 10 (encVarint n ++ r) = some (n, r) :=
  decVarint_enc 9 n r (by have : 2 * 128 ^ 9 = 2 ^ 64 := by decide
                          omega)

theorem encVarint_pos (n : Nat) : 0 < (encVarint n).length := by
  rw [encVarint]; split <;> simp

theorem leBytes_length (k n : Nat) : (leBytes k n).length = k := by
  induction k generalizing n with
  | zero => rfl
  | succ k ih => simp [leBytes, ih]

theorem leNat_leBytes (k n : Nat) : leNat (leBytes k n) = n % 256 ^ k := by
  induction k generalizing n with
  | zero => simp [leBytes, leNat, Nat.mod_one]
  | succ k ih =>
    simp only [leBytes, leNat]
    rw [u8_toNat _ (by omega), ih, Nat.pow_succ, Nat.mul_comm (256 ^ k) 256, Nat.mod_mul]

theorem leNat_leBytes8 (x : UInt64) : UInt64.ofNat (leNat (leBytes 8 x.toNat)) = x := by
  rw [leNat_leBytes, Nat.mod_eq_of_lt (by have := x.toNat_lt; have : 256 ^ 8 = 2 ^ 64 := by decide
                                          omega)]
  exact UInt64.ofNat_toNat

theorem leNat_leBytes4 (x : UInt32) : UInt32.ofNat (leNat (leBytes 4 x.toNat)) = x := by
  rw [leNat_leBytes, Nat.mod_eq_of_lt (by have := x.toNat_lt; have : 256 ^ 4 = 2 ^ 32 := by decide
                                          omega)]
  exact UInt32.ofNat_toNat

/-- A length a Go slice can have. -/
def ValOk : Val → Prop
  | .len bs => bs.length < 2 ^ 64
  | _ => True

theorem decVal_enc (v : Val) (r : Bytes) (h : ValOk v) : decVal (wireType v) (encVal v ++ r) = some (v, r) := by
  cases v with
  | varint n => simp [wireType, encVal, decVal, decVarint10 n.toNat n.toNat_lt r]
  | i64 n =>
    have hl := leBytes_length 8 n.toNat
    show decVal 1 (leBytes 8 n.toNat ++ r) = _
    simp only [decVal]
    rw [if_neg (by simp [hl]), List.take_left' hl, List.drop_left' hl, leNat_leBytes8]
  | len bs =>
    simp only [wireType, encVal, decVal]
    rw [List.append_assoc, decVarint10 bs.length h]
    simp
  | i32 n =>
    have hl := leBytes_length 4 n.toNat
    show decVal 5 (leBytes 4 n.toNat ++ r) = _
    simp only [decVal]
    rw [if_neg (by simp [hl]), List.take_left' hl, List.drop_left' hl, leNat_leBytes4]

theorem wireType_lt (v : Val) : wireType v < 8 := by cases v <;> simp [wireType]

/-- A field that can occur in a message. -/
def FieldOk (f : Field) : Prop := 1 ≤ f.1 ∧ f.1 < 2 ^ 29 ∧ ValOk f.2

theorem decField_enc (f : Field) (r : Bytes) (h : FieldOk f) : decField (encField f ++ r) = some (f, r) := by
  obtain ⟨n, v⟩ := f
  obtain ⟨h1, h2, h3⟩ := h
  simp only at h1 h2 h3
  have hw := wireType_lt v
  simp only [decField, encField]
  rw [List.append_assoc, decVarint10 _ (by omega)]
  simp only
  rw [if_neg (by omega), show (n * 8 + wireType v) % 8 = wireType v by omega,
    show (n * 8 + wireType v) / 8 = n by omega, decVal_enc v r h3]

theorem encField_pos (f : Field) : encField f ≠ [] := by
  have := encVarint_pos (f.1 * 8 + wireType f.2)
  intro h
  have h2 := congrArg List.length h
  simp [encField] at h2
  rw [h2.1] at this
  simp at this

/-- C23: a field number outside 1 .. 2^29-1 is refused, whatever follows. -/
theorem C23_field_number_refused (n w : Nat) (hw : w < 8) (hn : n = 0 ∨ 2 ^ 29 ≤ n) (h64 : n * 8 + w < 2 ^ 64) (r : Bytes) :
    decField (encVarint (n * 8 + w) ++ r) = none := by
  simp only [decField]
  rw [decVarint10 _ h64]
  have : (n * 8 + w) / 8 = n := by omega
  simp only [this]
  rw [if_pos (by omega)]

/-- C23: and what is accepted has a field number in that range. -/
theorem C23_field_number_range (bs : Bytes) (f : Field) (r : Bytes) (h : decField bs = some (f, r)) :
    1 ≤ f.1 ∧ f.1 < 2 ^ 29 := by
  simp only [decField] at h
  split at h
  · simp at h
  · split at h
    · simp at h
    · split at h
      · simp at h; obtain ⟨⟨rfl, rfl⟩, rfl⟩ := h; omega
      · simp at h

theorem decFields_enc (fs : List Field) (h : ∀ f ∈ fs, FieldOk f) (b : Bytes) :
    decFields (encFields fs ++ b) = (decFields b).map (fs ++ ·) := by
  induction fs with
  | nil => simp [encFields]
  | cons f fs ih =>
    rw [decFields]
    have hne : encFields (f :: fs) ++ b ≠ [] := by
      simp [encFields, encField_pos f]
    rw [if_neg hne]
    have e : encFields (f :: fs) ++ b = encField f ++ (encFields fs ++ b) := by simp [encFields]
    have hd := decField_enc f (encFields fs ++ b) (h f (by simp))
    rw [← e] at hd
    split
    · rename_i hx; rw [hd] at hx; simp at hx
    · rename_i f' r hx
      rw [hd] at hx
      simp at hx
      obtain ⟨rfl, rfl⟩ := hx
      rw [ih (fun g hg => h g (by simp [hg]))]
      cases decFields b <;> simp

theorem decFields_encFields (fs : List Field) (h : ∀ f ∈ fs, FieldOk f) : decFields (encFields fs) = some fs := by
  have := decFields_enc fs h []
  rw [List.append_nil] at this
  rw [this, decFields]; simp

theorem encFields_mem_len {fs : List Field} {n : Nat} {bs : Bytes} (h : (n, Val.len bs) ∈ fs) :
    bs.length < (encFields fs).length := by
  induction fs with
  | nil => simp at h
  | cons f fs ih =>
    have e : (encFields (f :: fs)).length = (encField f).length + (encFields fs).length := by simp [encFields]
    rw [e]
    rcases List.mem_cons.1 h with rfl | h
    · have := encVarint_pos (n * 8 + wireType (Val.len bs))
      simp [encField, encVal]
      omega
    · have := ih h; omega

/-- A field list whose numbers are small and whose total size fits in memory can be split again. -/
theorem decFields_small (fs : List Field) (hn : ∀ f ∈ fs, 1 ≤ f.1 ∧ f.1 ≤ 5) (hl : (encFields fs).length < 2 ^ 64) :
    decFields (encFields fs) = some fs := by
  apply decFields_encFields
  intro f hf
  refine ⟨(hn f hf).1, by have := (hn f hf).2; omega, ?_⟩
  obtain ⟨n, v⟩ := f
  cases v with
  | len bs =>
    have := encFields_mem_len hf
    simp only [ValOk]; omega
  | _ => trivial

theorem applyAll_append {M : Type} (step : M → Field → Option M) (m : M) (a b : List Field) :
    applyAll step m (a ++ b) = (applyAll step m a).bind (fun m' => applyAll step m' b) := by
  induction a generalizing m with
  | nil => simp [applyAll]
  | cons f a ih =>
    simp only [List.cons_append, applyAll]
    cases step m f with
    | none => simp
    | some m' => simp [ih]

theorem mem_eU64 {n : Nat} {v : UInt64} {f : Field} (h : f ∈ eU64 n v) : f.1 = n := by
  simp only [eU64] at h; split at h <;> simp at h; rw [h]
theorem mem_eI64 {n : Nat} {v : Int64} {f : Field} (h : f ∈ eI64 n v) : f.1 = n := mem_eU64 h
theorem mem_eEnum {n : Nat} {v : Int32} {f : Field} (h : f ∈ eEnum n v) : f.1 = n := mem_eU64 h
theorem mem_eBool {n : Nat} {v : Bool} {f : Field} (h : f ∈ eBool n v) : f.1 = n := by
  simp only [eBool] at h; split at h <;> simp at h; rw [h]
theorem mem_eBytes {n : Nat} {v : Bytes} {f : Field} (h : f ∈ eBytes n v) : f.1 = n := by
  simp only [eBytes] at h; split at h <;> simp at h; rw [h]
theorem mem_eDouble {n : Nat} {v : UInt64} {f : Field} (h : f ∈ eDouble n v) : f.1 = n := by
  simp only [eDouble] at h; split at h <;> simp at h; rw [h]
theorem mem_ePacked {n : Nat} {v : List UInt64} {f : Field} (h : f ∈ ePacked n v) : f.1 = n := by
  simp only [ePacked] at h; split at h <;> simp at h; rw [h]

theorem fAtom_nums (m : Atom) : ∀ f ∈ fAtom m, 1 ≤ f.1 ∧ f.1 ≤ 5 := by
  intro f hf
  simp only [fAtom, List.mem_append] at hf
  rcases hf with h | h
  · rw [mem_eI64 h]; omega
  · rw [mem_eBytes h]; omega

theorem fLine_nums (m : Line) : ∀ f ∈ fLine m, 1 ≤ f.1 ∧ f.1 ≤ 5 := by
  intro f hf
  simp only [fLine, List.mem_map] at hf
  obtain ⟨a, _, rfl⟩ := hf
  simp

theorem fMetadata_nums (m : Metadata) : ∀ f ∈ fMetadata m, 1 ≤ f.1 ∧ f.1 ≤ 5 := by
  intro f hf
  simp only [fMetadata, List.mem_append] at hf
  rcases hf with (h | h) | h <;> rw [mem_eBytes h] <;> omega

theorem fields_nums (m : Msg) : ∀ f ∈ fields m, 1 ≤ f.1 ∧ f.1 ≤ 5 := by
  intro f hf
  cases m with
  | envelope m =>
    simp only [fields, List.mem_append] at hf
    rcases hf with h | h <;> rw [mem_eBytes h] <;> omega
  | timeSyncRequest m => simp only [fields] at hf; rw [mem_eI64 hf]; omega
  | timeSyncResponse m =>
    simp only [fields, List.mem_append] at hf
    rcases hf with (h | h) | h <;> rw [mem_eI64 h] <;> omega
  | queueChunkRequest m =>
    simp only [fields, List.mem_append] at hf
    rcases hf with (((h | h) | h) | h) | h
    · rw [mem_eI64 h]; omega
    · rw [mem_eI64 h]; omega
    · rw [mem_ePacked h]; omega
    · rw [mem_ePacked h]; omega
    · rw [mem_eU64 h]; omega
  | pingMessage => simp [fields] at hf
  | pongMessage => simp [fields] at hf
  | setVolumeRequest m => simp only [fields] at hf; rw [mem_eDouble hf]; omega
  | subscribeChannelRequest m => simp only [fields] at hf; rw [mem_eEnum hf]; omega
  | newSongInfo m =>
    simp only [fields, List.mem_append] at hf
    rcases hf with (((h | h) | h) | h) | h
    · rw [mem_eU64 h]; omega
    · rw [mem_eBytes h]; omega
    · rw [mem_eI64 h]; omega
    · simp only [List.mem_map] at h
      obtain ⟨_, _, rfl⟩ := h
      simp
    · split at h
      · simp at h
      · simp at h; rw [h]; simp
  | songLyricsAtom m => exact fAtom_nums m f hf
  | songLyricsLine m => exact fLine_nums m f hf
  | songMetadata m => exact fMetadata_nums m f hf
  | chunkInfo m =>
    simp only [fields, List.mem_append] at hf
    rcases hf with (h | h) | h
    · rw [mem_eI64 h]; omega
    · rw [mem_eU64 h]; omega
    · rw [mem_eU64 h]; omega
  | pauseInfo m =>
    simp only [fields, List.mem_append] at hf
    rcases hf with h | h
    · rw [mem_eBool h]; omega
    · rw [mem_eU64 h]; omega

theorem i64_zero {v : Int64} (h : v.toUInt64 = 0) : v = 0 := by
  have := congrArg UInt64.toInt64 h
  rw [Int64.toInt64_toUInt64] at this
  rw [this]; rfl

theorem enum_zero {v : Int32} (h : v.toInt64.toUInt64 = 0) : v = 0 := by
  have h1 := i64_zero h
  have := congrArg Int64.toInt32 h1
  rw [Int32.toInt32_toInt64] at this
  rw [this]; rfl

theorem unpack_pack (v : List UInt64) : unpack (v.flatMap (fun x => leBytes 8 x.toNat)) = some v := by
  induction v with
  | nil => rw [unpack]; simp
  | cons x v ih =>
    rw [unpack]
    have hl := leBytes_length 8 x.toNat
    simp only [List.flatMap_cons]
    rw [if_neg (by intro h; have := congrArg List.length h; simp [hl] at this),
      dif_neg (by simp [hl]), List.drop_left' hl, List.take_left' hl, ih, leNat_leBytes8]

theorem applyAll_fAtom (m : Atom) (h : utf8Valid m.caption) : applyAll sAtom {} (fAtom m) = some m := by
  obtain ⟨t, c⟩ := m
  simp only at h
  rw [fAtom, applyAll_append]
  by_cases h1 : t.toUInt64 = 0 <;> by_cases h2 : c = [] <;>
    simp [eI64, eU64, eBytes, h1, h2, applyAll, sAtom, h, Int64.toInt64_toUInt64]
  · exact (i64_zero h1).symm
  · exact (i64_zero h1).symm

theorem applyAll_fMetadata (m : Metadata) (h : validMetadata m) : applyAll sMetadata {} (fMetadata m) = some m := by
  obtain ⟨a, b, c⟩ := m
  simp only [validMetadata, Bool.and_eq_true] at h
  obtain ⟨⟨ha, hb⟩, hc⟩ := h
  rw [fMetadata, applyAll_append, applyAll_append]
  by_cases h1 : a = [] <;> by_cases h2 : b = [] <;> by_cases h3 : c = [] <;>
    simp [eBytes, h1, h2, h3, applyAll, sMetadata, ha, hb, hc]

theorem applyAll_atoms (as : List Atom) (pre : List Atom) (h : ∀ a ∈ as, utf8Valid a.caption)
    (hl : ∀ a ∈ as, (encFields (fAtom a)).length < 2 ^ 64) :
    applyAll sLine { atoms := pre } (as.map (fun a => (1, Val.len (encFields (fAtom a))))) =
      some { atoms := pre ++ as } := by
  induction as generalizing pre with
  | nil => simp [applyAll]
  | cons a as ih =>
    simp only [List.map_cons, applyAll, sLine, merge]
    rw [decFields_small _ (fAtom_nums a) (hl a (by simp))]
    simp only
    rw [applyAll_fAtom a (h a (by simp))]
    simp only
    rw [ih _ (fun b hb => h b (by simp [hb])) (fun b hb => hl b (by simp [hb]))]
    simp

theorem applyAll_fLine (m : Line) (h : m.atoms.all (fun a => utf8Valid a.caption))
    (hl : (encFields (fLine m)).length < 2 ^ 64) : applyAll sLine {} (fLine m) = some m := by
  obtain ⟨as⟩ := m
  have := applyAll_atoms as [] (by simpa using h) (by
    intro a ha
    have : (1, Val.len (encFields (fAtom a))) ∈ fLine ⟨as⟩ := by
      simp only [fLine, List.mem_map]; exact ⟨a, ha, rfl⟩
    have := encFields_mem_len this
    omega)
  simpa [fLine] using this

theorem applyAll_lines (ls : List Line) (m : NewSongInfo)
    (h : ∀ l ∈ ls, l.atoms.all (fun a => utf8Valid a.caption) = true)
    (hl : ∀ l ∈ ls, (encFields (fLine l)).length < 2 ^ 64) :
    applyAll sNewSongInfo m (ls.map (fun l => (4, Val.len (encFields (fLine l))))) =
      some { m with lyrics := m.lyrics ++ ls } := by
  induction ls generalizing m with
  | nil => simp [applyAll]
  | cons l ls ih =>
    simp only [List.map_cons, applyAll, sNewSongInfo, merge]
    rw [decFields_small _ (fLine_nums l) (hl l (by simp))]
    simp only
    rw [applyAll_fLine l (h l (by simp)) (hl l (by simp))]
    simp only
    rw [ih _ (fun b hb => h b (by simp [hb])) (fun b hb => hl b (by simp [hb]))]
    simp

theorem interpret_fields (m : Msg) (h : validStrings m) (hl : (encFields (fields m)).length < 2 ^ 64) :
    interpret m.mtype (fields m) = some m := by
  cases m with
  | envelope m =>
    obtain ⟨a, b⟩ := m
    simp only [validStrings] at h
    simp only [Msg.mtype, interpret, fields]
    rw [applyAll_append]
    by_cases h1 : a = [] <;> by_cases h2 : b = [] <;> simp [eBytes, h1, h2, applyAll, sEnvelope, h]
  | timeSyncRequest m =>
    obtain ⟨a⟩ := m
    simp only [Msg.mtype, interpret, fields]
    by_cases h1 : a.toUInt64 = 0 <;> simp [eI64, eU64, h1, applyAll, sTimeSyncRequest, Int64.toInt64_toUInt64]
    exact (i64_zero h1).symm
  | timeSyncResponse m =>
    obtain ⟨a, b, c⟩ := m
    simp only [Msg.mtype, interpret, fields]
    rw [applyAll_append, applyAll_append]
    have h1 := @i64_zero a
    have h2 := @i64_zero b
    have h3 := @i64_zero c
    by_cases g1 : a.toUInt64 = 0 <;> by_cases g2 : b.toUInt64 = 0 <;> by_cases g3 : c.toUInt64 = 0 <;>
      simp [eI64, eU64, g1, g2, g3, applyAll, sTimeSyncResponse, Int64.toInt64_toUInt64] <;> simp_all
  | queueChunkRequest m =>
    obtain ⟨a, b, l, hh, i⟩ := m
    simp only [Msg.mtype, interpret, fields]
    rw [applyAll_append, applyAll_append, applyAll_append, applyAll_append]
    have h1 := @i64_zero a
    have h2 := @i64_zero b
    have s1 : applyAll sQueueChunkRequest {} (eI64 1 a) = some { startTime := a } := by
      by_cases g : a.toUInt64 = 0 <;> simp [eI64, eU64, g, applyAll, sQueueChunkRequest, Int64.toInt64_toUInt64]
      exact (i64_zero g).symm
    have s2 : applyAll sQueueChunkRequest { startTime := a } (eI64 2 b) = some { startTime := a, chunkId := b } := by
      by_cases g : b.toUInt64 = 0 <;> simp [eI64, eU64, g, applyAll, sQueueChunkRequest, Int64.toInt64_toUInt64]
      exact (i64_zero g).symm
    have s3 : applyAll sQueueChunkRequest { startTime := a, chunkId := b } (ePacked 3 l) =
        some { startTime := a, chunkId := b, sampleLow := l } := by
      by_cases g : l = [] <;> simp [ePacked, g, applyAll, sQueueChunkRequest, unpack_pack]
    have s4 : applyAll sQueueChunkRequest { startTime := a, chunkId := b, sampleLow := l } (ePacked 4 hh) =
        some { startTime := a, chunkId := b, sampleLow := l, sampleHigh := hh } := by
      by_cases g : hh = [] <;> simp [ePacked, g, applyAll, sQueueChunkRequest, unpack_pack]
    have s5 : applyAll sQueueChunkRequest { startTime := a, chunkId := b, sampleLow := l, sampleHigh := hh } (eU64 5 i) =
        some { startTime := a, chunkId := b, sampleLow := l, sampleHigh := hh, firstSampleIndex := i } := by
      by_cases g : i = 0 <;> simp [eU64, g, applyAll, sQueueChunkRequest]
    simp [s1, s2, s3, s4, s5]
  | pingMessage => rfl
  | pongMessage => rfl
  | setVolumeRequest m =>
    obtain ⟨a⟩ := m
    simp only [Msg.mtype, interpret, fields]
    by_cases h1 : a = 0 <;> simp [eDouble, h1, applyAll, sSetVolumeRequest]
  | subscribeChannelRequest m =>
    obtain ⟨a⟩ := m
    simp only [Msg.mtype, interpret, fields]
    by_cases h1 : a.toInt64.toUInt64 = 0 <;>
      simp [eEnum, eI64, eU64, h1, applyAll, sSubscribeChannelRequest, Int64.toInt64_toUInt64, Int32.toInt32_toInt64]
    exact (enum_zero h1).symm
  | newSongInfo m =>
    obtain ⟨a, f, n, ls, md⟩ := m
    simp only [validStrings, Bool.and_eq_true] at h
    obtain ⟨⟨hf, hls⟩, hmd⟩ := h
    simp only [Msg.mtype, interpret]
    have hmem : ∀ l ∈ ls, (encFields (fLine l)).length < 2 ^ 64 := by
      intro l hl'
      have : (4, Val.len (encFields (fLine l))) ∈ fields (.newSongInfo ⟨a, f, n, ls, md⟩) := by
        simp only [fields, List.mem_append, List.mem_map]
        exact .inl (.inr ⟨l, hl', rfl⟩)
      have := encFields_mem_len this
      omega
    have s1 : applyAll sNewSongInfo {} (eU64 1 a) = some { firstSampleOfSongIndex := a } := by
      by_cases g : a = 0 <;> simp [eU64, g, applyAll, sNewSongInfo]
    have s2 : applyAll sNewSongInfo { firstSampleOfSongIndex := a } (eBytes 2 f) =
        some { firstSampleOfSongIndex := a, songFileName := f } := by
      by_cases g : f = [] <;> simp [eBytes, g, applyAll, sNewSongInfo, hf]
    have s3 : applyAll sNewSongInfo { firstSampleOfSongIndex := a, songFileName := f } (eI64 3 n) =
        some { firstSampleOfSongIndex := a, songFileName := f, songLength := n } := by
      by_cases g : n.toUInt64 = 0 <;> simp [eI64, eU64, g, applyAll, sNewSongInfo, Int64.toInt64_toUInt64]
      exact (i64_zero g).symm
    have s4 := applyAll_lines ls { firstSampleOfSongIndex := a, songFileName := f, songLength := n }
      (by simpa using hls) hmem
    simp only [List.nil_append] at s4
    cases md with
    | none =>
      simp only [fields]
      rw [applyAll_append, applyAll_append, applyAll_append, applyAll_append]
      simp [s1, s2, s3, s4, applyAll]
    | some md =>
      have hml : (encFields (fMetadata md)).length < 2 ^ 64 := by
        have : (5, Val.len (encFields (fMetadata md))) ∈ fields (.newSongInfo ⟨a, f, n, ls, some md⟩) := by
          simp [fields]
        have := encFields_mem_len this
        omega
      simp only [fields]
      rw [applyAll_append, applyAll_append, applyAll_append, applyAll_append]
      have s5 : merge sMetadata {} (encFields (fMetadata md)) = some md := by
        simp only [merge]
        rw [decFields_small _ (fMetadata_nums md) hml]
        exact applyAll_fMetadata md hmd
      simp [s1, s2, s3, s4, applyAll, sNewSongInfo, s5]
  | songLyricsAtom m =>
    simp only [Msg.mtype, interpret, fields]
    rw [applyAll_fAtom m h]; rfl
  | songLyricsLine m =>
    simp only [Msg.mtype, interpret, fields]
    rw [applyAll_fLine m h hl]; rfl
  | songMetadata m =>
    simp only [Msg.mtype, interpret, fields]
    rw [applyAll_fMetadata m h]; rfl
  | chunkInfo m =>
    obtain ⟨a, b, c⟩ := m
    simp only [Msg.mtype, interpret, fields]
    rw [applyAll_append, applyAll_append]
    have h1 := @i64_zero a
    by_cases g1 : a.toUInt64 = 0 <;> by_cases g2 : b = 0 <;> by_cases g3 : c = 0 <;>
      simp [eI64, eU64, g1, g2, g3, applyAll, sChunkInfo, Int64.toInt64_toUInt64] <;> simp_all
  | pauseInfo m =>
    obtain ⟨a, b⟩ := m
    simp only [Msg.mtype, interpret, fields]
    rw [applyAll_append]
    cases a <;> by_cases g2 : b = 0 <;> simp [eBool, eU64, g2, applyAll, sPauseInfo]

/-- C55. Every message that encodes (to something that fits in memory) decodes to the equal message. -/
theorem C55_round_trip (m : Msg) (bs : Bytes) (h : marshal m = some bs) (hl : bs.length < 2 ^ 64) :
    unmarshal m.mtype bs = some m := by
  simp only [marshal] at h
  split at h
  · rename_i hv
    simp at h
    subst h
    simp only [unmarshal]
    rw [decFields_small _ (fields_nums m) hl]
    exact interpret_fields m hv hl
  · simp at h

/-- C55. Exactly the messages whose strings are valid UTF-8 encode; for the others the sender gets an error. -/
theorem C55_encodes_iff (m : Msg) : (marshal m).isSome ↔ validStrings m = true := by
  simp only [marshal]; split <;> simp_all

/-- C55: which song announcements can be encoded: the name, all captions and, if there is metadata, its texts must be
valid UTF-8; nothing else matters. -/
theorem C55_song_strings (m : NewSongInfo) : (marshal (.newSongInfo m)).isSome ↔
    utf8Valid m.songFileName = true ∧ (∀ l ∈ m.lyrics, ∀ a ∈ l.atoms, utf8Valid a.caption = true) ∧
    ∀ md, m.metadata = some md → utf8Valid md.title = true ∧ utf8Valid md.artist = true ∧ utf8Valid md.album = true := by
  rw [C55_encodes_iff]
  cases h : m.metadata with
  | none => simp [validStrings, h, List.all_eq_true]
  | some md => simp [validStrings, h, List.all_eq_true, validMetadata, and_assoc]

/-- Specification: the field numbers a message type knows. -/
def knownNumbers : MType → List Nat
  | .envelope => [1, 2]
  | .timeSyncRequest => [1]
  | .timeSyncResponse => [1, 2, 3]
  | .queueChunkRequest => [1, 2, 3, 4, 5]
  | .pingMessage => []
  | .pongMessage => []
  | .setVolumeRequest => [1]
  | .subscribeChannelRequest => [1]
  | .newSongInfo => [1, 2, 3, 4, 5]
  | .songLyricsAtom => [1, 2]
  | .songLyricsLine => [1]
  | .songMetadata => [1, 2, 3]
  | .chunkInfo => [1, 2, 3]
  | .pauseInfo => [1, 2]

theorem applyAll_unknown {M : Type} {step : M → Field → Option M} {u : Field} (h : ∀ m, step m u = some m)
    (m : M) (a b : List Field) : applyAll step m (a ++ u :: b) = applyAll step m (a ++ b) := by
  rw [applyAll_append, applyAll_append]
  congr 1
  funext m'
  simp [applyAll, h m']

theorem interpret_unknown (t : MType) (u : Field) (h : u.1 ∉ knownNumbers t) (a b : List Field) :
    interpret t (a ++ u :: b) = interpret t (a ++ b) := by
  obtain ⟨n, v⟩ := u
  cases t <;> simp only [interpret] <;> simp only [knownNumbers] at h <;> first
    | rfl
    | (rw [applyAll_unknown]
       intro m
       simp at h
       first
       | (simp only [sEnvelope]; split <;> simp_all)
       | (simp only [sTimeSyncRequest]; split <;> simp_all)
       | (simp only [sTimeSyncResponse]; split <;> simp_all)
       | (simp only [sQueueChunkRequest]; split <;> simp_all)
       | (simp only [sSetVolumeRequest]; split <;> simp_all)
       | (simp only [sSubscribeChannelRequest]; split <;> simp_all)
       | (simp only [sNewSongInfo]; split <;> simp_all)
       | (simp only [sAtom]; split <;> simp_all)
       | (simp only [sLine]; split <;> simp_all)
       | (simp only [sMetadata]; split <;> simp_all)
       | (simp only [sChunkInfo]; split <;> simp_all)
       | (simp only [sPauseInfo]; split <;> simp_all))

/-- C55. Unknown fields change nothing: a field with a number the type does not know (e.g. from a newer version),
inserted between any two fields of any encoding, leaves the result of decoding the same. -/
theorem C55_unknown_fields_ignored (t : MType) (before : List Field) (hb : ∀ f ∈ before, FieldOk f) (u : Field)
    (hu : FieldOk u) (hn : u.1 ∉ knownNumbers t) (after : Bytes) :
    unmarshal t (encFields before ++ encField u ++ after) = unmarshal t (encFields before ++ after) := by
  simp only [unmarshal]
  rw [List.append_assoc, decFields_enc before hb, decFields_enc before hb]
  have : encField u = encFields [u] := by simp [encFields]
  rw [this, decFields_enc [u] (by simpa using hu)]
  cases decFields after with
  | none => rfl
  | some fs => simpa using interpret_unknown t u hn before fs

/-- Type names are pairwise different and valid: `proto.MessageType` inverts `proto.MessageName`. -/
theorem messageType_typeName (t : MType) : messageType (typeName t) = some t := by
  cases t <;> simp [messageType, allTypes, typeName, ascii]

theorem typeName_valid (t : MType) : utf8Valid (typeName t) = true := by
  cases t <;> simp [typeName, ascii, utf8Valid]

/-- Non-vacuity: a song announcement with lyrics, a non-ASCII name and negative numbers. -/
def exampleSong : NewSongInfo :=
  { firstSampleOfSongIndex := 300, songFileName := [0x61, 0xC3, 0xA9], songLength := -1,
    lyrics := [⟨[⟨-5, ascii "la"⟩, ⟨0, []⟩]⟩, ⟨[]⟩], metadata := some { title := ascii "T" } }

example : (marshal (.newSongInfo exampleSong)).isSome := by
  rw [C55_encodes_iff]
  simp [validStrings, validMetadata, exampleSong, ascii, utf8Valid]

example : marshal (.pauseInfo { playing := true, toggleSampleIndex := 300 }) = some [8, 1, 16, 0xAC, 2] := by
  simp [marshal, validStrings, fields, eBool, eU64, encFields, encField, encVal, encVarint, wireType]

example : FieldOk (9, .i32 7) ∧ (9 : Nat) ∉ knownNumbers .pauseInfo := by
  refine ⟨⟨by decide, by decide, trivial⟩, by decide⟩

end MS.Proto
