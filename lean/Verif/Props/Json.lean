import Verif.Props.JsonText
import Verif.Props.Auth
import Verif.Props.SongInfo
/-!
# Properties C115 and C116: the users file and the lyrics files
-/
set_option linter.unusedSimpArgs false
set_option linter.unusedVariables false
namespace MS.Json
open MS.Proto MS.SongInfo
open MS.Auth (UserAuth Users readUsers)

/-! ## Specification: names -/

/-- Letters without their case; the long s and the Kelvin sign count as s and k. -/
def foldChar (c : Char) : Char :=
  if 'A'.toNat ≤ c.toNat ∧ c.toNat ≤ 'Z'.toNat then Char.ofNat (c.toNat + 32)
  else if c = 'ſ' then 's' else if c = '\u212a' then 'k' else c

/-- `k` is the name `n` up to case. -/
def IsName (n : String) (k : Bytes) : Prop := ∃ cs, k = utf8 cs ∧ cs.map foldChar = n.toList.map foldChar

theorem enc_inj {c d : Char} {r r' : Bytes} (h : String.utf8EncodeChar c ++ r = String.utf8EncodeChar d ++ r') : c = d ∧ r = r' := by
  have h1 := ByteArray.utf8DecodeChar?_utf8EncodeChar_append (b := r.toByteArray) (c := c)
  have h2 := ByteArray.utf8DecodeChar?_utf8EncodeChar_append (b := r'.toByteArray) (c := d)
  rw [← List.toByteArray_append] at h1 h2
  rw [h, h2] at h1
  injection h1 with h1
  subst h1
  exact ⟨rfl, List.append_cancel_left h⟩

/-- A letter of a field's name. -/
def Letter (c : Char) : Prop := ('a'.toNat ≤ c.toNat ∧ c.toNat ≤ 'z'.toNat) ∨ ('A'.toNat ≤ c.toNat ∧ c.toNat ≤ 'Z'.toNat)

theorem lower_ascii {c : Char} (h : c.toNat < 128) : lower (UInt8.ofNat c.toNat) = UInt8.ofNat (foldChar c).toNat ∧ (foldChar c).toNat < 128 := by
  have hn : (UInt8.ofNat c.toNat).toNat = c.toNat := by simp only [UInt8.toNat_ofNat']; omega
  have e1 : c ≠ 'ſ' := by rintro rfl; exact absurd h (by decide)
  have e2 : c ≠ '\u212a' := by rintro rfl; exact absurd h (by decide)
  have hA : 'A'.toNat = 65 := by decide
  have hZ : 'Z'.toNat = 90 := by decide
  unfold lower foldChar
  rw [hn, hA, hZ]
  by_cases hc : 65 ≤ c.toNat ∧ c.toNat ≤ 90
  · rw [if_pos hc, if_pos hc]
    have hv : (Char.ofNat (c.toNat + 32)).toNat = c.toNat + 32 := by
      have hv : (c.toNat + 32).isValidChar := .inl (by omega)
      unfold Char.ofNat
      rw [dif_pos hv]
      rfl
    rw [hv]
    refine ⟨?_, by omega⟩
    apply UInt8.toNat_inj.1
    rw [UInt8.toNat_add]
    simp only [UInt8.toNat_ofNat', hn]
    rfl
  · rw [if_neg hc, if_neg hc, if_neg e1, if_neg e2]
    exact ⟨rfl, h⟩

theorem ascii_inj {a b : Nat} (ha : a < 128) (hb : b < 128) (h : UInt8.ofNat a = UInt8.ofNat b) : a = b := by
  have := congrArg UInt8.toNat h
  simp only [UInt8.toNat_ofNat'] at this
  omega

theorem utf8_nil {cs : List Char} : utf8 cs = [] ↔ cs = [] := by
  constructor
  · intro h
    cases cs with
    | nil => rfl
    | cons c cs =>
      have : String.utf8EncodeChar c ++ utf8 cs = [] := h
      rcases char_bytes c with ⟨_, e⟩ | ⟨b, b1, e, _⟩ | ⟨b, b1, b2, e, _⟩ | ⟨b, b1, b2, b3, e, _⟩ <;> (rw [e] at this; cases this)
  · rintro rfl; rfl

theorem lower_high {b : UInt8} (hb : 128 ≤ b.toNat) : lower b = b := by
  unfold lower
  rw [if_neg (by omega)]

/-- The library's comparison of names. -/
theorem fold_chars (ns : List Char) (hn : ∀ c ∈ ns, Letter c) (cs : List Char) :
    foldEq (ns.map fun c => UInt8.ofNat c.toNat) (utf8 cs) = true ↔ cs.map foldChar = ns.map foldChar := by
  induction ns generalizing cs with
  | nil =>
    cases hu : utf8 cs with
    | nil => rw [utf8_nil.1 hu]; simp [foldEq]
    | cons b t =>
      have : cs ≠ [] := by rintro rfl; cases hu
      simp [foldEq, this]
  | cons n ns ih =>
    have ih := ih (fun c hc => hn c (List.mem_cons_of_mem _ hc))
    have hl := hn n (.head _)
    have hn128 : n.toNat < 128 := by
      have ha : 'a'.toNat = 97 := by decide
      have hz : 'z'.toNat = 122 := by decide
      have hA : 'A'.toNat = 65 := by decide
      have hZ : 'Z'.toNat = 90 := by decide
      rcases hl with h | h <;> omega
    obtain ⟨ln, fn⟩ := lower_ascii hn128
    cases cs with
    | nil => simp [utf8, foldEq]
    | cons c cs =>
      have hu : utf8 (c :: cs) = String.utf8EncodeChar c ++ utf8 cs := rfl
      simp only [List.map_cons, List.cons.injEq]
      by_cases hc : c.toNat < 128
      · obtain ⟨lc, fc⟩ := lower_ascii hc
        have e : String.utf8EncodeChar c = [UInt8.ofNat c.toNat] := by
          rcases char_bytes c with ⟨_, e⟩ | ⟨b, b1, e, g, _⟩ | ⟨b, b1, b2, e, g, _⟩ | ⟨b, b1, b2, b3, e, g, _⟩
          · exact e
          all_goals
            exfalso
            rw [show c = Char.ofNat c.toNat from (Char.ofNat_toNat c).symm] at e
            have hs := String.utf8EncodeChar_eq_singleton (c := c) (by
              rw [Char.utf8Size_eq_one_iff]
              exact UInt32.le_iff_toNat_le.2 (by show c.toNat ≤ 127; omega))
            rw [Char.ofNat_toNat] at e
            rw [hs] at e
            cases e
        rw [hu, e]
        simp only [List.cons_append, List.nil_append, foldEq]
        rw [ln, lc]
        by_cases he : foldChar c = foldChar n
        · rw [he, if_pos rfl, ih]; simp
        · have hne : UInt8.ofNat (foldChar c).toNat ≠ UInt8.ofNat (foldChar n).toNat :=
            fun h => he (Char.toNat_inj.1 (ascii_inj fc fn h))
          have hk : ∀ k : UInt8, 128 ≤ k.toNat → UInt8.ofNat c.toNat ≠ k := by
            rintro k hk rfl
            simp only [UInt8.toNat_ofNat'] at hk
            omega
          rw [if_neg hne, if_neg (fun h => hk _ (by decide) h.2.1), if_neg (fun h => hk _ (by decide) h.2.1)]
          simp [he]
      · obtain ⟨b, more, e, hb⟩ : ∃ b more, String.utf8EncodeChar c = b :: more ∧ 128 ≤ b.toNat := by
          rcases char_bytes c with ⟨h, _⟩ | ⟨b, b1, e, g, _⟩ | ⟨b, b1, b2, e, g, _⟩ | ⟨b, b1, b2, b3, e, g, _⟩
          · exact absurd h hc
          · exact ⟨b, _, e, g⟩
          · exact ⟨b, _, e, g⟩
          · exact ⟨b, _, e, g⟩
        have hne : ¬ lower b = lower (UInt8.ofNat n.toNat) := by
          rw [lower_high hb, ln]
          rintro rfl
          simp only [UInt8.toNat_ofNat'] at hb
          omega
        have es : String.utf8EncodeChar 'ſ' = [0xC5, 0xBF] := by decide
        have ek : String.utf8EncodeChar '\u212a' = [0xE2, 0x84, 0xAA] := by decide
        by_cases h1 : c = 'ſ'
        · subst h1
          rw [hu, es]
          simp only [List.cons_append, List.nil_append, foldEq]
          have h1 : ¬ lower 0xC5 = lower (UInt8.ofNat n.toNat) := by
            rw [es] at e
            simp only [List.cons.injEq] at e
            rw [e.1]; exact hne
          have h3 : ¬ ((0xC5 : UInt8) = 0xE2) := by decide
          have fs : foldChar 'ſ' = 's' := by decide
          rw [if_neg h1, fs]
          by_cases hs : foldChar n = 's'
          · have : lower (UInt8.ofNat n.toNat) = 115 := by rw [ln, hs]; rfl
            simp [this, hs, ih]
          · have : lower (UInt8.ofNat n.toNat) ≠ 115 := by
              rw [ln]
              intro h
              apply hs
              apply Char.toNat_inj.1
              exact ascii_inj fn (by decide) (h.trans (by decide))
            have hs' : ¬ 's' = foldChar n := fun h => hs h.symm
            simp [this, hs']
        · by_cases h2 : c = '\u212a'
          · subst h2
            rw [hu, ek]
            simp only [List.cons_append, List.nil_append, foldEq]
            have h1 : ¬ lower 0xE2 = lower (UInt8.ofNat n.toNat) := by
              rw [ek] at e
              simp only [List.cons.injEq] at e
              rw [e.1]; exact hne
            have fs : foldChar '\u212a' = 'k' := by decide
            rw [if_neg h1, fs]
            by_cases hs : foldChar n = 'k'
            · have : lower (UInt8.ofNat n.toNat) = 107 := by rw [ln, hs]; rfl
              simp [this, hs, ih]
            · have : lower (UInt8.ofNat n.toNat) ≠ 107 := by
                rw [ln]
                intro h
                apply hs
                apply Char.toNat_inj.1
                exact ascii_inj fn (by decide) (h.trans (by decide))
              have hs' : ¬ 'k' = foldChar n := fun h => hs h.symm
              simp [this, hs']
          · have fc : foldChar c = c := by
              unfold foldChar
              have hA : 'A'.toNat = 65 := by decide
              have hZ : 'Z'.toNat = 90 := by decide
              rw [if_neg (by omega), if_neg h1, if_neg h2]
            have hd : ¬ (foldChar c = foldChar n) := by
              rw [fc]
              intro h
              rw [h] at hc
              exact hc fn
            have n1 : ¬ (b = 0xC5 ∧ (more ++ utf8 cs).take 1 = [0xBF]) := by
              rintro ⟨rfl, ht⟩
              apply h1
              have : String.utf8EncodeChar c ++ utf8 cs = String.utf8EncodeChar 'ſ' ++ (more ++ utf8 cs).drop 1 := by
                rw [e, es]
                have := List.take_append_drop 1 (more ++ utf8 cs)
                rw [ht] at this
                simp only [List.cons_append, List.nil_append] at this ⊢
                rw [this]
              exact (enc_inj this).1
            have n2 : ¬ (b = 0xE2 ∧ (more ++ utf8 cs).take 2 = [0x84, 0xAA]) := by
              rintro ⟨rfl, ht⟩
              apply h2
              have : String.utf8EncodeChar c ++ utf8 cs = String.utf8EncodeChar '\u212a' ++ (more ++ utf8 cs).drop 2 := by
                rw [e, ek]
                have := List.take_append_drop 2 (more ++ utf8 cs)
                rw [ht] at this
                simp only [List.cons_append, List.nil_append] at this ⊢
                rw [this]
              exact (enc_inj this).1
            rw [hu, e]
            simp only [List.cons_append, foldEq]
            rw [if_neg hne, if_neg (fun h => n1 h.2), if_neg (fun h => n2 h.2)]
            simp [hd]

theorem enc_all_inj {cs ds : List Char} (h : utf8 cs = utf8 ds) : cs = ds := by
  induction cs generalizing ds with
  | nil => exact (utf8_nil.1 h.symm).symm
  | cons c cs ih =>
    cases ds with
    | nil => exact utf8_nil.1 h
    | cons d ds =>
      obtain ⟨e1, e2⟩ := enc_inj (c := c) (d := d) (r := utf8 cs) (r' := utf8 ds) h
      rw [e1, ih e2]

theorem fold_name {n : String} {b : Bytes} (hb : b = ascii n) (hn : ∀ c ∈ n.toList, Letter c) {k : Bytes} (hk : utf8Valid k = true) :
    foldEq b k = true ↔ IsName n k := by
  obtain ⟨cs, rfl⟩ := (C23_utf8 _).1 hk
  rw [hb]
  refine (fold_chars n.toList hn cs).trans ⟨fun h => ⟨cs, rfl, h⟩, ?_⟩
  rintro ⟨ds, e, h⟩
  rw [enc_all_inj (cs := cs) (ds := ds) e]
  exact h

end MS.Json
