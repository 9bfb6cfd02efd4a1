import Verif.Model.Display
import Verif.Lemmas.Fmt
/-!
# Properties C45, C47: lyrics and durations on the display
-/
namespace MS.Display

/-! ## C45 -/

/-- Specification: `n` is the number of lines before the next upcoming one: the first that has words and whose first word
comes after `ms`, or the end of the lyrics. -/
structure Upcoming (lyrics : List Line) (ms : Int) (n : Nat) : Prop where
  le : n ≤ lyrics.length
  before : ∀ (j : Nat) l a as, j < n → lyrics[j]? = some l → l = a :: as → a.timestamp ≤ ms
  at_n : n < lyrics.length → ∃ a as, lyrics[n]? = some (a :: as) ∧ ms < a.timestamp

/-- Specification: the text of a line at `ms`: the words that come before `ms + 100`. -/
def textAt (l : Line) (ms : Int) : List Char := (l.filter fun a => a.timestamp < ms + 100).flatMap Atom.caption

theorem nextLine_upcoming (lyrics : List Line) (ms : Int) : Upcoming lyrics ms (nextLine ms lyrics) := by
  induction lyrics with
  | nil => exact ⟨by simp [nextLine], by simp [nextLine], by simp⟩
  | cons l ls ih =>
    have step : (∀ a as, l = a :: as → a.timestamp ≤ ms) → nextLine ms (l :: ls) = nextLine ms ls + 1 →
        Upcoming (l :: ls) ms (nextLine ms (l :: ls)) := by
      intro h e
      rw [e]
      refine ⟨by simpa using ih.le, ?_, ?_⟩
      · intro j m a as hj hm he
        cases j with
        | zero => simp at hm; exact h a as (hm.trans he)
        | succ j => exact ih.before j m a as (by omega) (by simpa using hm) he
      · intro hn
        obtain ⟨a, as, h1, h2⟩ := ih.at_n (by simpa using hn)
        exact ⟨a, as, by simpa using h1, h2⟩
    cases l with
    | nil => exact step (by simp) rfl
    | cons a as =>
      by_cases h : ms < a.timestamp
      · have e : nextLine ms ((a :: as) :: ls) = 0 := by simp [nextLine, h]
        rw [e]
        exact ⟨by omega, fun j _ _ _ hj => by omega, fun _ => ⟨a, as, rfl, h⟩⟩
      · refine step ?_ (by simp [nextLine, h])
        intro b bs e
        injection e with e _
        subst e; omega

theorem upcoming_unique {lyrics : List Line} {ms : Int} {m n : Nat} (hm : Upcoming lyrics ms m) (hn : Upcoming lyrics ms n) :
    m = n := by
  have key : ∀ {m n : Nat}, Upcoming lyrics ms m → Upcoming lyrics ms n → ¬ m < n := by
    intro m n hm hn hlt
    have := hn.le
    obtain ⟨a, as, h1, h2⟩ := hm.at_n (by omega)
    have := hn.before m _ a as hlt h1 rfl
    omega
  have := key hm hn
  have := key hn hm
  omega

theorem buildWords_eq (ms : Int) (l : Line) (acc : List Char) : buildWords ms l acc = acc ++ textAt l ms := by
  induction l generalizing acc with
  | nil => simp [buildWords, textAt]
  | cons a as ih =>
    rw [buildWords, ih]
    by_cases h : a.timestamp < ms + 100 <;> simp [textAt, h]

/-- C45: the view has the requested number of lines; the line `i` from the newest shows, of the line `i + 1` before the
next upcoming one, the words that come before now + 100 ms, and is empty if there is no such line. -/
theorem C45_view (height : Nat) (lyrics : List Line) (time : Int) (n : Nat) (hn : Upcoming lyrics (time.tdiv 1000000) n) :
    (history height lyrics time).length = height ∧ ∀ i < height,
      (i < n → ∀ l, lyrics[n - 1 - i]? = some l → (history height lyrics time)[i]? = some (textAt l (time.tdiv 1000000))) ∧
      (n ≤ i → (history height lyrics time)[i]? = some []) := by
  have e := upcoming_unique hn (nextLine_upcoming lyrics (time.tdiv 1000000))
  unfold history
  by_cases hl : 0 < lyrics.length
  · rw [if_pos hl]
    refine ⟨by simp, ?_⟩
    intro i hi
    have hget : ((List.range height).map fun (i : Nat) =>
        buildLine ((nextLine (millis time) lyrics : Int) - i - 1) lyrics time)[i]? =
          some (buildLine ((nextLine (millis time) lyrics : Int) - i - 1) lyrics time) := by
      simp [List.getElem?_map, List.getElem?_range hi]
    refine ⟨?_, ?_⟩
    · intro hin l hl'
      rw [hget]
      congr 1
      have hlen := hn.le
      have h1 : ((nextLine (millis time) lyrics : Int) - i - 1).toNat = n - 1 - i := by rw [millis, ← e]; omega
      rw [buildLine, if_neg (by rw [millis, ← e]; omega), h1, buildWords_eq]
      simp [List.getD, hl', millis]
    · intro hin
      rw [hget, buildLine, if_pos (by rw [millis, ← e]; omega)]
  · rw [if_neg hl]
    refine ⟨by simp, ?_⟩
    intro i hi
    have : n = 0 := by have := hn.le; omega
    exact ⟨by omega, fun _ => by simp [hi]⟩

/-- C45: there is always exactly one such `n`. -/
theorem C45_upcoming (lyrics : List Line) (ms : Int) : ∃ n, Upcoming lyrics ms n ∧ ∀ m, Upcoming lyrics ms m → m = n :=
  ⟨_, nextLine_upcoming lyrics ms, fun _ h => upcoming_unique h (nextLine_upcoming lyrics ms)⟩

theorem tdiv_mono {a b : Int} (h : a ≤ b) : a.tdiv 1000000 ≤ b.tdiv 1000000 := Int.tdiv_le_tdiv (by omega) h

theorem upcoming_mono {lyrics : List Line} {ms ms' : Int} (h : ms ≤ ms') {n n' : Nat} (hn : Upcoming lyrics ms n)
    (hn' : Upcoming lyrics ms' n') : n ≤ n' := by
  rcases Nat.lt_or_ge n' n with hlt | hge
  · have := hn.le
    obtain ⟨a, as, h1, h2⟩ := hn'.at_n (by omega)
    have := hn.before n' _ a as hlt h1 rfl
    omega
  · exact hge

theorem filter_prefix {l : Line} (ho : l.Pairwise fun a b => a.timestamp ≤ b.timestamp) {t t' : Int} (h : t ≤ t') :
    (l.filter fun a => decide (a.timestamp < t)) <+: (l.filter fun a => decide (a.timestamp < t')) := by
  induction l with
  | nil => simp
  | cons a as ih =>
    cases ho with
    | cons h1 h2 =>
      by_cases ha : a.timestamp < t
      · simp only [List.filter_cons, ha, decide_true, if_true, show a.timestamp < t' by omega]
        obtain ⟨r, hr⟩ := ih h2
        exact ⟨r, by rw [List.cons_append, hr]⟩
      · have : (a :: as).filter (fun a => decide (a.timestamp < t)) = [] := by
          rw [List.filter_eq_nil_iff]
          intro b hb
          rcases List.mem_cons.1 hb with rfl | hb
          · simpa using ha
          · have := h1 b hb; simp; omega
        rw [this]; exact List.nil_prefix

/-- C45: as time advances the view only scrolls: a line that is shown moves up by some number of rows, and its text stays,
possibly with words added after it (for lines whose words are in order of time). -/
theorem C45_words_stay (height : Nat) (lyrics : List Line)
    (ho : ∀ l ∈ lyrics, l.Pairwise fun a b : Atom => a.timestamp ≤ b.timestamp) (time time' : Int) (h : time ≤ time') :
    ∃ k, ∀ i, i + k < height →
      ∃ s s', (history height lyrics time)[i]? = some s ∧ (history height lyrics time')[i + k]? = some s' ∧ s <+: s' := by
  have hn := nextLine_upcoming lyrics (time.tdiv 1000000)
  have hn' := nextLine_upcoming lyrics (time'.tdiv 1000000)
  have hle := upcoming_mono (tdiv_mono h) hn hn'
  generalize nextLine (time.tdiv 1000000) lyrics = n at hn hle
  generalize nextLine (time'.tdiv 1000000) lyrics = n' at hn' hle
  refine ⟨n' - n, fun i hi => ?_⟩
  have v := (C45_view height lyrics time n hn).2 i (by omega)
  have v' := (C45_view height lyrics time' n' hn').2 (i + (n' - n)) hi
  rcases Nat.lt_or_ge i n with hin | hin
  · have hlen := hn.le
    have hlt : n - 1 - i < lyrics.length := by omega
    have e : n' - 1 - (i + (n' - n)) = n - 1 - i := by omega
    have hg : lyrics[n - 1 - i]? = some lyrics[n - 1 - i] := List.getElem?_eq_getElem hlt
    refine ⟨_, _, v.1 hin _ hg, v'.1 (by omega) _ (by rw [e]; exact hg), ?_⟩
    obtain ⟨r, hr⟩ := filter_prefix (ho _ (List.getElem_mem hlt)) (t := time.tdiv 1000000 + 100) (t' := time'.tdiv 1000000 + 100)
      (by have := tdiv_mono h; omega)
    exact ⟨r.flatMap Atom.caption, by rw [textAt, textAt, ← hr, List.flatMap_append]⟩
  · exact ⟨_, _, v.2 hin, v'.2 (by omega), List.nil_prefix⟩

/-- Without the order a shown word may be followed by one that comes in before it: a line is not a prefix of its later
self, but no word is lost (the words shown are a sublist of the words shown later). -/
theorem C45_sublist (l : Line) (ms ms' : Int) (h : ms ≤ ms') :
    (l.filter fun a => decide (a.timestamp < ms + 100)).Sublist (l.filter fun a => decide (a.timestamp < ms' + 100)) := by
  induction l with
  | nil => simp
  | cons a as ih =>
    by_cases ha : a.timestamp < ms + 100
    · simp only [List.filter_cons, ha, decide_true, if_true, show a.timestamp < ms' + 100 by omega]
      exact ih.cons_cons a
    · simp only [List.filter_cons, ha, decide_false]
      by_cases hb : a.timestamp < ms' + 100
      · simp only [hb, decide_true, if_true]; exact ih.cons a
      · simp only [hb, decide_false]; exact ih

section examples
def demo : List Line := [[⟨1000, ['a']⟩, ⟨2000, ['b']⟩], [], [⟨3000, ['c']⟩]]
example : Upcoming demo 1950 2 := nextLine_upcoming demo 1950
/-- At 1.95 s the second word of the first line is already shown (the empty line is the newest). -/
example : history 3 demo 1950000000 = [[], ['a', 'b'], []] := by decide
example : ∀ l ∈ demo, l.Pairwise fun a b : Atom => a.timestamp ≤ b.timestamp := by
  simp [demo]
end examples

/-! ## C47 -/

/-- Specification: a number without needless zeros in front. -/
def PlainNumber (s : List Char) (n : Nat) : Prop :=
  (∀ c ∈ s, '0' ≤ c ∧ c ≤ '9') ∧ Fmt.value s = n ∧ s ≠ [] ∧ (s.head? = some '0' → s = ['0'])

/-- Specification: a number of two digits. -/
def TwoDigits (s : List Char) (n : Nat) : Prop := (∀ c ∈ s, '0' ≤ c ∧ c ≤ '9') ∧ Fmt.value s = n ∧ s.length = 2

theorem digit_le (c : Char) (h : 48 ≤ c.toNat ∧ c.toNat ≤ 57) : '0' ≤ c ∧ c ≤ '9' := by
  constructor
  · show (48 : UInt32) ≤ c.val
    rw [UInt32.le_iff_toNat_le]; exact h.1
  · show c.val ≤ (57 : UInt32)
    rw [UInt32.le_iff_toNat_le]; exact h.2

theorem dec_head (n : Nat) : (Fmt.dec n).head? = some '0' → Fmt.dec n = ['0'] := by
  induction n using Nat.strongRecOn with
  | ind n ih =>
    rw [Fmt.dec]
    split
    · intro h; simp at h; simp [h]
    · intro h
      have hne := Fmt.dec_ne_nil (n / 10)
      rw [List.head?_append, Option.or_of_isSome (by cases hd : Fmt.dec (n / 10) with
        | nil => exact absurd hd hne
        | cons a b => rfl)] at h
      have := ih (n / 10) (by omega) h
      have hv := Fmt.value_dec (n / 10)
      rw [this] at hv
      simp [Fmt.value] at hv
      omega

theorem dec_plain (n : Nat) : PlainNumber (Fmt.dec n) n :=
  ⟨fun c hc => digit_le c (Fmt.dec_digits n c hc), Fmt.value_dec n, Fmt.dec_ne_nil n, dec_head n⟩

theorem dec0_two (n : Nat) (h : n < 60) : TwoDigits (Fmt.dec0 2 n) n := by
  refine ⟨fun c hc => digit_le c (Fmt.dec0_digits 2 n c hc), Fmt.value_dec0 2 n, ?_⟩
  rw [Fmt.dec0_length]
  have := Fmt.dec_length_mono (m := n) (n := 99) (by omega)
  have : (Fmt.dec 99).length = 2 := by simp [Fmt.dec]
  omega

theorem decI_nat (n : Nat) : decI n = Fmt.dec n := by simp [decI]
theorem dec02I_nat (n : Nat) : dec02I n = Fmt.dec0 2 n := by simp [dec02I]; intro h; omega

/-- C47: a duration is printed as m:ss below an hour and as h:mm:ss from an hour on; the fields are numbers, the last ones
of two digits below 60, and together they denote the whole seconds of the duration. -/
theorem C47_duration (d : Nat) : ∃ h m s : Nat, h * 3600 + m * 60 + s = d / 1000000000 ∧ m < 60 ∧ s < 60 ∧
    (h = 0 → ∃ ms ss, fmtDuration d = ms ++ ':' :: ss ∧ PlainNumber ms m ∧ TwoDigits ss s) ∧
    (h ≠ 0 → ∃ hs ms ss, fmtDuration d = hs ++ ':' :: (ms ++ ':' :: ss) ∧ PlainNumber hs h ∧ TwoDigits ms m ∧ TwoDigits ss s) := by
  have e1 : (d : Int).tdiv hour = ((d / 3600000000000 : Nat) : Int) := by simp [hour]
  have e2 : (d : Int).tdiv minute = ((d / 60000000000 : Nat) : Int) := by simp [minute]
  have e3 : ((d : Int).tdiv second).tmod 60 = ((d / 1000000000 % 60 : Nat) : Int) := by
    rw [Int.tmod_eq_emod_of_nonneg (by simp [second]; omega)]; simp [second]
  have e4 : ((d : Int).tdiv minute).tmod 60 = ((d / 60000000000 % 60 : Nat) : Int) := by
    rw [Int.tmod_eq_emod_of_nonneg (by simp [minute]; omega)]; simp [minute]
  refine ⟨d / 3600000000000, d / 60000000000 % 60, d / 1000000000 % 60, by omega, by omega, by omega, ?_, ?_⟩
  · intro h0
    refine ⟨_, _, ?_, dec_plain _, dec0_two (d / 1000000000 % 60) (by omega)⟩
    unfold fmtDuration
    rw [if_pos (by simp only [hour]; omega), e2, e3, decI_nat, dec02I_nat,
      show d / 60000000000 % 60 = d / 60000000000 by omega]
    simp
  · intro h0
    refine ⟨_, _, _, ?_, dec_plain _, dec0_two (d / 60000000000 % 60) (by omega), dec0_two (d / 1000000000 % 60) (by omega)⟩
    unfold fmtDuration
    rw [if_neg (by simp only [hour]; omega), e1, e3, e4, decI_nat, dec02I_nat, dec02I_nat]
    simp

/-- C47, negative durations: a time less than a minute before zero is printed with the sign at the seconds. -/
example : fmtDuration (-5000000000) = "0:-5".toList := by
  simp [fmtDuration, decI, dec02I, hour, minute, second, Fmt.dec, Fmt.dec0, Fmt.digit]

section examples
example : fmtDuration 3725000000000 = "1:02:05".toList := by
  simp [fmtDuration, decI, dec02I, hour, minute, second, Fmt.dec, Fmt.dec0, Fmt.digit]
end examples

end MS.Display
