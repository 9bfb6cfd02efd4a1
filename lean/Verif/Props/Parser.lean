import Verif.Model.Parser
import Verif.Spec.Shell
/-!
# Properties C35-C37: the command line syntax
-/
set_option linter.unusedSimpArgs false
namespace MS.Shell
open MS.Spec.Shell

/-! ## Characters -/

theorem toNat_ofNat (n : Nat) (h : n < 0xD800) : (Char.ofNat n).toNat = n := by
  have hv : n.isValidChar := Or.inl (by omega)
  simp [Char.ofNat, hv, Char.ofNatAux, Char.toNat]

/-- C37, exactly: the characters that survive parsing are those below U+00C0. -/
theorem C37_survives_iff (c : Char) : lastByte c = c ↔ c.toNat < 0xC0 := by
  unfold lastByte
  split
  · rename_i h; exact ⟨fun _ => by omega, fun _ => rfl⟩
  · rename_i h
    constructor
    · intro e
      have := congrArg Char.toNat e
      rw [toNat_ofNat _ (by omega)] at this
      omega
    · intro h2
      have : 0x80 + c.toNat % 64 = c.toNat := by omega
      rw [this, Char.ofNat_toNat]

/-! ## Trimming -/

theorem dropWhile_spec (p : Char → Bool) (l : List Char) : ∃ a, l = a ++ l.dropWhile p ∧ (∀ c ∈ a, p c = true) := by
  induction l with
  | nil => exact ⟨[], rfl, by simp⟩
  | cons c l ih =>
    by_cases h : p c
    · obtain ⟨a, e, ha⟩ := ih
      refine ⟨c :: a, ?_, ?_⟩
      · simp only [List.dropWhile_cons, h, if_true, List.cons_append]; rw [← e]
      · intro d hd
        rcases List.mem_cons.1 hd with rfl | hd
        · exact h
        · exact ha d hd
    · exact ⟨[], by simp [List.dropWhile_cons, h], by simp⟩

theorem dropWhile_head (p : Char → Bool) (l : List Char) : ∀ c, (l.dropWhile p).head? = some c → p c = false := by
  induction l with
  | nil => simp
  | cons d l ih =>
    intro c h
    by_cases hd : p d
    · simp only [List.dropWhile_cons, hd, if_true] at h; exact ih c h
    · simp only [List.dropWhile_cons, hd, if_false, Bool.false_eq_true] at h
      simp at h
      subst h
      simpa using hd

/-- What trimming does: white space is taken off both ends, and none is left there. -/
theorem trim_spec (l : List Char) : (∃ a b, l = a ++ trim l ++ b ∧ (∀ c ∈ a ++ b, isSpace c = true)) ∧
    (∀ c, (trim l).head? = some c → isSpace c = false) ∧ (∀ c, (trim l).getLast? = some c → isSpace c = false) := by
  obtain ⟨a, ea, ha⟩ := dropWhile_spec isSpace l
  obtain ⟨b, eb, hb⟩ := dropWhile_spec isSpace (l.dropWhile isSpace).reverse
  have e : l.dropWhile isSpace = trim l ++ b.reverse := by
    have := congrArg List.reverse eb
    simpa [trim] using this
  refine ⟨⟨a, b.reverse, by rw [List.append_assoc, ← e]; exact ea, ?_⟩, ?_, ?_⟩
  · intro c hc
    simp only [List.mem_append, List.mem_reverse] at hc
    exact hc.elim (ha c) (hb c)
  · intro c hc
    apply dropWhile_head isSpace l c
    rw [e]
    cases ht : trim l with
    | nil => rw [ht] at hc; simp at hc
    | cons x y => rw [ht] at hc; simpa using hc
  · intro c hc
    apply dropWhile_head isSpace (l.dropWhile isSpace).reverse c
    simpa [trim] using hc

theorem isSpace_iff (c : Char) : isSpace c = true ↔ White c := by
  have key : ∀ d : Char, c = d ↔ c.toNat = d.toNat := fun d =>
    ⟨fun h => by rw [h], fun h => by rw [← Char.ofNat_toNat c, h, Char.ofNat_toNat]⟩
  simp only [White, List.mem_cons, List.not_mem_nil, or_false, key]
  simp [isSpace, or_assoc]

theorem trimmed_iff (l : List Char) : Trimmed l ↔
    (∀ c, l.head? = some c → isSpace c = false) ∧ (∀ c, l.getLast? = some c → isSpace c = false) := by
  simp only [Trimmed, ← isSpace_iff, Bool.not_eq_true]

theorem trim_of (l : List Char) : TrimOf l (trim l) := by
  obtain ⟨⟨a, b, e, h⟩, h2⟩ := trim_spec l
  exact ⟨⟨a, b, e, fun c hc => (isSpace_iff c).1 (h c hc)⟩, (trimmed_iff _).2 h2⟩

theorem dropWhile_id (p : Char → Bool) (l : List Char) (h : ∀ c, l.head? = some c → p c = false) : l.dropWhile p = l := by
  cases l with
  | nil => rfl
  | cons c l => simp [List.dropWhile_cons, h c rfl]

theorem trim_id {l : List Char} (h : Trimmed l) : trim l = l := by
  unfold trim
  have h := (trimmed_iff l).1 h
  rw [dropWhile_id isSpace l h.1, dropWhile_id isSpace l.reverse (by simpa using h.2), List.reverse_reverse]

theorem trim_trimmed (l : List Char) : Trimmed (trim l) := (trim_of l).2

/-! ## The equations of `split` -/

theorem split_nil : split [] = ([], []) := by rw [split.eq_def]
theorem split_sep (r : List Char) : split (' ' :: r) = ([], (split r).1 :: (split r).2) := by
  rw [split.eq_def]; simp
theorem split_esc (r : List Char) : split ('\\' :: ' ' :: r) = (' ' :: (split r).1, (split r).2) := by
  rw [split.eq_def]; simp
theorem split_bs (r : List Char) : split ('\\' :: '\\' :: r) = ('\\' :: (split r).1, (split r).2) := by
  rw [split.eq_def]; simp
theorem split_lone_end : split ['\\'] = (['\\'], []) := by
  rw [split.eq_def]; simp
theorem split_lone {d : Char} (r : List Char) (h1 : d ≠ ' ') (h2 : d ≠ '\\') :
    split ('\\' :: d :: r) = ('\\' :: (split (d :: r)).1, (split (d :: r)).2) := by
  rw [split.eq_def]; simp [h1, h2]
theorem split_plain {c : Char} (r : List Char) (h1 : c ≠ ' ') (h2 : c ≠ '\\') :
    split (c :: r) = (lastByte c :: (split r).1, (split r).2) := by
  rw [split.eq_def]; simp [h1, h2]

/-! ## C36 -/

/-- The reading the parser uses. -/
def tokenize : List Char → List Piece
  | [] => []
  | c :: r =>
    if c = ' ' then .sep :: tokenize r
    else if c = '\\' then
      match r with
      | [] => [.lone]
      | d :: r' =>
        if d = ' ' then .escSpace :: tokenize r'
        else if d = '\\' then .escBackslash :: tokenize r'
        else .lone :: tokenize (d :: r')
    else .plain c :: tokenize r
  termination_by l => l.length

theorem tok_nil : tokenize [] = [] := by rw [tokenize.eq_def]
theorem tok_sep (r : List Char) : tokenize (' ' :: r) = .sep :: tokenize r := by rw [tokenize.eq_def]; simp
theorem tok_esc (r : List Char) : tokenize ('\\' :: ' ' :: r) = .escSpace :: tokenize r := by rw [tokenize.eq_def]; simp
theorem tok_bs (r : List Char) : tokenize ('\\' :: '\\' :: r) = .escBackslash :: tokenize r := by rw [tokenize.eq_def]; simp
theorem tok_lone_end : tokenize ['\\'] = [.lone] := by rw [tokenize.eq_def]; simp
theorem tok_lone {d : Char} (r : List Char) (h1 : d ≠ ' ') (h2 : d ≠ '\\') :
    tokenize ('\\' :: d :: r) = .lone :: tokenize (d :: r) := by rw [tokenize.eq_def]; simp [h1, h2]
theorem tok_plain {c : Char} (r : List Char) (h1 : c ≠ ' ') (h2 : c ≠ '\\') :
    tokenize (c :: r) = .plain c :: tokenize r := by rw [tokenize.eq_def]; simp [h1, h2]

/-- Case analysis on how a line starts. -/
theorem line_cases (P : List Char → Prop) (h0 : P []) (hsep : ∀ r, P r → P (' ' :: r))
    (hesc : ∀ r, P r → P ('\\' :: ' ' :: r)) (hbs : ∀ r, P r → P ('\\' :: '\\' :: r)) (hend : P ['\\'])
    (hlone : ∀ d r, d ≠ ' ' → d ≠ '\\' → P (d :: r) → P r → P ('\\' :: d :: r))
    (hplain : ∀ c r, c ≠ ' ' → c ≠ '\\' → P r → P (c :: r)) : ∀ l, P l := by
  intro l
  generalize hn : l.length = n
  induction n using Nat.strongRecOn generalizing l with
  | ind n ih =>
    cases l with
    | nil => exact h0
    | cons c r =>
      simp only [List.length_cons] at hn
      have ihr : P r := ih r.length (by omega) r rfl
      by_cases h1 : c = ' '
      · subst h1; exact hsep r ihr
      · by_cases h2 : c = '\\'
        · subst h2
          cases r with
          | nil => exact hend
          | cons d r' =>
            simp only [List.length_cons] at hn
            have ih' : P r' := ih r'.length (by omega) r' rfl
            by_cases h3 : d = ' '
            · subst h3; exact hesc r' ih'
            · by_cases h4 : d = '\\'
              · subst h4; exact hbs r' ih'
              · exact hlone d r' h3 h4 ihr ih'
        · exact hplain c r h1 h2 ihr

theorem reads_cons {line : List Char} {ps : List Piece} (p : Piece) (h : Reads line ps)
    (hp : ∀ c, p = .plain c → c ≠ ' ' ∧ c ≠ '\\') (hl : p = .lone → ∀ q post, ps = q :: post → ∃ c, q = .plain c) :
    Reads (p.text ++ line) (p :: ps) := by
  refine ⟨by simp [h.text], ?_, ?_⟩
  · intro c hc
    rcases List.mem_cons.1 hc with hc | hc
    · exact hp c hc.symm
    · exact h.plain c hc
  · intro pre q post e
    cases pre with
    | nil => simp at e; exact hl e.1 q post e.2
    | cons x pre => simp at e; exact h.lone pre q post e.2

theorem reads_tail {line : List Char} {p : Piece} {ps : List Piece} (h : Reads line (p :: ps)) :
    Reads (ps.flatMap Piece.text) ps :=
  ⟨rfl, fun c hc => h.plain c (List.mem_cons_of_mem _ hc), fun pre q post e => h.lone (p :: pre) q post (by simp [e])⟩

theorem reads_tokenize (line : List Char) : Reads line (tokenize line) := by
  refine line_cases (fun line => Reads line (tokenize line)) ?_ ?_ ?_ ?_ ?_ ?_ ?_ line
  · rw [tok_nil]; exact ⟨rfl, by simp, by simp⟩
  · intro r h; rw [tok_sep]; exact reads_cons .sep h (by simp) (by simp)
  · intro r h; rw [tok_esc]; exact reads_cons .escSpace h (by simp) (by simp)
  · intro r h; rw [tok_bs]; exact reads_cons .escBackslash h (by simp) (by simp)
  · rw [tok_lone_end]
    exact ⟨rfl, by simp, fun pre q post e => by cases pre <;> simp at e⟩
  · intro d r h1 h2 h _
    rw [tok_lone r h1 h2]
    refine reads_cons .lone h (by simp) ?_
    intro _ q post e
    rw [tok_plain r h1 h2] at e
    injection e with e _
    exact ⟨d, e.symm⟩
  · intro c r h1 h2 h
    rw [tok_plain r h1 h2]
    refine reads_cons (.plain c) h ?_ (by simp)
    intro c' e; injection e with e; subst e; exact ⟨h1, h2⟩

theorem reads_unique (ps : List Piece) : ∀ line, Reads line ps → ps = tokenize line := by
  induction ps with
  | nil => intro line h; have := h.text; simp at this; subst this; rw [tok_nil]
  | cons p ps ih =>
    intro line h
    have ht := ih _ (reads_tail h)
    have e := h.text
    rw [List.flatMap_cons] at e
    subst e
    cases p with
    | sep => simp only [Piece.text, List.cons_append, List.nil_append]; rw [tok_sep, ← ht]
    | escSpace => simp only [Piece.text, List.cons_append, List.nil_append]; rw [tok_esc, ← ht]
    | escBackslash => simp only [Piece.text, List.cons_append, List.nil_append]; rw [tok_bs, ← ht]
    | plain c =>
      obtain ⟨h1, h2⟩ := h.plain c List.mem_cons_self
      simp only [Piece.text, List.cons_append, List.nil_append]; rw [tok_plain _ h1 h2, ← ht]
    | lone =>
      simp only [Piece.text, List.cons_append, List.nil_append]
      cases ps with
      | nil => simp [tok_lone_end]
      | cons q post =>
        obtain ⟨c, hc⟩ := h.lone [] q post rfl
        subst hc
        obtain ⟨h1, h2⟩ := h.plain c (by simp)
        simp only [List.flatMap_cons, Piece.text, List.cons_append, List.nil_append] at ht ⊢
        rw [tok_lone _ h1 h2, ← ht]

theorem split_words (line : List Char) (hs : Safe line) : split line = words (tokenize line) := by
  revert hs
  refine line_cases (fun line => Safe line → split line = words (tokenize line)) ?_ ?_ ?_ ?_ ?_ ?_ ?_ line
  · intro _; rw [split_nil, tok_nil, words]
  · intro r ih hs
    rw [split_sep, tok_sep, words, ih (fun c hc => hs c (by simp [hc]))]
  · intro r ih hs
    rw [split_esc, tok_esc, words, ih (fun c hc => hs c (by simp [hc]))]
  · intro r ih hs
    rw [split_bs, tok_bs, words, ih (fun c hc => hs c (by simp [hc]))]
  · intro _; rw [split_lone_end, tok_lone_end]; rfl
  · intro d r h1 h2 ih _ hs
    rw [split_lone r h1 h2, tok_lone r h1 h2, words, ih (fun c hc => hs c (List.mem_cons_of_mem _ hc))]
  · intro c r h1 h2 ih hs
    rw [split_plain r h1 h2, tok_plain r h1 h2, words, ih (fun c hc => hs c (by simp [hc])),
      (C37_survives_iff c).2 (hs c (by simp))]

/-- C36: every line has exactly one reading, and a line of characters below U+00C0 parses to the words of its reading:
the first is the command, the non-empty other ones are the parameters; white space is trimmed off the ends of all. -/
theorem C36_parse (line : List Char) (hs : Safe line) : ∃ ps, Reads line ps ∧ (∀ qs, Reads line qs → qs = ps) ∧
    TrimOf (words ps).1 (parse line).command ∧
    (parse line).parameters.length = ((words ps).2.filter (fun p => !p.isEmpty)).length ∧
    ∀ (i : Nat) w, ((words ps).2.filter (fun p => !p.isEmpty))[i]? = some w →
      ∃ t, (parse line).parameters[i]? = some t ∧ TrimOf w t := by
  refine ⟨tokenize line, reads_tokenize line, fun qs h => reads_unique qs line h, ?_⟩
  rw [parse, split_words line hs]
  exact ⟨trim_of _, by simp, fun i w hw => ⟨trim w, by simp [hw], trim_of w⟩⟩

/-- C36 as stated, where it holds: if no word of the reading has white space (escaped spaces included) at its ends,
nothing else is special. Missing: `C36_edge_spaces_lost`. -/
theorem C36_exact_partial (line : List Char) (ps : List Piece) (hs : Safe line) (hr : Reads line ps)
    (ht : Trimmed (words ps).1 ∧ ∀ w ∈ (words ps).2, Trimmed w) :
    parse line = ⟨(words ps).1, (words ps).2.filter (fun p => !p.isEmpty)⟩ := by
  have e := reads_unique ps line hr
  subst e
  rw [parse, split_words line hs, trim_id ht.1]
  congr 1
  rw [List.map_congr_left (g := id), List.map_id]
  intro w hw
  exact trim_id (ht.2 w (List.mem_filter.1 hw).1)

/-- C36 is false at the ends of words: in `a \ b` the escaped space is lost, and `a \ ` has one parameter, the empty one. -/
theorem C36_edge_spaces_lost : parse ['a', ' ', '\\', ' ', 'b'] = ⟨['a'], [['b']]⟩ ∧
    parse ['a', ' ', '\\', ' '] = ⟨['a'], [[]]⟩ := by
  constructor <;>
  · simp only [parse]
    rw [split_plain _ (by decide) (by decide), split_sep, split_esc]
    first | rw [split_plain _ (by decide) (by decide), split_nil] | rw [split_nil]
    decide

/-! ## C37 -/

theorem split_one_word (w : List Char) (h : ∀ c ∈ w, c ≠ ' ' ∧ c ≠ '\\') : split w = (w.map lastByte, []) := by
  induction w with
  | nil => exact split_nil
  | cons c w ih =>
    obtain ⟨h1, h2⟩ := h c (by simp)
    rw [split_plain w h1 h2, ih (fun d hd => h d (List.mem_cons_of_mem _ hd))]
    rfl

/-- C37 is false: every character of a word without spaces and backslashes is replaced by the last byte of its UTF-8
form, so (`C37_survives_iff`) the word is changed if it has a character from U+00C0 on (all umlauts, Greek, Cyrillic ...). -/
theorem C37_word (w : List Char) (h : ∀ c ∈ w, c ≠ ' ' ∧ c ≠ '\\') :
    TrimOf (w.map lastByte) (parse w).command ∧ (parse w).parameters = [] := by
  simp [parse, split_one_word w h, trim_of]

theorem parse_one_word (w : List Char) (h : ∀ c ∈ w, c ≠ ' ' ∧ c ≠ '\\') : (parse w).command = trim (w.map lastByte) := by
  simp [parse, split_one_word w h]

theorem C37_mangled (w : List Char) (h : ∀ c ∈ w, c ≠ ' ' ∧ c ≠ '\\') (c : Char) (hc : c ∈ w) (hb : 0xC0 ≤ c.toNat) :
    (parse w).command ≠ w := by
  rw [parse_one_word w h]
  intro e
  have hmem : c ∈ w.map lastByte := by
    rw [← e] at hc
    obtain ⟨⟨a, b, e', _⟩, _⟩ := trim_spec (w.map lastByte)
    rw [e']
    simp [hc]
  obtain ⟨d, _, hd⟩ := List.mem_map.1 hmem
  have : (lastByte d).toNat < 0xC0 := by
    unfold lastByte
    split
    · omega
    · rw [toNat_ofNat _ (by omega)]; omega
  rw [hd] at this
  omega

/-- C37, where it holds. -/
theorem C37_latin_partial (w : List Char) (h : ∀ c ∈ w, c ≠ ' ' ∧ c ≠ '\\') (hs : Safe w) (ht : Trimmed w) :
    (parse w).command = w := by
  rw [parse_one_word w h, List.map_congr_left (g := id), List.map_id, trim_id ht]
  intro c hc
  exact (C37_survives_iff c).2 (hs c hc)

end MS.Shell
