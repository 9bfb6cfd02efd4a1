import Verif.Props.Parser
/-!
# Property C35: parsing what Unparse produces
-/
set_option linter.unusedSimpArgs false
namespace MS.Shell
open MS.Spec.Shell

/-- Specification: every backslash of the word is followed by a character that is neither a space nor a backslash. -/
def Plain (w : List Char) : Prop :=
  ∀ pre post, w = pre ++ '\\' :: post → ∃ d r, post = d :: r ∧ d ≠ ' ' ∧ d ≠ '\\'

theorem plain_tail {c : Char} {w : List Char} (h : Plain (c :: w)) : Plain w :=
  fun pre post e => h (c :: pre) post (by simp [e])

theorem esc_nil : esc [] = [] := rfl
theorem esc_space (w : List Char) : esc (' ' :: w) = '\\' :: ' ' :: esc w := by simp [esc]
theorem esc_other {c : Char} (w : List Char) (h : c ≠ ' ') : esc (c :: w) = c :: esc w := by simp [esc, h]
theorem esc_append (v w : List Char) : esc (v ++ w) = esc v ++ esc w := by simp [esc]

/-- The text of a command: every word followed by a space. -/
theorem unparse_eq (c : Parsed) : unparse c = esc c.command ++ ' ' :: c.parameters.flatMap (fun p => esc p ++ [' ']) := by
  have key : ∀ ps : List (List Char), ps ≠ [] → [' '].intercalate (ps.map esc) ++ [' '] = ps.flatMap (fun p => esc p ++ [' ']) := by
    intro ps
    induction ps with
    | nil => simp
    | cons p ps ih =>
      intro _
      cases ps with
      | nil => simp [List.intercalate, List.intersperse]
      | cons q r =>
        rw [List.flatMap_cons, ← ih (by simp)]
        simp [List.intercalate, List.intersperse]
  unfold unparse
  cases hp : c.parameters with
  | nil => simp
  | cons p ps =>
    rw [if_neg (by simp), List.append_assoc, key (p :: ps) (by simp)]
    simp

theorem split_word (w rest : List Char) (hp : Plain w) (hs : Safe w) :
    split (esc w ++ ' ' :: rest) = (w, (split rest).1 :: (split rest).2) := by
  induction w with
  | nil => rw [esc_nil, List.nil_append, split_sep]
  | cons c w ih =>
    have ih := ih (plain_tail hp) (fun d hd => hs d (List.mem_cons_of_mem _ hd))
    by_cases h1 : c = ' '
    · subst h1
      rw [esc_space, List.cons_append, List.cons_append, split_esc, ih]
    · by_cases h2 : c = '\\'
      · subst h2
        obtain ⟨d, r, e, h3, h4⟩ := hp [] w rfl
        subst e
        rw [esc_other _ h1, esc_other _ h3] at *
        rw [List.cons_append, List.cons_append, split_lone _ h3 h4, ← List.cons_append, ih]
      · rw [esc_other _ h1, List.cons_append, split_plain _ h1 h2, ih, (C37_survives_iff c).2 (hs c (by simp))]

theorem split_params (ps : List (List Char)) (hp : ∀ p ∈ ps, Plain p ∧ Safe p) :
    (split (ps.flatMap (fun p => esc p ++ [' ']))).1 :: (split (ps.flatMap (fun p => esc p ++ [' ']))).2 = ps ++ [[]] := by
  induction ps with
  | nil => simp [split_nil]
  | cons p ps ih =>
    have ih := ih (fun q hq => hp q (List.mem_cons_of_mem _ hq))
    rw [List.flatMap_cons, List.append_assoc, List.singleton_append,
      split_word p _ (hp p (by simp)).1 (hp p (by simp)).2, ih]
    rfl

theorem split_unparse (c : Parsed) (hc : ∀ w ∈ c.command :: c.parameters, Plain w ∧ Safe w) :
    split (unparse c) = (c.command, c.parameters ++ [[]]) := by
  rw [unparse_eq, split_word _ _ (hc _ (by simp)).1 (hc _ (by simp)).2,
    split_params c.parameters (fun p hp => hc p (by simp [hp]))]

/-! ## Counting -/

def bs (l : List Char) : Nat := l.count '\\'
def sp (l : List Char) : Nat := l.count ' '

def nP (l : List Char) : Nat := (tokenize l).count .escBackslash
def nE (l : List Char) : Nat := (tokenize l).count .escSpace
def nL (l : List Char) : Nat := (tokenize l).count .lone

/-- All characters of the words. -/
def allOf (x : List Char × List (List Char)) : List Char := x.1 ++ x.2.flatten

theorem count_facts (t : List Char) (hs : Safe t) : bs t = 2 * nP t + nL t + nE t ∧ bs (allOf (split t)) = nP t + nL t ∧
    sp (allOf (split t)) = nE t := by
  revert hs
  refine line_cases (fun t => Safe t → bs t = 2 * nP t + nL t + nE t ∧ bs (allOf (split t)) = nP t + nL t ∧
    sp (allOf (split t)) = nE t) ?_ ?_ ?_ ?_ ?_ ?_ ?_ t
  · intro _; simp [bs, sp, nP, nL, nE, tok_nil, split_nil, allOf]
  · intro r ih hs
    obtain ⟨a, b, c⟩ := ih (fun c hc => hs c (by simp [hc]))
    simp only [bs, sp, nP, nL, nE, allOf, tok_sep, split_sep] at *
    simp [List.count_cons] at *
    omega
  · intro r ih hs
    obtain ⟨a, b, c⟩ := ih (fun c hc => hs c (by simp [hc]))
    simp only [bs, sp, nP, nL, nE, allOf, tok_esc, split_esc] at *
    simp [List.count_cons] at *
    omega
  · intro r ih hs
    obtain ⟨a, b, c⟩ := ih (fun c hc => hs c (by simp [hc]))
    simp only [bs, sp, nP, nL, nE, allOf, tok_bs, split_bs] at *
    simp [List.count_cons] at *
    omega
  · intro _
    simp only [bs, sp, nP, nL, nE, allOf, tok_lone_end, split_lone_end]
    decide
  · intro d r h1 h2 ih _ hs
    obtain ⟨a, b, c⟩ := ih (fun c hc => hs c (List.mem_cons_of_mem _ hc))
    simp only [bs, sp, nP, nL, nE, allOf, tok_lone r h1 h2, split_lone r h1 h2] at *
    simp [List.count_cons] at *
    omega
  · intro c r h1 h2 ih hs
    obtain ⟨a, b, d⟩ := ih (fun c hc => hs c (by simp [hc]))
    simp only [bs, sp, nP, nL, nE, allOf, tok_plain r h1 h2, split_plain r h1 h2, (C37_survives_iff c).2 (hs c (by simp))] at *
    simp [List.count_cons, h1, h2] at *
    omega

theorem bs_esc (w : List Char) : bs (esc w) = bs w + sp w := by
  induction w with
  | nil => rfl
  | cons c w ih =>
    by_cases h1 : c = ' '
    · subst h1
      rw [esc_space]
      simp only [bs, sp, List.count_cons] at *
      simp at *
      omega
    · rw [esc_other _ h1]
      simp only [bs, sp, List.count_cons] at *
      simp [h1] at *
      omega

theorem bs_append (v w : List Char) : bs (v ++ w) = bs v + bs w := by simp [bs]
theorem sp_append (v w : List Char) : sp (v ++ w) = sp v + sp w := by simp [sp]

theorem bs_unparse (c : Parsed) : bs (unparse c) = bs (c.command ++ c.parameters.flatten) + sp (c.command ++ c.parameters.flatten) := by
  rw [unparse_eq]
  have h0 : ∀ (r : List Char), bs (' ' :: r) = bs r := by intro r; simp [bs, List.count_cons]
  have : ∀ ps : List (List Char), bs (ps.flatMap (fun p => esc p ++ [' '])) = bs ps.flatten + sp ps.flatten := by
    intro ps
    induction ps with
    | nil => rfl
    | cons p ps ih =>
      rw [List.flatMap_cons, List.flatten_cons, bs_append, bs_append, bs_append, sp_append, ih, bs_esc, h0]
      simp [bs]; omega
  rw [bs_append, h0, this, bs_esc, bs_append, sp_append]
  omega

theorem trim_counts (l : List Char) : bs (trim l) = bs l ∧ sp (trim l) ≤ sp l := by
  obtain ⟨⟨a, b, e, h⟩, _⟩ := trim_spec l
  have hz : ∀ x : List Char, (∀ c ∈ x, isSpace c = true) → bs x = 0 := by
    intro x hx
    unfold bs
    rw [List.count_eq_zero]
    intro hm
    have := hx _ hm
    simp [isSpace] at this
  have ha := hz a (fun c hc => h c (by simp [hc]))
  have hb := hz b (fun c hc => h c (by simp [hc]))
  have e1 : bs l = bs a + bs (trim l) + bs b := by
    conv => lhs; rw [e]
    rw [bs_append, bs_append]
  have e2 : sp l = sp a + sp (trim l) + sp b := by
    conv => lhs; rw [e]
    rw [sp_append, sp_append]
  omega

theorem map_trim_counts (ps : List (List Char)) : bs ((ps.filter (fun p => !p.isEmpty)).map trim).flatten = bs ps.flatten ∧
    sp ((ps.filter (fun p => !p.isEmpty)).map trim).flatten ≤ sp ps.flatten := by
  induction ps with
  | nil => simp [bs, sp]
  | cons p ps ih =>
    have := trim_counts p
    cases p with
    | nil => simpa using ih
    | cons c p =>
      rw [List.filter_cons_of_pos (by simp)]
      simp only [List.map_cons, List.flatten_cons, bs_append, sp_append]
      omega

/-! ## Adjacent characters -/

/-- Number of places with a backslash before a space. -/
def adj : List Char → Nat
  | '\\' :: ' ' :: r => 1 + adj (' ' :: r)
  | _ :: r => adj r
  | [] => 0

theorem adj_bs_sp (r : List Char) : adj ('\\' :: ' ' :: r) = 1 + adj (' ' :: r) := by rw [adj]
theorem adj_bs_other {d : Char} (r : List Char) (h : d ≠ ' ') : adj ('\\' :: d :: r) = adj (d :: r) := by
  rw [adj]; intro r' h1 h2; injection h2 with h2 _; exact absurd h2 h
theorem adj_other {c : Char} (r : List Char) (h : c ≠ '\\') : adj (c :: r) = adj r := by
  rw [adj]; intro r' h1 _; exact absurd h1 h

/-- No two backslashes in a row. -/
def NoPair (t : List Char) : Prop := ∀ pre post, t ≠ pre ++ '\\' :: '\\' :: post

theorem noPair_of (t : List Char) (h : nP t = 0) : NoPair t ∧ adj t = nE t := by
  revert h
  refine line_cases (fun t => nP t = 0 → NoPair t ∧ adj t = nE t) ?_ ?_ ?_ ?_ ?_ ?_ ?_ t
  · intro _
    refine ⟨?_, by simp [adj, nE, tok_nil]⟩
    intro pre post e; simp at e
  · intro r ih h
    simp only [nP, nE, tok_sep] at *
    simp at h
    obtain ⟨a, b⟩ := ih (by simpa using h)
    refine ⟨?_, by rw [adj_other _ (by decide), b]; simp⟩
    intro pre post e
    cases pre with
    | nil => simp at e
    | cons x pre => injection e with _ e; exact a pre post e
  · intro r ih h
    simp only [nP, nE, tok_esc] at *
    simp at h
    obtain ⟨a, b⟩ := ih (by simpa using h)
    refine ⟨?_, by rw [adj_bs_sp, adj_other _ (by decide), b]; simp; omega⟩
    intro pre post e
    cases pre with
    | nil => simp at e
    | cons x pre =>
      injection e with _ e
      cases pre with
      | nil => simp at e
      | cons y pre => injection e with _ e; exact a pre post e
  · intro r _ h; simp [nP, tok_bs] at h
  · intro _
    refine ⟨?_, by simp [adj, nE, tok_lone_end]⟩
    intro pre post e
    cases pre with
    | nil => simp at e
    | cons x pre => simp at e
  · intro d r h1 h2 ih _ h
    simp only [nP, nE, tok_lone r h1 h2] at *
    obtain ⟨a, b⟩ := ih (by simpa using h)
    refine ⟨?_, by rw [adj_bs_other _ h1, b]; simp⟩
    intro pre post e
    cases pre with
    | nil => simp at e; exact h2 e.1
    | cons x pre => injection e with _ e; exact a pre post e
  · intro c r h1 h2 ih h
    simp only [nP, nE, tok_plain r h1 h2] at *
    obtain ⟨a, b⟩ := ih (by simpa using h)
    refine ⟨?_, by rw [adj_other _ h2, b]; simp⟩
    intro pre post e
    cases pre with
    | nil => simp at e; exact h2 e.1
    | cons x pre => injection e with _ e; exact a pre post e

/-- Number of the words that end with a backslash. -/
def endBs (w : List Char) : Nat := if w.getLast? = some '\\' then 1 else 0

theorem adj_word (w rest : List Char) : adj (esc w ++ ' ' :: rest) = sp w + endBs w + adj rest := by
  induction w with
  | nil => simp [esc_nil, adj_other, sp, endBs]
  | cons c w ih =>
    have hend : w ≠ [] → endBs (c :: w) = endBs w := by
      intro h; cases w with
      | nil => exact absurd rfl h
      | cons d w => simp [endBs, List.getLast?_cons_cons]
    by_cases h1 : c = ' '
    · subst h1
      rw [esc_space, List.cons_append, List.cons_append, adj_bs_sp, adj_other _ (by decide), ih]
      cases w with
      | nil => simp [sp, endBs]
      | cons d w => rw [hend (by simp)]; simp [sp, List.count_cons]; omega
    · rw [esc_other _ h1, List.cons_append]
      by_cases h2 : c = '\\'
      · subst h2
        cases w with
        | nil => simp only [esc_nil, List.nil_append, adj_bs_sp] at *; rw [adj_other _ (by decide)]; simp [sp, endBs]
        | cons d w =>
          rw [hend (by simp)]
          by_cases h3 : d = ' '
          · subst h3
            rw [esc_space] at ih ⊢
            simp only [List.cons_append] at *
            rw [adj_bs_other _ (by decide), ih]
            simp [sp, List.count_cons]
          · rw [esc_other _ h3] at ih ⊢
            simp only [List.cons_append] at *
            rw [adj_bs_other _ h3, ih]
            simp [sp, List.count_cons]
      · rw [adj_other _ h2, ih]
        cases w with
        | nil => simp [sp, endBs, h1, h2]
        | cons d w => rw [hend (by simp)]; simp [sp, List.count_cons, h1]

theorem adj_unparse (c : Parsed) : adj (unparse c) = sp (c.command ++ c.parameters.flatten) +
    ((c.command :: c.parameters).map endBs).sum := by
  rw [unparse_eq, adj_word]
  have : ∀ ps : List (List Char), adj (ps.flatMap (fun p => esc p ++ [' '])) = sp ps.flatten + (ps.map endBs).sum := by
    intro ps
    induction ps with
    | nil => rfl
    | cons p ps ih =>
      rw [List.flatMap_cons, List.append_assoc, List.singleton_append, adj_word, ih, List.flatten_cons, sp_append]
      simp; omega
  rw [this, sp_append]
  simp; omega

theorem esc_infix_unparse (c : Parsed) (w : List Char) (hw : w ∈ c.command :: c.parameters) :
    ∃ x y, unparse c = x ++ esc w ++ y := by
  rw [unparse_eq]
  rcases List.mem_cons.1 hw with rfl | hw
  · exact ⟨[], _, by simp; rfl⟩
  · obtain ⟨a, b, e⟩ := List.append_of_mem hw
    rw [e]
    refine ⟨esc c.command ++ ' ' :: a.flatMap (fun p => esc p ++ [' ']), ' ' :: b.flatMap (fun p => esc p ++ [' ']), ?_⟩
    simp

theorem safe_esc {w : List Char} (h : Safe w) : Safe (esc w) := by
  intro c hc
  simp only [esc, List.mem_flatMap] at hc
  obtain ⟨d, hd, hc⟩ := hc
  split at hc
  · simp at hc; rcases hc with rfl | rfl <;> decide
  · simp at hc; subst hc; exact h c hd

theorem safe_unparse (c : Parsed) (h : ∀ w ∈ c.command :: c.parameters, Safe w) : Safe (unparse c) := by
  rw [unparse_eq]
  intro d hd
  simp only [List.mem_append, List.mem_cons, List.mem_flatMap] at hd
  rcases hd with hd | rfl | ⟨p, hp, hd⟩
  · exact safe_esc (h _ (by simp)) d hd
  · decide
  · rcases hd with hd | hd
    · exact safe_esc (h p (by simp [hp])) d hd
    · simp at hd; subst hd; decide

/-- C35, exactly: a command of characters below U+00C0 without white space at the ends of its words is restored by
parsing its Unparse text if and only if no parameter is empty and in every word every backslash is followed by a character
other than space and backslash. -/
theorem C35_round_trip_iff (c : Parsed) (hs : ∀ w ∈ c.command :: c.parameters, Safe w)
    (ht : ∀ w ∈ c.command :: c.parameters, Trimmed w) :
    parse (unparse c) = c ↔ (∀ p ∈ c.parameters, p ≠ []) ∧ ∀ w ∈ c.command :: c.parameters, Plain w := by
  have fwd : (∀ w ∈ c.command :: c.parameters, Plain w) →
      parse (unparse c) = ⟨c.command, c.parameters.filter (fun p => !p.isEmpty)⟩ := by
    intro hp
    rw [parse, split_unparse c (fun w hw => ⟨hp w hw, hs w hw⟩)]
    simp only [List.filter_append, trim_id (ht c.command (by simp))]
    have h1 : ([[]] : List (List Char)).filter (fun p => !p.isEmpty) = [] := by simp
    rw [h1, List.append_nil, List.map_congr_left (g := id), List.map_id]
    intro w hw
    exact trim_id (ht w (by simp [(List.mem_filter.1 hw).1]))
  constructor
  · intro h
    have hplain : ∀ w ∈ c.command :: c.parameters, Plain w := by
      obtain ⟨f1, f2, f3⟩ := count_facts (unparse c) (safe_unparse c hs)
      have hcmd : trim (split (unparse c)).1 = c.command := congrArg Parsed.command h
      have hpar : ((split (unparse c)).2.filter (fun p => !p.isEmpty)).map trim = c.parameters := congrArg Parsed.parameters h
      have t1 := trim_counts (split (unparse c)).1
      have t2 := map_trim_counts (split (unparse c)).2
      rw [hcmd] at t1
      rw [hpar] at t2
      have hb := bs_unparse c
      rw [bs_append, sp_append] at hb
      simp only [allOf, bs_append, sp_append] at f2 f3
      have hP : nP (unparse c) = 0 := by omega
      obtain ⟨np, ha⟩ := noPair_of _ hP
      rw [adj_unparse, sp_append] at ha
      have hz : ((c.command :: c.parameters).map endBs).sum = 0 := by omega
      intro w hw pre post e
      obtain ⟨x, y, hu⟩ := esc_infix_unparse c w hw
      cases post with
      | nil =>
        exfalso
        have : endBs w = 1 := by rw [e]; simp [endBs]
        have hm : endBs w ∈ (c.command :: c.parameters).map endBs := List.mem_map_of_mem hw
        have := List.sum_eq_zero_iff_forall_eq_nat.1 hz _ hm
        omega
      | cons d r =>
        refine ⟨d, r, rfl, ?_, ?_⟩
        · rintro rfl
          apply np (x ++ esc pre) (' ' :: esc r ++ y)
          rw [hu, e, esc_append, esc_other _ (by decide), esc_space]
          simp
        · rintro rfl
          apply np (x ++ esc pre) (esc r ++ y)
          rw [hu, e, esc_append, esc_other _ (by decide), esc_other _ (by decide)]
          simp
    refine ⟨?_, hplain⟩
    rw [fwd hplain] at h
    have hpar : c.parameters.filter (fun p => !p.isEmpty) = c.parameters := congrArg Parsed.parameters h
    intro p hp
    have := List.filter_eq_self.1 hpar p hp
    intro e; rw [e] at this; simp at this
  · rintro ⟨he, hp⟩
    rw [fwd hp, List.filter_eq_self.2 (fun p hp => by have := he p hp; cases p <;> simp at this ⊢)]

/-- C35, where it holds. -/
theorem C35_round_trip_partial (c : Parsed) (hs : ∀ w ∈ c.command :: c.parameters, Safe w ∧ Trimmed w ∧ Plain w)
    (he : ∀ p ∈ c.parameters, p ≠ []) : parse (unparse c) = c :=
  (C35_round_trip_iff c (fun w hw => (hs w hw).1) (fun w hw => (hs w hw).2.1)).2 ⟨he, fun w hw => (hs w hw).2.2⟩

/-- C35 is false: the command that `a b\\` parses to is not restored. -/
theorem C35_backslash_lost : ∃ line, parse (unparse (parse line)) ≠ parse line := by
  refine ⟨['a', ' ', 'b', '\\', '\\'], ?_⟩
  have h : parse ['a', ' ', 'b', '\\', '\\'] = ⟨['a'], [['b', '\\']]⟩ := by
    simp only [parse]
    rw [split_plain _ (by decide) (by decide), split_sep, split_plain _ (by decide) (by decide), split_bs, split_nil]
    decide
  rw [h]
  intro e
  have := (C35_round_trip_iff ⟨['a'], [['b', '\\']]⟩ (by simp [Safe]) (by simp [Trimmed, White])).1 e
  obtain ⟨d, r, h1, _⟩ := this.2 ['b', '\\'] (by simp) ['b'] [] rfl
  simp at h1

/-- C35 is false: `a \ ` has one, empty, parameter, which Unparse and parsing lose. -/
theorem C35_empty_lost : ∃ line, parse (unparse (parse line)) ≠ parse line := by
  refine ⟨['a', ' ', '\\', ' '], ?_⟩
  rw [C36_edge_spaces_lost.2]
  intro e
  have := (C35_round_trip_iff ⟨['a'], [[]]⟩ (by simp [Safe]) (by simp [Trimmed, White])).1 e
  exact this.1 [] (by simp) rfl

section examples
/-- `queue my\ song.mp3 a\b` and its words. -/
example : ∀ w ∈ [['q'], ['m', 'y', ' ', 's'], ['a', '\\', 'b']], Safe w ∧ Trimmed w ∧ Plain w := by
  intro w hw
  refine ⟨?_, ?_, ?_⟩
  · simp at hw; rcases hw with rfl | rfl | rfl <;> simp [Safe]
  · simp at hw; rcases hw with rfl | rfl | rfl <;> simp [Trimmed, White]
  · simp at hw
    rcases hw with rfl | rfl | rfl
    · intro pre post e; rcases pre with _ | ⟨x, _ | ⟨y, z⟩⟩ <;> simp at e
    · intro pre post e; rcases pre with _ | ⟨x, _ | ⟨y, _ | ⟨z, _ | ⟨u, v⟩⟩⟩⟩ <;> simp at e
    · intro pre post e
      rcases pre with _ | ⟨x, _ | ⟨y, _ | ⟨z, v⟩⟩⟩ <;> simp at e
      exact ⟨'b', [], e.2.symm, by decide, by decide⟩
example : unparse ⟨['q'], [['m', 'y', ' ', 's'], ['a', '\\', 'b']]⟩ =
    ['q', ' ', 'm', 'y', '\\', ' ', 's', ' ', 'a', '\\', 'b', ' '] := by decide
/-- A reading of `a\ b \x`. -/
example : Reads ['a', '\\', ' ', 'b', ' ', '\\', 'x'] [.plain 'a', .escSpace, .plain 'b', .sep, .lone, .plain 'x'] := by
  have := reads_tokenize ['a', '\\', ' ', 'b', ' ', '\\', 'x']
  rw [tok_plain _ (by decide) (by decide), tok_esc, tok_plain _ (by decide) (by decide), tok_sep, tok_lone _ (by decide) (by decide),
    tok_plain _ (by decide) (by decide), tok_nil] at this
  exact this
example : lastByte 'é' = '©' := by decide
end examples

end MS.Shell
