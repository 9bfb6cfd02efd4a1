import Verif.Model.Grammar
import Verif.Props.Parser
/-!
# Property C98: the parser reads every line completely
-/
set_option linter.unusedSimpArgs false
namespace MS.Shell

/-! ## The networks -/

set_option maxRecDepth 20000 in
theorem lexer_decoded : lexerAtn =
    { states := [(6, 65535), (2, 0), (7, 0), (2, 1), (7, 1), (2, 2), (7, 2), (1, 0), (1, 0), (1, 1), (1, 1), (1, 2), (1, 2)]
      rules := [(1, 1), (3, 2), (5, 3)]
      edges := [⟨0, 1, 1, 0, 0, 0⟩, ⟨0, 3, 1, 0, 0, 0⟩, ⟨0, 5, 1, 0, 0, 0⟩, ⟨1, 7, 1, 0, 0, 0⟩, ⟨3, 9, 1, 0, 0, 0⟩,
        ⟨5, 11, 1, 0, 0, 0⟩, ⟨7, 8, 5, 92, 0, 0⟩, ⟨8, 2, 1, 0, 0, 0⟩, ⟨9, 10, 5, 32, 0, 0⟩, ⟨10, 4, 1, 0, 0, 0⟩,
        ⟨11, 12, 9, 0, 0, 0⟩, ⟨12, 6, 1, 0, 0, 0⟩]
      decisions := [0] } := by rfl

set_option maxRecDepth 20000 in
theorem parser_decoded : deserializedATN =
    { states := [(2, 0), (7, 0), (2, 1), (7, 1), (2, 2), (7, 2), (2, 3), (7, 3), (2, 4), (7, 4), (2, 5), (7, 5), (1, 0),
        (1, 0), (1, 0), (5, 0), (8, 0), (10, 0), (12, 0), (9, 0), (1, 1), (1, 1), (1, 2), (1, 2), (1, 3), (1, 3), (1, 4),
        (5, 4), (8, 4), (10, 4), (12, 4), (9, 4), (1, 5), (1, 5), (1, 5), (1, 5), (1, 5), (1, 5), (3, 5), (8, 5), (1, 5)]
      rules := [(0, 0), (2, 0), (4, 0), (6, 0), (8, 0), (10, 0)]
      edges := [⟨0, 12, 1, 0, 0, 0⟩, ⟨2, 20, 1, 0, 0, 0⟩, ⟨4, 22, 1, 0, 0, 0⟩, ⟨6, 24, 1, 0, 0, 0⟩, ⟨8, 29, 1, 0, 0, 0⟩,
        ⟨10, 38, 1, 0, 0, 0⟩, ⟨12, 17, 3, 2, 1, 0⟩, ⟨13, 14, 5, 2, 0, 0⟩, ⟨14, 16, 3, 4, 2, 0⟩, ⟨15, 13, 1, 0, 0, 0⟩,
        ⟨16, 19, 1, 0, 0, 0⟩, ⟨17, 15, 1, 0, 0, 0⟩, ⟨17, 18, 1, 0, 0, 0⟩, ⟨18, 1, 1, 0, 0, 0⟩, ⟨19, 17, 1, 0, 0, 0⟩,
        ⟨20, 21, 3, 6, 3, 0⟩, ⟨21, 3, 1, 0, 0, 0⟩, ⟨22, 23, 3, 6, 3, 0⟩, ⟨23, 5, 1, 0, 0, 0⟩, ⟨24, 25, 3, 8, 4, 0⟩,
        ⟨25, 7, 1, 0, 0, 0⟩, ⟨26, 28, 3, 10, 5, 0⟩, ⟨27, 26, 1, 0, 0, 0⟩, ⟨28, 31, 1, 0, 0, 0⟩, ⟨29, 27, 1, 0, 0, 0⟩,
        ⟨29, 30, 1, 0, 0, 0⟩, ⟨30, 9, 1, 0, 0, 0⟩, ⟨31, 29, 1, 0, 0, 0⟩, ⟨32, 39, 5, 3, 0, 0⟩, ⟨33, 34, 5, 1, 0, 0⟩,
        ⟨34, 39, 5, 2, 0, 0⟩, ⟨35, 36, 5, 1, 0, 0⟩, ⟨36, 39, 5, 1, 0, 0⟩, ⟨37, 39, 5, 1, 0, 0⟩, ⟨38, 32, 1, 0, 0, 0⟩,
        ⟨38, 33, 1, 0, 0, 0⟩, ⟨38, 35, 1, 0, 0, 0⟩, ⟨38, 37, 1, 0, 0, 0⟩, ⟨39, 11, 1, 0, 0, 0⟩]
      decisions := [17, 29, 38] } := by rfl

/-- The transitions out of a state. -/
def Atn.out (A : Atn) (q : Nat) : List Edge := A.edges.filter (fun e => e.src == q)

theorem mem_out {A : Atn} {q : Nat} {e : Edge} : e ∈ A.out q ↔ e ∈ A.edges ∧ e.src = q := by simp [Atn.out]

theorem inv_eps {A : Atn} {q r q' a b c : Nat} {st w : List Nat} (ho : A.out q = [⟨q, r, 1, a, b, c⟩]) (hs : ¬ A.isStop q)
    (hq : q ≠ q') (h : Path A q st w q') : Path A r st w q' := by
  have hm : ∀ e, e ∈ A.edges → e.src = q → e = ⟨q, r, 1, a, b, c⟩ := by
    intro e h1 h2
    have := mem_out.2 ⟨h1, h2⟩
    rw [ho] at this
    simpa using this
  cases h with
  | done => exact absurd rfl hq
  | eps e h1 h2 h3 h4 h5 => rw [hm e h1 h2] at h4; simp at h4; subst h4; exact h5
  | call e h1 h2 h3 => rw [hm e h1 h2] at h3; simp at h3
  | ret h1 => exact absurd h1 hs
  | atom x e h1 h2 h3 => rw [hm e h1 h2] at h3; simp at h3
  | any x e h1 h2 h3 => rw [hm e h1 h2] at h3; simp at h3

theorem inv_atom {A : Atn} {q r q' x b c : Nat} {st w : List Nat} (ho : A.out q = [⟨q, r, 5, x, b, c⟩]) (hs : ¬ A.isStop q)
    (hq : q ≠ q') (h : Path A q st w q') : ∃ w', w = x :: w' ∧ Path A r st w' q' := by
  have hm : ∀ e, e ∈ A.edges → e.src = q → e = ⟨q, r, 5, x, b, c⟩ := by
    intro e h1 h2
    have := mem_out.2 ⟨h1, h2⟩
    rw [ho] at this
    simpa using this
  cases h with
  | done => exact absurd rfl hq
  | eps e h1 h2 h3 h4 h5 => rw [hm e h1 h2] at h3; simp at h3
  | call e h1 h2 h3 => rw [hm e h1 h2] at h3; simp at h3
  | ret h1 => exact absurd h1 hs
  | atom y e h1 h2 h3 h4 h5 h6 =>
    rw [hm e h1 h2] at h4 h5; simp at h4 h5; subst h4; subst h5; exact ⟨_, rfl, h6⟩
  | any y e h1 h2 h3 => rw [hm e h1 h2] at h3; simp at h3

theorem inv_any {A : Atn} {q r q' a b c : Nat} {st w : List Nat} (ho : A.out q = [⟨q, r, 9, a, b, c⟩]) (hs : ¬ A.isStop q)
    (hq : q ≠ q') (h : Path A q st w q') : ∃ x w', w = x :: w' ∧ Path A r st w' q' := by
  have hm : ∀ e, e ∈ A.edges → e.src = q → e = ⟨q, r, 9, a, b, c⟩ := by
    intro e h1 h2
    have := mem_out.2 ⟨h1, h2⟩
    rw [ho] at this
    simpa using this
  cases h with
  | done => exact absurd rfl hq
  | eps e h1 h2 h3 h4 h5 => rw [hm e h1 h2] at h3; simp at h3
  | call e h1 h2 h3 => rw [hm e h1 h2] at h3; simp at h3
  | ret h1 => exact absurd h1 hs
  | atom y e h1 h2 h3 h4 h5 h6 => rw [hm e h1 h2] at h3; simp at h3
  | any y e h1 h2 h3 h4 h5 => rw [hm e h1 h2] at h4; simp at h4; subst h4; exact ⟨y, _, rfl, h5⟩

theorem inv_end {A : Atn} {q q' : Nat} {w : List Nat} (ho : A.out q = []) (h : Path A q [] w q') : w = [] ∧ q' = q := by
  have hm : ∀ e, e ∈ A.edges → e.src = q → False := by
    intro e h1 h2
    have := mem_out.2 ⟨h1, h2⟩
    rw [ho] at this
    simp at this
  cases h with
  | done => exact ⟨rfl, rfl⟩
  | eps e h1 h2 => exact absurd (hm e h1 h2) id
  | call e h1 h2 => exact absurd (hm e h1 h2) id
  | atom y e h1 h2 => exact absurd (hm e h1 h2) id
  | any y e h1 h2 => exact absurd (hm e h1 h2) id

/-! ## The lexer -/

theorem char_of_nat {c : Char} {n : Nat} (d : Char) (hd : d.toNat = n) (h : c.toNat = n) : c = d := by
  rw [← Char.ofNat_toNat c, h, ← hd, Char.ofNat_toNat]

theorem map_single {w : List Char} {x : Nat} (h : w.map Char.toNat = [x]) : ∃ c, w = [c] ∧ c.toNat = x := by
  cases w with
  | nil => simp at h
  | cons c r =>
    cases r with
    | nil => exact ⟨c, rfl, by simpa using h⟩
    | cons d r => simp at h

theorem lexAccepts_iff (i : Nat) (w : List Char) :
    LexAccepts i w ↔ (i = 0 ∧ w = ['\\']) ∨ (i = 1 ∧ w = [' ']) ∨ (i = 2 ∧ ∃ c, w = [c]) := by
  constructor
  · rintro ⟨s, t, q, hr, hq, hp⟩
    match i, hr with
    | 0, hr =>
      simp [lexer_decoded] at hr
      obtain ⟨rfl, rfl⟩ := hr
      have hne : ∀ k, ¬ lexerAtn.isStop k → k ≠ q := by rintro k hk rfl; exact hk hq
      have p1 := inv_eps (r := 7) (a := 0) (b := 0) (c := 0) (by rw [lexer_decoded]; decide) (by rw [lexer_decoded]; simp [Atn.isStop]) (hne _ (by rw [lexer_decoded]; simp [Atn.isStop])) hp
      obtain ⟨w', e, p2⟩ := inv_atom (r := 8) (x := 92) (b := 0) (c := 0) (by rw [lexer_decoded]; decide) (by rw [lexer_decoded]; simp [Atn.isStop]) (hne _ (by rw [lexer_decoded]; simp [Atn.isStop])) p1
      have p3 := inv_eps (r := 2) (a := 0) (b := 0) (c := 0) (by rw [lexer_decoded]; decide) (by rw [lexer_decoded]; simp [Atn.isStop]) (hne _ (by rw [lexer_decoded]; simp [Atn.isStop])) p2
      obtain ⟨rfl, -⟩ := inv_end (by rw [lexer_decoded]; decide) p3
      obtain ⟨c, rfl, e'⟩ := map_single e
      left; exact ⟨rfl, by rw [char_of_nat '\\' (by decide) e']⟩
    | 1, hr =>
      simp [lexer_decoded] at hr
      obtain ⟨rfl, rfl⟩ := hr
      have hne : ∀ k, ¬ lexerAtn.isStop k → k ≠ q := by rintro k hk rfl; exact hk hq
      have p1 := inv_eps (r := 9) (a := 0) (b := 0) (c := 0) (by rw [lexer_decoded]; decide) (by rw [lexer_decoded]; simp [Atn.isStop]) (hne _ (by rw [lexer_decoded]; simp [Atn.isStop])) hp
      obtain ⟨w', e, p2⟩ := inv_atom (r := 10) (x := 32) (b := 0) (c := 0) (by rw [lexer_decoded]; decide) (by rw [lexer_decoded]; simp [Atn.isStop]) (hne _ (by rw [lexer_decoded]; simp [Atn.isStop])) p1
      have p3 := inv_eps (r := 4) (a := 0) (b := 0) (c := 0) (by rw [lexer_decoded]; decide) (by rw [lexer_decoded]; simp [Atn.isStop]) (hne _ (by rw [lexer_decoded]; simp [Atn.isStop])) p2
      obtain ⟨rfl, -⟩ := inv_end (by rw [lexer_decoded]; decide) p3
      obtain ⟨c, rfl, e'⟩ := map_single e
      right; left; exact ⟨rfl, by rw [char_of_nat ' ' (by decide) e']⟩
    | 2, hr =>
      simp [lexer_decoded] at hr
      obtain ⟨rfl, rfl⟩ := hr
      have hne : ∀ k, ¬ lexerAtn.isStop k → k ≠ q := by rintro k hk rfl; exact hk hq
      have p1 := inv_eps (r := 11) (a := 0) (b := 0) (c := 0) (by rw [lexer_decoded]; decide) (by rw [lexer_decoded]; simp [Atn.isStop]) (hne _ (by rw [lexer_decoded]; simp [Atn.isStop])) hp
      obtain ⟨x, w', e, p2⟩ := inv_any (r := 12) (a := 0) (b := 0) (c := 0) (by rw [lexer_decoded]; decide) (by rw [lexer_decoded]; simp [Atn.isStop]) (hne _ (by rw [lexer_decoded]; simp [Atn.isStop])) p1
      have p3 := inv_eps (r := 6) (a := 0) (b := 0) (c := 0) (by rw [lexer_decoded]; decide) (by rw [lexer_decoded]; simp [Atn.isStop]) (hne _ (by rw [lexer_decoded]; simp [Atn.isStop])) p2
      obtain ⟨rfl, -⟩ := inv_end (by rw [lexer_decoded]; decide) p3
      obtain ⟨c, rfl, e'⟩ := map_single e
      right; right; exact ⟨rfl, c, rfl⟩
    | i + 3, hr => simp [lexer_decoded] at hr
  · rintro (⟨rfl, rfl⟩ | ⟨rfl, rfl⟩ | ⟨rfl, c, rfl⟩)
    · refine ⟨1, 1, 2, by rw [lexer_decoded]; rfl, by rw [lexer_decoded]; rfl, ?_⟩
      refine .eps (r := 7) ⟨1, 7, 1, 0, 0, 0⟩ (by rw [lexer_decoded]; decide) rfl rfl rfl ?_
      refine .atom (r := 8) _ ⟨7, 8, 5, 92, 0, 0⟩ (by rw [lexer_decoded]; decide) rfl rfl rfl rfl ?_
      exact .eps (r := 2) ⟨8, 2, 1, 0, 0, 0⟩ (by rw [lexer_decoded]; decide) rfl rfl rfl .done
    · refine ⟨3, 2, 4, by rw [lexer_decoded]; rfl, by rw [lexer_decoded]; rfl, ?_⟩
      refine .eps (r := 9) ⟨3, 9, 1, 0, 0, 0⟩ (by rw [lexer_decoded]; decide) rfl rfl rfl ?_
      refine .atom (r := 10) _ ⟨9, 10, 5, 32, 0, 0⟩ (by rw [lexer_decoded]; decide) rfl rfl rfl rfl ?_
      exact .eps (r := 4) ⟨10, 4, 1, 0, 0, 0⟩ (by rw [lexer_decoded]; decide) rfl rfl rfl .done
    · refine ⟨5, 3, 6, by rw [lexer_decoded]; rfl, by rw [lexer_decoded]; rfl, ?_⟩
      refine .eps (r := 11) ⟨5, 11, 1, 0, 0, 0⟩ (by rw [lexer_decoded]; decide) rfl rfl rfl ?_
      refine .any (r := 12) _ ⟨11, 12, 9, 0, 0, 0⟩ (by rw [lexer_decoded]; decide) rfl rfl rfl ?_
      exact .eps (r := 6) ⟨12, 6, 1, 0, 0, 0⟩ (by rw [lexer_decoded]; decide) rfl rfl rfl .done

/-- The token type of a character. -/
def typ (c : Char) : Nat := if c = '\\' then 1 else if c = ' ' then 2 else 3

theorem lexer_step {lexer : List Char → Nat × Nat} (h : LexContract lexer) (c : Char) (r : List Char) :
    lexer (c :: r) = (typ c - 1, 1) := by
  obtain ⟨h1, h2, h3, h4, h5⟩ := h (c :: r) ⟨2, 1, by simp, by omega, (lexAccepts_iff _ _).2 (by simp)⟩
  have hk : (lexer (c :: r)).2 = 1 := by
    rcases (lexAccepts_iff _ _).1 h3 with ⟨-, e⟩ | ⟨-, e⟩ | ⟨-, d, e⟩
    all_goals
      have := congrArg List.length e
      simp at this h1
      omega
  rw [hk] at h3 h5
  simp only [List.take_succ_cons, List.take_zero] at h3 h5
  have hi : (lexer (c :: r)).1 = typ c - 1 := by
    rcases (lexAccepts_iff _ _).1 h3 with ⟨e1, e⟩ | ⟨e1, e⟩ | ⟨e1, d, e⟩
    · simp at e; subst e; rw [e1]; rfl
    · simp at e; subst e; rw [e1]; rfl
    · have n1 : c ≠ '\\' := by
        rintro rfl; have := h5 0 ((lexAccepts_iff _ _).2 (by simp)); omega
      have n2 : c ≠ ' ' := by
        rintro rfl; have := h5 1 ((lexAccepts_iff _ _).2 (by simp)); omega
      rw [e1]; simp [typ, n1, n2]
  exact Prod.ext hi hk

/-- The tokens of a line: one per character. -/
def toks (l : List Char) : List Token := l.map fun c => ⟨typ c, [c]⟩

theorem tokens_eq {lexer : List Char → Nat × Nat} (h : LexContract lexer) (l : List Char) : tokens lexer l = toks l := by
  induction l with
  | nil => rw [tokens]; rfl
  | cons c r ih =>
    rw [tokens, lexer_step h]
    simp only [Nat.one_ne_zero, if_false, List.drop_succ_cons, List.drop_zero, ih, toks, List.map_cons, List.take_succ_cons,
      List.take_zero]
    congr 1
    rw [lexer_decoded]
    unfold typ
    split
    · rfl
    · split <;> rfl

/-! ## The predictions -/

/-- The states in which the rules around a character can have been called: for a command or a parameter. -/
def Around (inv : List Nat) : Prop := inv = [24, 20, 12] ∨ inv = [24, 22, 14]

set_option maxRecDepth 20000 in
theorem follow_around : follow 26 = 28 ∧ follow 24 = 25 ∧ follow 20 = 21 ∧ follow 12 = 17 ∧ follow 22 = 23 ∧ follow 14 = 16 := by
  unfold follow
  rw [parser_decoded]
  decide

macro "edge" : tactic => `(tactic| (rw [parser_decoded]; decide))
macro "stop" : tactic => `(tactic| (rw [parser_decoded]; rfl))
macro "nostop" : tactic => `(tactic| (rw [parser_decoded]; simp [Atn.isStop]))

/-- Out of a word: back to the loop of the line. -/
theorem leave {st w : List Nat} (hst : st = [25, 21, 17] ∨ st = [25, 23, 16])
    (h : Path deserializedATN 17 [] w 1) : Path deserializedATN 29 st w 1 := by
  rcases hst with rfl | rfl
  · refine .eps (r := 30) ⟨29, 30, 1, 0, 0, 0⟩ (by edge) rfl rfl rfl ?_
    refine .eps (r := 9) ⟨30, 9, 1, 0, 0, 0⟩ (by edge) rfl rfl rfl (.ret (by stop) ?_)
    refine .eps (r := 7) ⟨25, 7, 1, 0, 0, 0⟩ (by edge) rfl rfl rfl (.ret (by stop) ?_)
    exact .eps (r := 3) ⟨21, 3, 1, 0, 0, 0⟩ (by edge) rfl rfl rfl (.ret (by stop) h)
  · refine .eps (r := 30) ⟨29, 30, 1, 0, 0, 0⟩ (by edge) rfl rfl rfl ?_
    refine .eps (r := 9) ⟨30, 9, 1, 0, 0, 0⟩ (by edge) rfl rfl rfl (.ret (by stop) ?_)
    refine .eps (r := 7) ⟨25, 7, 1, 0, 0, 0⟩ (by edge) rfl rfl rfl (.ret (by stop) ?_)
    refine .eps (r := 5) ⟨23, 5, 1, 0, 0, 0⟩ (by edge) rfl rfl rfl (.ret (by stop) ?_)
    refine .eps (r := 19) ⟨16, 19, 1, 0, 0, 0⟩ (by edge) rfl rfl rfl ?_
    exact .eps (r := 17) ⟨19, 17, 1, 0, 0, 0⟩ (by edge) rfl rfl rfl h

/-- After a character: back to the loop of the word. -/
theorem afterChar {st w : List Nat} (h : Path deserializedATN 29 st w 1) : Path deserializedATN 39 (28 :: st) w 1 := by
  refine .eps (r := 11) ⟨39, 11, 1, 0, 0, 0⟩ (by edge) rfl rfl rfl (.ret (by stop) ?_)
  refine .eps (r := 31) ⟨28, 31, 1, 0, 0, 0⟩ (by edge) rfl rfl rfl ?_
  exact .eps (r := 29) ⟨31, 29, 1, 0, 0, 0⟩ (by edge) rfl rfl rfl h

/-- Every sequence of tokens can be read from within a word. -/
theorem reads_all : ∀ (w : List Nat), (∀ x ∈ w, x = 1 ∨ x = 2 ∨ x = 3) → ∀ st, st = [25, 21, 17] ∨ st = [25, 23, 16] →
    Path deserializedATN 29 st w 1 := by
  intro w
  induction w with
  | nil =>
    intro _ st hst
    refine leave hst (.eps (r := 18) ⟨17, 18, 1, 0, 0, 0⟩ (by edge) rfl rfl rfl ?_)
    exact .eps (r := 1) ⟨18, 1, 1, 0, 0, 0⟩ (by edge) rfl rfl rfl .done
  | cons x w ih =>
    intro hx st hst
    have ih := ih (fun y hy => hx y (by simp [hy]))
    rcases hx x (by simp) with rfl | rfl | rfl
    · refine .eps (r := 27) ⟨29, 27, 1, 0, 0, 0⟩ (by edge) rfl rfl rfl ?_
      refine .eps (r := 26) ⟨27, 26, 1, 0, 0, 0⟩ (by edge) rfl rfl rfl ?_
      refine .call (r := 10) ⟨26, 28, 3, 10, 5, 0⟩ (by edge) rfl rfl rfl ?_
      refine .eps (r := 38) ⟨10, 38, 1, 0, 0, 0⟩ (by edge) rfl rfl rfl ?_
      refine .eps (r := 37) ⟨38, 37, 1, 0, 0, 0⟩ (by edge) rfl rfl rfl ?_
      exact .atom (r := 39) _ ⟨37, 39, 5, 1, 0, 0⟩ (by edge) rfl rfl rfl rfl (afterChar (ih st hst))
    · refine leave hst (.eps (r := 15) ⟨17, 15, 1, 0, 0, 0⟩ (by edge) rfl rfl rfl ?_)
      refine .eps (r := 13) ⟨15, 13, 1, 0, 0, 0⟩ (by edge) rfl rfl rfl ?_
      refine .atom (r := 14) _ ⟨13, 14, 5, 2, 0, 0⟩ (by edge) rfl rfl rfl rfl ?_
      refine .call (r := 4) ⟨14, 16, 3, 4, 2, 0⟩ (by edge) rfl rfl rfl ?_
      refine .eps (r := 22) ⟨4, 22, 1, 0, 0, 0⟩ (by edge) rfl rfl rfl ?_
      refine .call (r := 6) ⟨22, 23, 3, 6, 3, 0⟩ (by edge) rfl rfl rfl ?_
      refine .eps (r := 24) ⟨6, 24, 1, 0, 0, 0⟩ (by edge) rfl rfl rfl ?_
      refine .call (r := 8) ⟨24, 25, 3, 8, 4, 0⟩ (by edge) rfl rfl rfl ?_
      exact .eps (r := 29) ⟨8, 29, 1, 0, 0, 0⟩ (by edge) rfl rfl rfl (ih _ (Or.inr rfl))
    · refine .eps (r := 27) ⟨29, 27, 1, 0, 0, 0⟩ (by edge) rfl rfl rfl ?_
      refine .eps (r := 26) ⟨27, 26, 1, 0, 0, 0⟩ (by edge) rfl rfl rfl ?_
      refine .call (r := 10) ⟨26, 28, 3, 10, 5, 0⟩ (by edge) rfl rfl rfl ?_
      refine .eps (r := 38) ⟨10, 38, 1, 0, 0, 0⟩ (by edge) rfl rfl rfl ?_
      refine .eps (r := 32) ⟨38, 32, 1, 0, 0, 0⟩ (by edge) rfl rfl rfl ?_
      exact .atom (r := 39) _ ⟨32, 39, 5, 3, 0, 0⟩ (by edge) rfl rfl rfl rfl (afterChar (ih st hst))

/-- Which alternatives of `character` are viable. -/
theorem viable_iff {inv w : List Nat} {i : Nat} (hi : Around inv) (hw : ∀ x ∈ w, x = 1 ∨ x = 2 ∨ x = 3) :
    Viable 2 (26 :: inv) w i ↔ (i = 1 ∧ ∃ v, w = 3 :: v) ∨ (i = 2 ∧ ∃ v, w = 1 :: 2 :: v) ∨ (i = 3 ∧ ∃ v, w = 1 :: 1 :: v) ∨
      (i = 4 ∧ ∃ v, w = 1 :: v) := by
  obtain ⟨f1, f2, f3, f4, f5, f6⟩ := follow_around
  have hst : ∃ st, (26 :: inv).map follow = 28 :: st ∧ (st = [25, 21, 17] ∨ st = [25, 23, 16]) := by
    rcases hi with rfl | rfl
    · exact ⟨_, by simp [f1]; rfl, by simp [f2, f3, f4]⟩
    · exact ⟨_, by simp [f1]; rfl, by simp [f2, f5, f6]⟩
  obtain ⟨st, hst, hst'⟩ := hst
  have hd : deserializedATN.decisions[2]? = some 38 := by rw [parser_decoded]; rfl
  have ho : deserializedATN.edges.filter (fun e => e.src == 38) =
      [⟨38, 32, 1, 0, 0, 0⟩, ⟨38, 33, 1, 0, 0, 0⟩, ⟨38, 35, 1, 0, 0, 0⟩, ⟨38, 37, 1, 0, 0, 0⟩] := by
    rw [parser_decoded]; decide
  have all : ∀ v : List Nat, (∀ x ∈ v, x = 1 ∨ x = 2 ∨ x = 3) → Path deserializedATN 39 (28 :: st) v 1 :=
    fun v hv => afterChar (reads_all v hv st hst')
  constructor
  · rintro ⟨q, e, h1, h2, h3, h4⟩
    rw [hd] at h1; simp at h1; subst h1
    rw [ho] at h2
    rw [hst] at h4
    obtain ⟨j, rfl⟩ : ∃ j, i = j + 1 := ⟨i - 1, by omega⟩
    simp only [Nat.add_sub_cancel] at h2
    match j, h2 with
    | 0, h2 =>
      simp at h2; subst h2
      obtain ⟨v, e, -⟩ := inv_atom (r := 39) (x := 3) (b := 0) (c := 0) (by edge) (by nostop) (by simp) h4
      exact Or.inl ⟨rfl, v, e⟩
    | 1, h2 =>
      simp at h2; subst h2
      obtain ⟨v, e, p⟩ := inv_atom (r := 34) (x := 1) (b := 0) (c := 0) (by edge) (by nostop) (by simp) h4
      obtain ⟨v', e', -⟩ := inv_atom (r := 39) (x := 2) (b := 0) (c := 0) (by edge) (by nostop) (by simp) p
      exact Or.inr (Or.inl ⟨rfl, v', by rw [e, e']⟩)
    | 2, h2 =>
      simp at h2; subst h2
      obtain ⟨v, e, p⟩ := inv_atom (r := 36) (x := 1) (b := 0) (c := 0) (by edge) (by nostop) (by simp) h4
      obtain ⟨v', e', -⟩ := inv_atom (r := 39) (x := 1) (b := 0) (c := 0) (by edge) (by nostop) (by simp) p
      exact Or.inr (Or.inr (Or.inl ⟨rfl, v', by rw [e, e']⟩))
    | 3, h2 =>
      simp at h2; subst h2
      obtain ⟨v, e, -⟩ := inv_atom (r := 39) (x := 1) (b := 0) (c := 0) (by edge) (by nostop) (by simp) h4
      exact Or.inr (Or.inr (Or.inr ⟨rfl, v, e⟩))
    | j + 4, h2 => simp at h2
  · rintro (⟨rfl, v, rfl⟩ | ⟨rfl, v, rfl⟩ | ⟨rfl, v, rfl⟩ | ⟨rfl, v, rfl⟩)
    · refine ⟨38, _, hd, by rw [ho]; rfl, by omega, ?_⟩
      rw [hst]
      exact .atom (r := 39) _ ⟨32, 39, 5, 3, 0, 0⟩ (by edge) rfl rfl rfl rfl (all v (fun x hx => hw x (by simp [hx])))
    · refine ⟨38, _, hd, by rw [ho]; rfl, by omega, ?_⟩
      rw [hst]
      refine .atom (r := 34) _ ⟨33, 34, 5, 1, 0, 0⟩ (by edge) rfl rfl rfl rfl ?_
      exact .atom (r := 39) _ ⟨34, 39, 5, 2, 0, 0⟩ (by edge) rfl rfl rfl rfl (all v (fun x hx => hw x (by simp [hx])))
    · refine ⟨38, _, hd, by rw [ho]; rfl, by omega, ?_⟩
      rw [hst]
      refine .atom (r := 36) _ ⟨35, 36, 5, 1, 0, 0⟩ (by edge) rfl rfl rfl rfl ?_
      exact .atom (r := 39) _ ⟨36, 39, 5, 1, 0, 0⟩ (by edge) rfl rfl rfl rfl (all v (fun x hx => hw x (by simp [hx])))
    · refine ⟨38, _, hd, by rw [ho]; rfl, by omega, ?_⟩
      rw [hst]
      exact .atom (r := 39) _ ⟨37, 39, 5, 1, 0, 0⟩ (by edge) rfl rfl rfl rfl (all v (fun x hx => hw x (by simp [hx])))

/-! ## The parser -/

theorem typs_ok (l : List Char) : ∀ x ∈ (toks l).map (·.typ), x = 1 ∨ x = 2 ∨ x = 3 := by
  intro x hx
  simp only [toks, List.map_map, List.mem_map, Function.comp] at hx
  obtain ⟨c, -, rfl⟩ := hx
  unfold typ
  split
  · simp
  · split <;> simp

theorem predict_eq {predict : Nat → List Nat → List Nat → Nat} (hp : PredictContract predict) {inv : List Nat}
    (l : List Char) {k : Nat} (hk : Viable 2 (26 :: inv) ((toks l).map (·.typ)) k)
    (hm : ∀ j, Viable 2 (26 :: inv) ((toks l).map (·.typ)) j → k ≤ j) :
    predict 2 (26 :: inv) ((toks l).map (·.typ)) = k := by
  obtain ⟨h1, h2⟩ := hp 2 (26 :: inv) _ ⟨k, hk⟩
  have := h2 k hk
  have := hm _ h1
  omega

theorem toks_cons (c : Char) (l : List Char) : toks (c :: l) = ⟨typ c, [c]⟩ :: toks l := rfl

theorem typ_bs : typ '\\' = 1 := rfl
theorem typ_sp : typ ' ' = 2 := rfl
theorem typ_plain {c : Char} (h1 : c ≠ ' ') (h2 : c ≠ '\\') : typ c = 3 := by simp [typ, h1, h2]

theorem character_plain {predict : Nat → List Nat → List Nat → Nat} (hp : PredictContract predict) {inv : List Nat}
    (hi : Around inv) {c : Char} (h1 : c ≠ ' ') (h2 : c ≠ '\\') (l : List Char) (n : Nat) :
    character predict (26 :: inv) ⟨toks (c :: l), n⟩ = some (⟨[⟨3, [c]⟩]⟩, ⟨toks l, n + 1⟩) := by
  have := predict_eq hp (c :: l) (k := 1)
    ((viable_iff hi (typs_ok _)).2 (by left; exact ⟨rfl, (toks l).map (·.typ), by simp [toks_cons, typ_plain h1 h2]⟩))
    (fun j hj => by rcases (viable_iff hi (typs_ok _)).1 hj with h | h | h | h <;> omega)
  unfold character
  simp only [this]
  simp [PS.mtch, toks_cons, typ_plain h1 h2]

theorem character_space {predict : Nat → List Nat → List Nat → Nat} (hp : PredictContract predict) {inv : List Nat}
    (hi : Around inv) (l : List Char) (n : Nat) :
    character predict (26 :: inv) ⟨toks ('\\' :: ' ' :: l), n⟩ = some (⟨[⟨1, ['\\']⟩, ⟨2, [' ']⟩]⟩, ⟨toks l, n + 2⟩) := by
  have := predict_eq hp ('\\' :: ' ' :: l) (k := 2)
    ((viable_iff hi (typs_ok _)).2 (by right; left; exact ⟨rfl, (toks l).map (·.typ), by simp [toks_cons, typ_bs, typ_sp]⟩))
    (fun j hj => by
      rcases (viable_iff hi (typs_ok _)).1 hj with ⟨_, v, h⟩ | h | h | h
      · simp [toks_cons, typ_bs, typ_sp] at h
      all_goals omega)
  unfold character
  simp only [this]
  simp [PS.mtch, toks_cons, typ_bs, typ_sp]

theorem character_bs {predict : Nat → List Nat → List Nat → Nat} (hp : PredictContract predict) {inv : List Nat}
    (hi : Around inv) (l : List Char) (n : Nat) :
    character predict (26 :: inv) ⟨toks ('\\' :: '\\' :: l), n⟩ = some (⟨[⟨1, ['\\']⟩, ⟨1, ['\\']⟩]⟩, ⟨toks l, n + 2⟩) := by
  have := predict_eq hp ('\\' :: '\\' :: l) (k := 3)
    ((viable_iff hi (typs_ok _)).2 (by right; right; left; exact ⟨rfl, (toks l).map (·.typ), by simp [toks_cons, typ_bs, typ_sp]⟩))
    (fun j hj => by
      rcases (viable_iff hi (typs_ok _)).1 hj with ⟨_, v, h⟩ | ⟨_, v, h⟩ | h | h
      · simp [toks_cons, typ_bs, typ_sp] at h
      · simp [toks_cons, typ_bs, typ_sp] at h
      all_goals omega)
  unfold character
  simp only [this]
  simp [PS.mtch, toks_cons, typ_bs, typ_sp]

theorem character_lone {predict : Nat → List Nat → List Nat → Nat} (hp : PredictContract predict) {inv : List Nat}
    (hi : Around inv) (l : List Char) (n : Nat) (hl : ∀ c r, l = c :: r → c ≠ ' ' ∧ c ≠ '\\') :
    character predict (26 :: inv) ⟨toks ('\\' :: l), n⟩ = some (⟨[⟨1, ['\\']⟩]⟩, ⟨toks l, n + 1⟩) := by
  have nx : ∀ t v, (toks ('\\' :: l)).map (·.typ) = 1 :: t :: v → t = 3 := by
    intro t v h
    cases l with
    | nil => simp [toks_cons, toks] at h
    | cons c r =>
      obtain ⟨h1, h2⟩ := hl c r rfl
      simp [toks_cons, typ_plain h1 h2] at h
      omega
  have := predict_eq hp ('\\' :: l) (k := 4)
    ((viable_iff hi (typs_ok _)).2 (by right; right; right; exact ⟨rfl, (toks l).map (·.typ), by simp [toks_cons, typ_bs, typ_sp]⟩))
    (fun j hj => by
      rcases (viable_iff hi (typs_ok _)).1 hj with ⟨_, v, h⟩ | ⟨_, v, h⟩ | ⟨_, v, h⟩ | h
      · simp [toks_cons, typ_bs, typ_sp] at h
      · have := nx _ _ h; omega
      · have := nx _ _ h; omega
      all_goals omega)
  unfold character
  simp only [this]
  simp [PS.mtch, toks_cons, typ_bs, typ_sp]

/-- The text of a word: that of its tokens. -/
def CommandStringCtx.text (c : CommandStringCtx) : List Char :=
  c.child.children.flatMap fun x => x.children.flatMap (·.text)

/-- The text of a tree: that of all its tokens, in order. -/
def LineCtx.text (t : LineCtx) : List Char := t.command.text ++ t.params.flatMap (fun c => ' ' :: c.text)

/-- What the listener makes of the characters of a word. -/
def RawStringCtx.value (r : RawStringCtx) : List Char :=
  r.children.filterMap fun x => ((x.children.flatMap (·.text)).getLast?).map lastByte

/-- The rest of a line after its first word: nothing, or a space and more. -/
def Ends (l l' : List Char) : Prop :=
  (l' = [] ∧ (split l).2 = []) ∨ ∃ m, l' = ' ' :: m ∧ (split l).2 = (split m).1 :: (split m).2

/-- What `RawString` does on a line: one word. -/
def Good (predict : Nat → List Nat → List Nat → Nat) (inv : List Nat) (l : List Char) : Prop :=
  ∀ n, ∃ r l', rawString predict inv ⟨toks l, n⟩ = some (r, ⟨toks l', n + (l.length - l'.length)⟩) ∧
    l'.length ≤ l.length ∧ r.value = (split l).1 ∧ Ends l l' ∧
    r.children.flatMap (fun x => x.children.flatMap (·.text)) ++ l' = l

theorem good_step {predict : Nat → List Nat → List Nat → Nat} {inv : List Nat} {l m : List Char} {x : CharacterCtx}
    {k : Nat} {v : Char} (hc : ∀ n, character predict (26 :: inv) ⟨toks l, n⟩ = some (x, ⟨toks m, n + k⟩))
    (hl : l.length = m.length + k) (hk : 0 < k) (h1 : ∀ c r, l = c :: r → c ≠ ' ')
    (hs : split l = (v :: (split m).1, (split m).2)) (hv : ((x.children.flatMap (·.text)).getLast?).map lastByte = some v)
    (ht : x.children.flatMap (·.text) ++ m = l) (ih : Good predict inv m) : Good predict inv l := by
  intro n
  obtain ⟨r, l', e1, e2, e3, e4, e5⟩ := ih (n + k)
  refine ⟨⟨x :: r.children⟩, l', ?_, by omega, ?_, ?_, ?_⟩
  · rw [rawString]
    have hla : (⟨toks l, n⟩ : PS).la = some 1 ∨ (⟨toks l, n⟩ : PS).la = some 3 := by
      cases l with
      | nil => simp at hl; omega
      | cons c r =>
        have := h1 c r rfl
        simp only [PS.la, toks_cons, List.head?_cons, Option.map_some, typ, this]
        split <;> simp
    have hlen : (toks m).length < (toks l).length := by simp [toks]; omega
    simp only [hla, if_true, hc, hlen, e1]
    have : n + k + (m.length - l'.length) = n + (l.length - l'.length) := by omega
    rw [this]
  · rw [hs, ← e3]
    simp [RawStringCtx.value, hv]
  · rcases e4 with ⟨e, e'⟩ | ⟨p, e, e'⟩
    · exact Or.inl ⟨e, by rw [hs]; exact e'⟩
    · exact Or.inr ⟨p, e, by rw [hs]; exact e'⟩
  · rw [List.flatMap_cons, List.append_assoc, e5, ht]

theorem rawString_eq {predict : Nat → List Nat → List Nat → Nat} (hp : PredictContract predict) {inv : List Nat}
    (hi : Around inv) (l : List Char) : Good predict inv l := by
  have h0 : Good predict inv [] := by
    intro n
    refine ⟨⟨[]⟩, [], ?_, by simp, by simp [RawStringCtx.value, split_nil], Or.inl ⟨rfl, by rw [split_nil]⟩, rfl⟩
    rw [rawString]; simp [PS.la, toks]
  have lb : lastByte '\\' = '\\' := by decide
  have lb' : lastByte ' ' = ' ' := by decide
  refine line_cases (Good predict inv) h0 ?_ ?_ ?_ ?_ ?_ ?_ l
  · intro r _ n
    refine ⟨⟨[]⟩, ' ' :: r, ?_, by simp, by simp [RawStringCtx.value, split_sep], Or.inr ⟨r, rfl, by rw [split_sep]⟩, rfl⟩
    rw [rawString]; simp [PS.la, toks_cons, typ_sp]
  · intro r ih
    exact good_step (k := 2) (v := ' ') (fun n => character_space hp hi r n) (by simp) (by omega) (by simp)
      (split_esc r) (by simp [lb']) (by simp) ih
  · intro r ih
    exact good_step (k := 2) (v := '\\') (fun n => character_bs hp hi r n) (by simp) (by omega) (by simp)
      (split_bs r) (by simp [lb]) (by simp) ih
  · exact good_step (k := 1) (v := '\\') (fun n => character_lone hp hi [] n (by simp)) (by simp) (by omega) (by simp)
      (by rw [split_lone_end, split_nil]) (by simp [lb]) (by simp) h0
  · intro d r h1 h2 ih _
    exact good_step (k := 1) (v := '\\') (fun n => character_lone hp hi (d :: r) n (by rintro c r' h; simp at h; obtain ⟨rfl, -⟩ := h; exact ⟨h1, h2⟩))
      (by simp) (by omega) (by simp) (split_lone r h1 h2) (by simp [lb]) (by simp) ih
  · intro c r h1 h2 ih
    exact good_step (k := 1) (v := lastByte c) (fun n => character_plain hp hi h1 h2 r n) (by simp) (by omega)
      (by rintro c' r' h; simp at h; obtain ⟨rfl, -⟩ := h; exact h1) (split_plain r h1 h2) (by simp) (by simp) ih

theorem lineLoop_eq {predict : Nat → List Nat → List Nat → Nat} (hp : PredictContract predict) : ∀ (k : Nat) (l : List Char),
    l.length ≤ k → (∀ c r, l = c :: r → c = ' ') → ∀ n, ∃ cs j, lineLoop predict ⟨toks l, n⟩ = some (cs, ⟨[], j⟩) ∧
      cs.map (·.child.value) = (match l with | [] => [] | _ :: m => (split m).1 :: (split m).2) ∧
      cs.flatMap (fun c => ' ' :: c.text) = l := by
  intro k
  induction k with
  | zero =>
    intro l hl _ n
    have : l = [] := by simpa using hl
    subst this
    exact ⟨[], n, by rw [lineLoop]; simp [PS.la, toks], rfl, rfl⟩
  | succ k ih =>
    intro l hl hsp n
    cases l with
    | nil => exact ⟨[], n, by rw [lineLoop]; simp [PS.la, toks], rfl, rfl⟩
    | cons c m =>
      have := hsp c m rfl
      subst this
      obtain ⟨r, l', e1, e2, e3, e4, e5⟩ := rawString_eq hp (inv := [24, 22, 14]) (Or.inr rfl) m (n + 1)
      simp at hl
      have hsp' : ∀ c r, l' = c :: r → c = ' ' := by
        rcases e4 with ⟨rfl, -⟩ | ⟨p, rfl, -⟩
        · simp
        · rintro c r h; simp at h; exact h.1.symm
      obtain ⟨cs, j, f1, f2, f3⟩ := ih l' (by omega) hsp' (n + 1 + (m.length - l'.length))
      refine ⟨⟨if n + 1 + (m.length - l'.length) = 0 then -1 else ((n + 1 : Nat) : Int), r⟩ :: cs, j, ?_, ?_, ?_⟩
      · rw [lineLoop]
        have hlen : (toks l').length < (toks (' ' :: m)).length := by simp [toks]; omega
        have hla : (⟨toks (' ' :: m), n⟩ : PS).la = some 2 := by simp [PS.la, toks_cons, typ_sp]
        have hm : (⟨toks (' ' :: m), n⟩ : PS).mtch 2 = some (⟨2, [' ']⟩, ⟨toks m, n + 1⟩) := by
          simp [PS.mtch, toks_cons, typ_sp]
        simp only [hla, if_true, hm, parameter, commandString, e1, hlen, f1]
      · simp only [List.map_cons, f2, e3]
        rcases e4 with ⟨rfl, e⟩ | ⟨p, rfl, e⟩
        · simp [e]
        · simp [e]
      · rw [List.flatMap_cons, f3]
        simp [CommandStringCtx.text, e5]

theorem lineRule_eq {predict : Nat → List Nat → List Nat → Nat} (hp : PredictContract predict) (l : List Char) :
    ∃ t j, lineRule predict ⟨toks l, 0⟩ = some (t, ⟨[], j⟩) ∧ t.command.child.value = (split l).1 ∧
      t.params.map (·.child.value) = (split l).2 ∧ t.text = l := by
  obtain ⟨r, l', e1, e2, e3, e4, e5⟩ := rawString_eq hp (inv := [24, 20, 12]) (Or.inl rfl) l 0
  have hsp' : ∀ c r, l' = c :: r → c = ' ' := by
    rcases e4 with ⟨rfl, -⟩ | ⟨p, rfl, -⟩
    · simp
    · rintro c r h; simp at h; exact h.1.symm
  obtain ⟨cs, j, f1, f2, f3⟩ := lineLoop_eq hp l'.length l' (Nat.le_refl _) hsp' (0 + (l.length - l'.length))
  refine ⟨⟨⟨if 0 + (l.length - l'.length) = 0 then -1 else ((0 : Nat) : Int), r⟩, cs⟩, j, ?_, e3, ?_, ?_⟩
  · simp only [lineRule, command, commandString, e1, f1]
  · simp only [f2]
    rcases e4 with ⟨rfl, e⟩ | ⟨p, rfl, e⟩
    · simp [e]
    · simp [e]
  · simp only [LineCtx.text, f3]
    simpa only [CommandStringCtx.text] using e5

/-! ## The listener -/

theorem walk_chars (cs : List CharacterCtx) : ∀ s : Listener, cs.foldl (fun s x => exitCharacter x s) s =
    { s with currentString := s.currentString ++ (RawStringCtx.mk cs).value } := by
  induction cs with
  | nil => intro s; simp [RawStringCtx.value]
  | cons x cs ih =>
    intro s
    rw [List.foldl_cons, ih]
    unfold exitCharacter RawStringCtx.value
    cases h : (x.children.flatMap (·.text)).getLast? <;> simp [h]

theorem walk_string (c : CommandStringCtx) (s : Listener) :
    (walkCommandString c s).cmd = s.cmd ∧ getString (walkCommandString c s) c.start = c.child.value := by
  unfold walkCommandString
  rw [walk_chars]
  simp [exitCommandString, enterCommandString, getString, List.lookup]

theorem walk_params (cs : List CommandStringCtx) : ∀ s : Listener,
    (cs.foldl (fun s c => exitParameter c (walkCommandString c s)) s).cmd =
      { s.cmd with parameters := s.cmd.parameters ++ (cs.map (·.child.value)).filter (fun p => !p.isEmpty) } := by
  induction cs with
  | nil => intro s; simp
  | cons c cs ih =>
    intro s
    rw [List.foldl_cons, ih]
    obtain ⟨h1, h2⟩ := walk_string c s
    unfold exitParameter
    rw [h2]
    by_cases h : c.child.value = []
    · simp [h, h1]
    · simp [h, h1]

/-! ## The property -/

/-- C98: whatever lexer and predictor of the ANTLR runtime with their contracts, the generated parser reads every line
without a syntax error and to its end, the tree it builds consists of exactly the characters of the line in order, and
`ParseCommand` returns what the direct description of the parser (`parse`, about which C35 to C37 and the properties of the
console speak) says. -/
theorem C98_reads_everything (lexer : List Char → Nat × Nat) (predict : Nat → List Nat → List Nat → Nat)
    (hl : LexContract lexer) (hp : PredictContract predict) (line : List Char) :
    (∃ t j, lineRule predict ⟨tokens lexer line, 0⟩ = some (t, ⟨[], j⟩) ∧ t.text = line) ∧
    parseCommand lexer predict line = some (parse line) := by
  obtain ⟨t, j, h1, h2, h3, h4⟩ := lineRule_eq hp line
  rw [tokens_eq hl]
  refine ⟨⟨t, j, h1, h4⟩, ?_⟩
  unfold parseCommand
  rw [tokens_eq hl, h1]
  simp only [walk, exitLine, walk_params, parse, Option.some.injEq]
  obtain ⟨w1, w2⟩ := walk_string t.command newShellListener
  simp only [exitCommand, w1, w2, h2, h3]
  simp [newShellListener]

/-- There are a lexer and a predictor with the contracts of C98. -/
theorem C98_contracts_met : ∃ lexer predict, LexContract lexer ∧ PredictContract predict := by
  have least : ∀ (P : Nat → Prop) (k : Nat), (∃ i, i ≤ k ∧ P i) → ∃ i, P i ∧ ∀ j, P j → i ≤ j := by
    intro P k
    induction k with
    | zero => rintro ⟨i, h, hi⟩; exact ⟨i, hi, fun j _ => by omega⟩
    | succ k ih =>
      rintro ⟨i, h, hi⟩
      by_cases hk : ∃ i, i ≤ k ∧ P i
      · exact ih hk
      · exact ⟨i, hi, fun j hj => by
          rcases Nat.lt_or_ge k j with h' | h'
          · omega
          · exact absurd ⟨j, h', hj⟩ hk⟩
  have h : ∀ x : Nat × List Nat × List Nat, ∃ i, (∃ i, Viable x.1 x.2.1 x.2.2 i) →
      Viable x.1 x.2.1 x.2.2 i ∧ ∀ j, Viable x.1 x.2.1 x.2.2 j → i ≤ j := by
    intro x
    by_cases hx : ∃ i, Viable x.1 x.2.1 x.2.2 i
    · obtain ⟨i, hi⟩ := hx
      obtain ⟨j, h1, h2⟩ := least _ i ⟨i, Nat.le_refl _, hi⟩
      exact ⟨j, fun _ => ⟨h1, h2⟩⟩
    · exact ⟨0, fun h => absurd h hx⟩
  refine ⟨fun l => match l with | c :: _ => (typ c - 1, 1) | [] => (0, 0), fun d inv w => Classical.choose (h (d, inv, w)),
    ?_, fun d inv w => Classical.choose_spec (h (d, inv, w))⟩
  rintro (_ | ⟨c, r⟩) ⟨i, k, h1, h2, h3⟩
  · simp at h1; omega
  · refine ⟨by simp, by simp, ?_, ?_, ?_⟩
    · rw [lexAccepts_iff]
      simp only [List.take_succ_cons, List.take_zero, typ]
      by_cases hb : c = '\\'
      · simp [hb]
      · by_cases hs : c = ' '
        · simp [hs]
        · simp [hb, hs]
    · intro i k hk hi
      rcases (lexAccepts_iff _ _).1 hi with ⟨-, e⟩ | ⟨-, e⟩ | ⟨-, d, e⟩
      all_goals
        have := congrArg List.length e
        simp at this hk ⊢
        omega
    · intro i hi
      simp only [List.take_succ_cons, List.take_zero, typ] at hi ⊢
      rcases (lexAccepts_iff _ _).1 hi with ⟨rfl, e⟩ | ⟨rfl, e⟩ | ⟨rfl, d, e⟩
      · simp at e; simp [e]
      · simp at e; simp [e]
      · split
        · omega
        · split <;> omega

/-- A line with every kind of character: `q\ \\\x  y`. -/
example : ∀ lexer predict, LexContract lexer → PredictContract predict →
    parseCommand lexer predict ['q', '\\', ' ', '\\', '\\', '\\', 'x', ' ', ' ', 'y'] =
      some ⟨['q', ' ', '\\', '\\', 'x'], [['y']]⟩ := by
  intro lexer predict hl hp
  rw [(C98_reads_everything lexer predict hl hp _).2]
  simp only [parse]
  rw [split_plain _ (by decide) (by decide), split_esc, split_bs, split_lone _ (by decide) (by decide),
    split_plain _ (by decide) (by decide), split_sep, split_sep, split_plain _ (by decide) (by decide), split_nil]
  decide

end MS.Shell
