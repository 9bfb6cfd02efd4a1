import Verif.Model.Glob
import Verif.Spec.Glob

/-! # `filepath.Match` implements its pattern language -/

namespace MS.Glob

open MS.Files
open MS.GlobSpec hiding Piece

/-! ## Character classes -/

/-- Whether a character is in one of the ranges. -/
def inRanges (rs : List (Char × Char)) (x : Char) : Bool := rs.any fun r => decide (r.1 ≤ x) && decide (x ≤ r.2)

theorem inRanges_iff (rs : List (Char × Char)) (x : Char) : inRanges rs x = true ↔ ∃ r ∈ rs, r.1 ≤ x ∧ x ≤ r.2 := by
  simp [inRanges, List.any_eq_true]

theorem getEsc_spelled {u : Path} {c : Char} (h : Spelled u c) (p : Path) (hp : p ≠ []) : getEsc (u ++ p) = some (c, p) := by
  cases h with
  | plain _ h1 h2 h3 => simp [getEsc, h1, h2, h3, hp]
  | escaped =>
    cases p with
    | nil => exact absurd rfl hp
    | cons e q => simp [getEsc]

theorem getEsc_sound {q p : Path} {c : Char} (h : getEsc q = some (c, p)) : ∃ u, Spelled u c ∧ q = u ++ p ∧ p ≠ [] := by
  unfold getEsc at h
  split at h
  · cases h
  · rename_i d q
    split at h
    · cases h
    · rename_i h1
      simp only [not_or] at h1
      split at h
      · rename_i h2
        split at h
        · rename_i e f q'
          cases h
          exact ⟨['\\', c], .escaped c, by simp [h2], by simp⟩
        · cases h
      · rename_i h2
        split at h
        · cases h
        · rename_i h3
          cases h
          exact ⟨[c], .plain c h2 h1.1 h1.2, rfl, h3⟩

theorem spelled_head {u : Path} {c : Char} (h : Spelled u c) (p : Path) :
    (u ++ p).head? ≠ some ']' ∧ (u ++ p).head? ≠ some '-' := by
  cases h with
  | plain _ h1 h2 h3 => simp [h2, h3]
  | escaped => simp

theorem ranges_head {u : Path} {rs : List (Char × Char)} (h : Ranges u rs) (p : Path) : (u ++ ']' :: p).head? ≠ some '-' := by
  cases h with
  | nil => simp
  | one h t => rw [List.append_assoc]; exact (spelled_head h _).2
  | range h h' t => rw [List.append_assoc]; exact (spelled_head h _).2

theorem ranges_spec {u : Path} {rs : List (Char × Char)} (h : Ranges u rs) (x : Char) (p : Path) : ∀ (first acc : Bool),
    (first = true → rs ≠ []) → ranges x first acc (u ++ ']' :: p) = some (acc || inRanges rs x, p) := by
  induction h with
  | nil =>
    intro first acc hf
    have : first = false := by cases first <;> simp at hf ⊢
    subst this
    unfold ranges
    simp [inRanges]
  | @one u q c rs h t ih =>
    intro first acc _
    rw [List.append_assoc]
    unfold ranges
    rw [if_neg (by intro hh; exact (spelled_head h _).1 hh.2)]
    have e := getEsc_spelled h (q ++ ']' :: p) (by simp)
    split
    · rename_i e'; rw [e] at e'; cases e'
    · rename_i lo c1 e'
      rw [e] at e'
      cases e'
      rw [if_neg (ranges_head t p), ih false _ (by simp)]
      simp [inRanges, Bool.or_assoc]
  | @range u v q lo hi rs h h' t ih =>
    intro first acc _
    rw [List.append_assoc]
    unfold ranges
    rw [if_neg (by intro hh; exact (spelled_head h _).1 hh.2)]
    have e := getEsc_spelled h ('-' :: (v ++ q) ++ ']' :: p) (by simp)
    split
    · rename_i e'; rw [e] at e'; cases e'
    · rename_i lo c1 e'
      rw [e] at e'
      cases e'
      have e2 : getEsc (List.drop 1 ('-' :: (v ++ q ++ ']' :: p))) = some (hi, q ++ ']' :: p) := by
        simpa using getEsc_spelled h' (q ++ ']' :: p) (by simp)
      simp only [List.cons_append, List.head?_cons, if_true]
      split
      · rename_i e'; rw [e2] at e'; cases e'
      · rename_i hi' c2 e'
        rw [e2] at e'
        cases e'
        rw [ih false _ (by simp)]
        simp [inRanges, Bool.or_assoc]

theorem ranges_sound (n : Nat) (x : Char) : ∀ (first acc b : Bool) (q p : Path), q.length ≤ n →
    ranges x first acc q = some (b, p) →
    ∃ u rs, Ranges u rs ∧ q = u ++ ']' :: p ∧ (first = true → rs ≠ []) ∧ b = (acc || inRanges rs x) := by
  induction n with
  | zero =>
    intro first acc b q p hq h
    have : q = [] := List.length_eq_zero_iff.1 (by omega)
    subst this
    unfold ranges at h
    simp [getEsc] at h
  | succ n ih =>
    intro first acc b q p hq h
    unfold ranges at h
    split at h
    · rename_i hc
      cases q with
      | nil => simp at hc
      | cons c q =>
        simp only [List.head?_cons, Option.some.injEq] at hc
        simp only [List.drop_succ_cons, List.drop_zero, Option.some.injEq, Prod.mk.injEq] at h
        exact ⟨[], [], .nil, by simp [hc.2, h.2], by simp [hc.1], by simp [inRanges, h.1]⟩
    · split at h
      · cases h
      · rename_i lo c1 e1
        have hl1 := getEsc_length e1
        obtain ⟨u, hu, rfl, hne⟩ := getEsc_sound e1
        split at h
        · rename_i hd
          cases c1 with
          | nil => simp at hd
          | cons d c1 =>
            simp only [List.head?_cons, Option.some.injEq] at hd
            subst hd
            split at h
            · cases h
            · rename_i hi c2 e2
              replace e2 : getEsc c1 = some (hi, c2) := e2
              have hl2 := getEsc_length e2
              obtain ⟨v, hv, rfl, _⟩ := getEsc_sound e2
              simp only [List.length_cons] at hl1
              obtain ⟨w, rs, hw, rfl, _, hb⟩ := ih _ _ _ _ _ (by omega) h
              refine ⟨_, _, .range hu hv hw, by simp, by simp, ?_⟩
              rw [hb]
              simp [inRanges, Bool.or_assoc]
        · obtain ⟨w, rs, hw, rfl, _, hb⟩ := ih _ _ _ _ _ (by omega) h
          refine ⟨_, _, .one hu hw, by simp, by simp, ?_⟩
          rw [hb]
          simp [inRanges, Bool.or_assoc]

/-! ## Chunks -/

/-- Whether a term stands for the piece. -/
def acc : Item → Piece → Bool
  | .star, _ => false
  | .any, x => decide (x ≠ some '/')
  | .lit c, x => decide (x = some c)
  | .set neg rs, x => neg != inRanges rs (x.getD '\uFFFD')

theorem acc_iff (i : Item) (x : Piece) : acc i x = true ↔ i.acceptsPiece x := by
  cases i with
  | star => simp [acc, Item.acceptsPiece, Item.accepts]
  | any =>
    cases x with
    | none => simp [acc, Item.acceptsPiece, Item.accepts]
    | some c => simp [acc, Item.acceptsPiece, Item.accepts]
  | lit c => simp [acc, Item.acceptsPiece]
  | set neg rs =>
    cases neg
    · simp only [acc, Item.acceptsPiece, Item.accepts]
      rw [← inRanges_iff]
      simp
    · simp only [acc, Item.acceptsPiece, Item.accepts]
      rw [← inRanges_iff]
      simp

/-- For a character the two notions agree. -/
theorem accepts_some (i : Item) (x : Char) : i.acceptsPiece (some x) ↔ i.accepts x := by
  cases i with
  | star => rfl
  | any => rfl
  | lit c => simp [Item.acceptsPiece, Item.accepts]
  | set n rs => cases n <;> rfl

/-- Terms without stars take their pieces from the front. -/
def consume : List Item → List Piece → Option (List Piece)
  | [], s => some s
  | _ :: _, [] => none
  | i :: is, x :: s => if acc i x then consume is s else none

theorem consume_length {is : List Item} : ∀ {s t : List Piece}, consume is s = some t →
    ∃ u, s = u ++ t ∧ u.length = is.length := by
  induction is with
  | nil => intro s t h; cases h; exact ⟨[], rfl, rfl⟩
  | cons i is ih =>
    intro s t h
    cases s with
    | nil => simp [consume] at h
    | cons x s =>
      simp only [consume] at h
      split at h
      · obtain ⟨u, rfl, hl⟩ := ih h
        exact ⟨x :: u, rfl, by simp [hl]⟩
      · cases h

theorem matches_consume (is js : List Item) : ∀ (s t : List Piece), consume is s = some t → MatchesBytes js t →
    MatchesBytes (is ++ js) s := by
  induction is with
  | nil => intro s t h1 h2; cases h1; exact h2
  | cons i is ih =>
    intro s t h1 h2
    cases s with
    | nil => simp [consume] at h1
    | cons x s =>
      simp only [consume] at h1
      split at h1
      · rename_i ha
        exact .one ((acc_iff _ _).1 ha) (ih s t h1 h2)
      · cases h1

/-- On characters. -/
theorem consume_matches (is js : List Item) (hs : Item.star ∉ is) : ∀ (s : Path), Matches (is ++ js) s →
    ∃ t, consume is (s.map some) = some (t.map some) ∧ Matches js t := by
  induction is with
  | nil => intro s h; exact ⟨s, rfl, h⟩
  | cons i is ih =>
    intro s h
    simp only [List.mem_cons, not_or] at hs
    cases h with
    | one h t =>
      obtain ⟨r, h1, h2⟩ := ih hs.2 _ t
      exact ⟨r, by simp [consume, (acc_iff _ _).2 ((accepts_some _ _).2 h), h1], h2⟩
    | starEnd => exact absurd rfl hs.1
    | starMore => exact absurd rfl hs.1

theorem matchChunk_empty (s : List Piece) : matchChunk s [] = some (some s) := by cases s <;> rfl

theorem matchChunk_spec {chunk : Path} {is : List Item} (h : Denotes chunk is) (hs : Item.star ∉ is) : ∀ s,
    matchChunk s chunk = some (consume is s) := by
  induction h with
  | nil => intro s; simp [consume, matchChunk_empty]
  | star t ih => simp at hs
  | any t ih =>
    intro s
    simp only [List.mem_cons, not_or] at hs
    cases s with
    | nil => simp [matchChunk, consume]
    | cons x s =>
      by_cases hx : x = some '/'
      · simp [matchChunk, consume, acc, hx]
      · simp [matchChunk, consume, acc, hx, ih hs.2]
  | lit c h1 h2 h3 h4 t ih =>
    intro s
    simp only [List.mem_cons, not_or] at hs
    cases s with
    | nil => simp [matchChunk, consume]
    | cons x s =>
      by_cases hx : some c = x
      · subst hx; simp [matchChunk, consume, acc, h2, h3, h4, ih hs.2]
      · have : ¬ x = some c := fun e => hx e.symm
        simp [matchChunk, consume, acc, h2, h3, h4, hx, this]
  | escaped c t ih =>
    intro s
    simp only [List.mem_cons, not_or] at hs
    cases s with
    | nil => simp [matchChunk, consume]
    | cons x s =>
      by_cases hx : some c = x
      · subst hx; simp [matchChunk, consume, acc, ih hs.2]
      · have : ¬ x = some c := fun e => hx e.symm
        simp [matchChunk, consume, acc, hx, this]
  | @set u p rs is h hne hc t ih =>
    intro s
    simp only [List.mem_cons, not_or] at hs
    cases s with
    | nil => simp [matchChunk, consume]
    | cons x s =>
      have hne' : u ++ ']' :: p ≠ [] := by simp
      have hu : u ≠ [] := by
        intro e; subst e
        cases h' : rs with
        | nil => exact hne h'
        | cons a b =>
          subst h'
          generalize hq : ([] : Path) = q at h
          cases h with
          | one h t => cases h <;> simp at hq
          | range h _ t => cases h <;> simp at hq
      have hh : (u ++ ']' :: p).head? ≠ some '^' := by
        cases u with
        | nil => exact absurd rfl hu
        | cons a u => simpa using hc
      have e := ranges_spec h (x.getD '\uFFFD') p true false (fun _ => hne)
      simp only [matchChunk, if_true, hne', if_false, hh, decide_false, Bool.false_eq_true, e, Bool.false_or]
      by_cases hr : inRanges rs (x.getD '\uFFFD') = true
      · simp [hr, consume, acc, ih hs.2]
      · simp [hr, consume, acc]
  | @negated u p rs is h hne t ih =>
    intro s
    simp only [List.mem_cons, not_or] at hs
    cases s with
    | nil => simp [matchChunk, consume]
    | cons x s =>
      have e := ranges_spec h (x.getD '\uFFFD') p true false (fun _ => hne)
      simp only [matchChunk, if_true, List.head?_cons, decide_true, List.drop_succ_cons, List.drop_zero, e, Bool.false_or]
      by_cases hr : inRanges rs (x.getD '\uFFFD') = true
      · simp [hr, consume, acc]
      · simp [hr, consume, acc, ih hs.2]

/-! ## Cutting a pattern into chunks -/

theorem scan_spelled {u : Path} {c : Char} (h : Spelled u c) (p : Path) :
    scan true (u ++ p) = (u ++ (scan true p).1, (scan true p).2) := by
  cases h with
  | plain _ h1 h2 h3 =>
    by_cases h4 : c = '['
    · subst h4; simp [scan_open]
    · by_cases h5 : c = '*'
      · subst h5; simp [scan_star_in]
      · simp [scan_other true c p h1 h4 h3 h5]
  | escaped => simp [scan_esc]

theorem scan_ranges {u : Path} {rs : List (Char × Char)} (h : Ranges u rs) (p : Path) :
    scan true (u ++ ']' :: p) = (u ++ ']' :: (scan false p).1, (scan false p).2) := by
  induction h with
  | nil => simp [scan_close]
  | one h t ih => rw [List.append_assoc, scan_spelled h, ih]; simp
  | range h h' t ih =>
    rw [List.append_assoc, scan_spelled h, List.cons_append, scan_other true '-' _ (by decide) (by decide) (by decide) (by decide),
      List.append_assoc, scan_spelled h', ih]
    simp

/-- The first chunk of a well-formed pattern that does not begin with a star, and the rest. -/
theorem scan_denotes {p : Path} {is : List Item} (h : Denotes p is) :
    ∃ cs js, is = cs ++ js ∧ Item.star ∉ cs ∧ Denotes (scan false p).1 cs ∧ Denotes (scan false p).2 js ∧
      (((scan false p).2 = [] ∧ js = []) ∨ (∃ q ks, (scan false p).2 = '*' :: q ∧ js = .star :: ks)) := by
  induction h with
  | nil => exact ⟨[], [], rfl, by simp, by simpa [scan] using .nil, by simpa [scan] using .nil, Or.inl (by simp [scan])⟩
  | @star p is t ih =>
    rw [scan_star]
    exact ⟨[], _, rfl, by simp, .nil, .star t, Or.inr ⟨_, _, rfl, rfl⟩⟩
  | any t ih =>
    obtain ⟨cs, js, rfl, h1, h2, h3, h4⟩ := ih
    rw [scan_other false '?' _ (by decide) (by decide) (by decide) (by decide)]
    exact ⟨.any :: cs, js, rfl, by simp [h1], .any h2, h3, h4⟩
  | @lit p is c g1 g2 g3 g4 t ih =>
    obtain ⟨cs, js, rfl, h1, h2, h3, h4⟩ := ih
    by_cases hc : c = ']'
    · subst hc
      rw [scan_close]
      exact ⟨.lit ']' :: cs, js, rfl, by simp [h1], .lit _ g1 g2 g3 g4 h2, h3, h4⟩
    · rw [scan_other false c _ g3 g4 hc g1]
      exact ⟨.lit c :: cs, js, rfl, by simp [h1], .lit _ g1 g2 g3 g4 h2, h3, h4⟩
  | escaped c t ih =>
    obtain ⟨cs, js, rfl, h1, h2, h3, h4⟩ := ih
    rw [scan_esc]
    exact ⟨.lit c :: cs, js, rfl, by simp [h1], .escaped _ h2, h3, h4⟩
  | @set u p rs is h hne hc t ih =>
    obtain ⟨cs, js, rfl, h1, h2, h3, h4⟩ := ih
    rw [scan_open, scan_ranges h]
    exact ⟨.set false rs :: cs, js, rfl, by simp [h1], .set h hne hc h2, h3, h4⟩
  | @negated u p rs is h hne t ih =>
    obtain ⟨cs, js, rfl, h1, h2, h3, h4⟩ := ih
    rw [scan_open, scan_other true '^' _ (by decide) (by decide) (by decide) (by decide), scan_ranges h]
    exact ⟨.set true rs :: cs, js, rfl, by simp [h1], .negated h hne h2, h3, h4⟩

theorem denotes_append {p q : Path} {is js : List Item} (h : Denotes p is) (h' : Denotes q js) :
    Denotes (p ++ q) (is ++ js) := by
  induction h with
  | nil => exact h'
  | star t ih => exact .star ih
  | any t ih => exact .any ih
  | lit c h1 h2 h3 h4 t ih => exact .lit c h1 h2 h3 h4 ih
  | escaped c t ih => exact .escaped c ih
  | set h hne hc t ih => simp only [List.cons_append, List.append_assoc]; exact .set h hne hc ih
  | negated h hne t ih => simp only [List.cons_append, List.append_assoc]; exact .negated h hne ih

/-- A chunk that matches something is well-formed. -/
theorem matchChunk_sound : ∀ (s t : List Piece) (p : Path), matchChunk s (scan false p).1 = some (some t) →
    ∃ cs, Denotes (scan false p).1 cs ∧ Item.star ∉ cs ∧ consume cs s = some t := by
  intro s
  induction s with
  | nil =>
    intro t p h
    cases hc : (scan false p).1 with
    | nil => rw [hc] at h; cases h; exact ⟨[], .nil, by simp, rfl⟩
    | cons c q => rw [hc] at h; simp [matchChunk] at h
  | cons x s ih =>
    intro t p h
    cases p with
    | nil => simp only [scan, matchChunk_empty] at h; cases h; exact ⟨[], by simpa [scan] using .nil, by simp, rfl⟩
    | cons c p =>
      by_cases h1 : c = '\\'
      · subst h1
        cases p with
        | nil => simp [scan_esc_end, matchChunk] at h
        | cons d q =>
          rw [scan_esc] at h ⊢
          simp only [matchChunk, if_true, show ¬ ('\\' : Char) = '[' by decide, show ¬ ('\\' : Char) = '?' by decide, if_false] at h
          split at h
          · rename_i hd
            obtain ⟨cs, e1, e2, e3⟩ := ih t q h
            exact ⟨.lit d :: cs, .escaped d e1, by simp [e2], by simp [consume, acc, hd, e3]⟩
          · cases h
      by_cases h2 : c = '['
      · subst h2
        rw [scan_open] at h ⊢
        simp only [matchChunk, if_true] at h
        split at h
        · cases h
        · rename_i hne
          split at h
          · cases h
          · rename_i m chunk' hr
            split at h
            · cases h
            · rename_i hm
              obtain ⟨u, rs, hu, e, hrs, hb⟩ := ranges_sound _ (x.getD '\uFFFD') _ _ _ _ _ (Nat.le_refl _) hr
              have hrs := hrs rfl
              simp only [Bool.false_or] at hb
              have parts := scan_parts true p
              by_cases hn : (scan true p).1.head? = some '^'
              · simp only [hn, decide_true, if_true] at e hm
                obtain ⟨q, hq⟩ : ∃ q, (scan true p).1 = '^' :: q := by
                  cases hh : (scan true p).1 with
                  | nil => simp [hh] at hn
                  | cons a q => rw [hh] at hn; simp at hn; exact ⟨q, by rw [hn]⟩
                rw [hq] at e parts
                simp only [List.drop_succ_cons, List.drop_zero] at e
                subst e
                have e2 : scan true p = ('^' :: (u ++ ']' :: (scan false (chunk' ++ (scan true p).2)).1), (scan false (chunk' ++ (scan true p).2)).2) := by
                  have : p = '^' :: (u ++ ']' :: (chunk' ++ (scan true p).2)) := by
                    simpa using parts.symm
                  conv => lhs; rw [this]
                  rw [scan_other true '^' _ (by decide) (by decide) (by decide) (by decide), scan_ranges hu]
                have e3 : chunk' = (scan false (chunk' ++ (scan true p).2)).1 := by
                  have := congrArg Prod.fst e2
                  rw [hq] at this
                  simpa using this
                rw [e3] at h
                obtain ⟨cs, f1, f2, f3⟩ := ih t _ h
                refine ⟨.set true rs :: cs, ?_, by simp [f2], ?_⟩
                · rw [hq]
                  refine .negated hu hrs ?_
                  rw [e3]; exact f1
                · have : inRanges rs (x.getD '\uFFFD') = false := by
                    rw [← hb]
                    revert hm
                    cases m <;> simp
                  simp [consume, acc, this, f3]
              · simp only [hn, decide_false, Bool.false_eq_true, if_false] at e hm
                rw [e] at parts
                have e2 : scan true p = (u ++ ']' :: (scan false (chunk' ++ (scan true p).2)).1, (scan false (chunk' ++ (scan true p).2)).2) := by
                  have : p = u ++ ']' :: (chunk' ++ (scan true p).2) := by
                    simpa using parts.symm
                  conv => lhs; rw [this]
                  rw [scan_ranges hu]
                have e3 : chunk' = (scan false (chunk' ++ (scan true p).2)).1 := by
                  have := congrArg Prod.fst e2
                  rw [e] at this
                  simpa using this
                rw [e3] at h
                obtain ⟨cs, f1, f2, f3⟩ := ih t _ h
                refine ⟨.set false rs :: cs, ?_, by simp [f2], ?_⟩
                · rw [e]
                  refine .set hu hrs ?_ ?_
                  · intro hh
                    apply hn
                    rw [e]
                    cases u with
                    | nil => simp at hh
                    | cons a u => simpa using hh
                  · rw [e3]; exact f1
                · have : inRanges rs (x.getD '\uFFFD') = true := by
                    rw [← hb]
                    revert hm
                    cases m <;> simp
                  simp [consume, acc, this, f3]
      by_cases h3 : c = '*'
      · subst h3
        rw [scan_star] at h ⊢
        rw [matchChunk_empty] at h
        cases h
        exact ⟨[], .nil, by simp, rfl⟩
      by_cases h4 : c = '?'
      · subst h4
        rw [scan_other false '?' _ (by decide) (by decide) (by decide) (by decide)] at h ⊢
        simp only [matchChunk, show ¬ ('?' : Char) = '[' by decide, if_false, if_true] at h
        split at h
        · cases h
        · rename_i hx
          obtain ⟨cs, e1, e2, e3⟩ := ih t p h
          exact ⟨.any :: cs, .any e1, by simp [e2], by simp [consume, acc, hx, e3]⟩
      · have hsc : scan false (c :: p) = (c :: (scan false p).1, (scan false p).2) := by
          by_cases h5 : c = ']'
          · subst h5; exact scan_close _ _
          · exact scan_other false c p h1 h2 h5 h3
        rw [hsc] at h ⊢
        simp only [matchChunk, h1, h2, h4, if_false] at h
        split at h
        · rename_i hx
          obtain ⟨cs, e1, e2, e3⟩ := ih t p h
          exact ⟨.lit c :: cs, .lit c h3 h4 h1 h2 e1, by simp [e2], by simp [consume, acc, hx, e3]⟩
        · cases h

/-! ## Stars -/

theorem matches_star_iff (js : List Item) (s : Path) :
    Matches (.star :: js) s ↔ ∃ u t, s = u ++ t ∧ '/' ∉ u ∧ Matches js t := by
  constructor
  · intro h
    induction s with
    | nil =>
      cases h with
      | starEnd t => exact ⟨[], [], rfl, by simp, t⟩
    | cons x s ih =>
      cases h with
      | one h => exact absurd h (by simp [Item.accepts])
      | starEnd t => exact ⟨[], _, rfl, by simp, t⟩
      | starMore hx t =>
        obtain ⟨u, r, rfl, hu, hm⟩ := ih t
        exact ⟨x :: u, r, rfl, by simp [hu, Ne.symm hx], hm⟩
  · intro ⟨u, t, e, hu, hm⟩
    subst e
    induction u with
    | nil => exact .starEnd hm
    | cons x u ih =>
      simp only [List.mem_cons, not_or] at hu
      exact .starMore (Ne.symm hu.1) (ih hu.2)

theorem denotes_stars (k : Nat) {p : Path} {is : List Item} (h : Denotes p is) :
    Denotes (List.replicate k '*' ++ p) (List.replicate k .star ++ is) := by
  induction k with
  | zero => exact h
  | succ k ih => exact .star ih

/-- The leading stars of a pattern. -/
theorem stars_split (p : Path) : ∃ k, p = List.replicate k '*' ++ p.dropWhile (· = '*') ∧
    ((decide (p.head? = some '*')) = true ↔ 0 < k) ∧ (p.dropWhile (· = '*')).head? ≠ some '*' := by
  induction p with
  | nil => exact ⟨0, rfl, by simp, by simp⟩
  | cons c p ih =>
    by_cases hc : c = '*'
    · subst hc
      obtain ⟨k, e, _, h⟩ := ih
      refine ⟨k + 1, ?_, by simp, by simpa using h⟩
      simp only [List.dropWhile_cons, decide_true, if_true, List.replicate_succ, List.cons_append]
      rw [← e]
    · refine ⟨0, by simp [hc], by simp [hc], by simp [hc]⟩

theorem denotes_drop_stars (k : Nat) : ∀ {p : Path} {is : List Item}, Denotes (List.replicate k '*' ++ p) is →
    ∃ js, is = List.replicate k .star ++ js ∧ Denotes p js := by
  induction k with
  | zero => intro p is h; exact ⟨is, rfl, h⟩
  | succ k ih =>
    intro p is h
    rw [List.replicate_succ, List.cons_append] at h
    cases h with
    | star t => obtain ⟨js, rfl, h⟩ := ih t; exact ⟨js, by simp [List.replicate_succ], h⟩
    | lit c h1 => exact absurd rfl h1

theorem denotes_nil {is : List Item} (h : Denotes [] is) : is = [] := by cases h; rfl

/-! ## The rests behind a star -/

theorem matches_nones (js : List Item) (s : List Piece) (h : MatchesBytes (.star :: js) s) (i : Nat) :
    MatchesBytes (.star :: js) (List.replicate i none ++ s) := by
  induction i with
  | zero => exact h
  | succ i ih => exact .starMore (by simp) ih

/-- A star reaches every one of the rests. -/
theorem matches_tails (js : List Item) : ∀ (n m : List Piece), m ∈ n :: tails n → MatchesBytes js m →
    MatchesBytes (.star :: js) n := by
  intro n
  induction n with
  | nil => intro m h hm; simp [tails] at h; subst h; exact .starEnd hm
  | cons x s ih =>
    intro m h hm
    rcases List.mem_cons.1 h with rfl | h
    · exact .starEnd hm
    cases x with
    | none => exact .starMore (by simp) (ih m h hm)
    | some c =>
      simp only [tails] at h
      split at h
      · simp at h
      · rename_i hc
        refine .starMore (by simpa using hc) ?_
        rcases List.mem_append.1 h with h | h
        · obtain ⟨j, hj, rfl⟩ := List.mem_map.1 h
          simp only [List.mem_reverse, List.mem_range] at hj
          show MatchesBytes _ (List.replicate (c.utf8Size - 1) none ++ s)
          have e : List.replicate (c.utf8Size - 1) (none : Piece) ++ s =
              List.replicate (c.utf8Size - 1 - j) none ++ (List.replicate j none ++ s) := by
            rw [← List.append_assoc, List.replicate_append_replicate]
            congr 2
            omega
          rw [e]
          exact matches_nones js _ (.starEnd hm) _
        · exact matches_nones js s (ih m (List.mem_cons_of_mem _ h) hm) _

theorem matches_stars (k : Nat) (js : List Item) (n m : List Piece) (h : m ∈ n :: tails n) (hm : MatchesBytes js m) :
    MatchesBytes (List.replicate (k + 1) .star ++ js) n := by
  induction k with
  | zero => exact matches_tails js n m h hm
  | succ k ih => exact .starEnd ih

theorem nil_mem_tails (n : List Piece) (h : some '/' ∉ n) : [] ∈ n :: tails n := by
  induction n with
  | nil => simp
  | cons x s ih =>
    simp only [List.mem_cons, not_or] at h
    have ih := ih h.2
    refine List.mem_cons_of_mem _ ?_
    cases x with
    | none => exact ih
    | some c =>
      have hc : c ≠ '/' := fun e => h.1 (by rw [e])
      simp only [tails, hc, if_false]
      rcases List.mem_cons.1 ih with e | ih
      · subst e
        refine List.mem_append_left _ (List.mem_map.2 ⟨0, ?_, rfl⟩)
        simp only [List.mem_reverse, List.mem_range]
        exact Char.utf8Size_pos c
      · exact List.mem_append_right _ ih

theorem tails_slash {n m : List Piece} (h : some '/' ∉ n) (hm : m ∈ tails n) : some '/' ∉ m := by
  induction n with
  | nil => simp [tails] at hm
  | cons x s ih =>
    simp only [List.mem_cons, not_or] at h
    cases x with
    | none =>
      rcases List.mem_cons.1 hm with rfl | hm
      · exact h.2
      · exact ih h.2 hm
    | some c =>
      simp only [tails] at hm
      split at hm
      · simp at hm
      · rcases List.mem_append.1 hm with hm | hm
        · obtain ⟨j, _, rfl⟩ := List.mem_map.1 hm
          simp [h.2]
        · exact ih h.2 hm

/-- The loop after a star, sound. -/
theorem skip_sound {chunk : Path} {last : Bool} : ∀ {names : List (List Piece)} {t : List Piece},
    skip chunk last names = some (some t) → ∃ m ∈ names, matchChunk m chunk = some (some t) ∧ (last = true → t = []) := by
  intro names
  induction names with
  | nil => intro t h; simp [skip] at h
  | cons m names ih =>
    intro t h
    have lift : skip chunk last names = some (some t) →
        ∃ m' ∈ m :: names, matchChunk m' chunk = some (some t) ∧ (last = true → t = []) := by
      intro h
      obtain ⟨m', h1, h2⟩ := ih h
      exact ⟨m', List.mem_cons_of_mem _ h1, h2⟩
    simp only [skip] at h
    split at h
    · cases h
    · exact lift h
    · rename_i t' ht
      split at h
      · exact lift h
      · rename_i hl
        cases h
        exact ⟨m, by simp, ht, fun hla => Classical.byContradiction fun hne => hl ⟨hla, hne⟩⟩

theorem skip_total {chunk : Path} {cs : List Item} (hc : Denotes chunk cs) (hcs : Item.star ∉ cs) (last : Bool)
    (names : List (List Piece)) : skip chunk last names ≠ none := by
  induction names with
  | nil => simp [skip]
  | cons m names ih =>
    simp only [skip, matchChunk_spec hc hcs m]
    cases consume cs m with
    | none => exact ih
    | some t1 => dsimp only; split; exact ih; simp

/-- What is left of a name that still matches character by character: the bytes that are left of a character, which only a star
can skip, and characters. -/
def Rest (is : List Item) (n : List Piece) : Prop :=
  ∃ (j : Nat) (s : Path), n = List.replicate j none ++ s.map some ∧ Matches is s ∧ (j = 0 ∨ is.head? = some .star)

/-- A chunk that matches earlier ends earlier. -/
theorem consume_earlier {cs : List Item} {i : Nat} {v y t : Path} {t1 : List Piece}
    (h1 : consume cs (List.replicate i none ++ (v ++ y).map some) = some t1) (h2 : consume cs (y.map some) = some (t.map some)) :
    ∃ j w, t1 = List.replicate j none ++ (w ++ t).map some ∧ ∀ x ∈ w, x ∈ v ++ y := by
  obtain ⟨a, ha, hal⟩ := consume_length h1
  obtain ⟨b, hb, hbl⟩ := consume_length h2
  have e2 : y.drop cs.length = t := by
    have := congrArg (List.drop b.length) hb
    rw [List.drop_left, ← List.map_drop, hbl] at this
    exact List.map_inj_right (fun _ _ h => Option.some.inj h) |>.1 this
  have hyl : cs.length ≤ y.length := by
    have := congrArg List.length hb
    simp only [List.length_map, List.length_append] at this
    omega
  have e1 : t1 = List.replicate (i - cs.length) none ++ ((v ++ y).drop (cs.length - i)).map some := by
    have := congrArg (List.drop a.length) ha
    rw [List.drop_left, hal, List.drop_append, List.drop_replicate, List.length_replicate, ← List.map_drop] at this
    exact this.symm
  refine ⟨i - cs.length, ((v ++ y).drop (cs.length - i)).take (v.length + cs.length - (cs.length - i)), ?_, ?_⟩
  · rw [e1]
    congr 2
    conv => lhs; rw [← List.take_append_drop (v.length + cs.length - (cs.length - i)) ((v ++ y).drop (cs.length - i))]
    congr 1
    rw [List.drop_drop, show cs.length - i + (v.length + cs.length - (cs.length - i)) = v.length + cs.length by omega,
      ← List.drop_drop, List.drop_left, e2]
  · intro x hx
    exact List.mem_of_mem_drop (List.mem_of_mem_take hx)

/-- Where the loop comes to a given end of the name, and what it tries before. -/
theorem tails_reach (y : Path) : ∀ (j : Nat) (u : Path), (0 < j ∨ u ≠ []) → '/' ∉ u →
    ∃ as bs, tails (List.replicate j none ++ (u ++ y).map some) = as ++ y.map some :: bs ∧
      ∀ m ∈ as, ∃ i v, m = List.replicate i none ++ (v ++ y).map some ∧ '/' ∉ v := by
  have zero : ∀ (u : Path), u ≠ [] → '/' ∉ u →
      ∃ as bs, tails ((u ++ y).map some) = as ++ y.map some :: bs ∧
        ∀ m ∈ as, ∃ i v, m = List.replicate i none ++ (v ++ y).map some ∧ '/' ∉ v := by
    intro u
    induction u with
    | nil => intro h; exact absurd rfl h
    | cons x u ih =>
      intro _ hs
      simp only [List.mem_cons, not_or] at hs
      have hx : x ≠ '/' := Ne.symm hs.1
      simp only [List.cons_append, List.map_cons, tails, hx, if_false]
      by_cases hu : u = []
      · subst hu
        obtain ⟨k, hk⟩ : ∃ k, x.utf8Size = k + 1 := ⟨x.utf8Size - 1, by have := Char.utf8Size_pos x; omega⟩
        refine ⟨((List.range k).map Nat.succ).reverse.map (fun j => List.replicate j none ++ y.map some),
          tails (y.map some), ?_, ?_⟩
        · rw [hk, List.range_succ_eq_map, List.reverse_cons, List.map_append]
          simp
        · intro m hm
          obtain ⟨j, _, rfl⟩ := List.mem_map.1 hm
          exact ⟨j, [], rfl, by simp⟩
      · obtain ⟨as, bs, e, h⟩ := ih hu hs.2
        refine ⟨(List.range x.utf8Size).reverse.map (fun j => List.replicate j none ++ (u ++ y).map some) ++ as, bs, ?_, ?_⟩
        · rw [e, List.append_assoc]
        · intro m hm
          rcases List.mem_append.1 hm with hm | hm
          · obtain ⟨j, _, rfl⟩ := List.mem_map.1 hm
            exact ⟨j, u, rfl, hs.2⟩
          · exact h m hm
  intro j
  induction j with
  | zero =>
    intro u h hs
    simpa using zero u (by rcases h with h | h; omega; exact h) hs
  | succ j ih =>
    intro u _ hs
    rw [List.replicate_succ, List.cons_append]
    simp only [tails]
    by_cases h0 : 0 < j ∨ u ≠ []
    · obtain ⟨as, bs, e, h⟩ := ih u h0 hs
      refine ⟨_ :: as, bs, by rw [e]; rfl, ?_⟩
      intro m hm
      rcases List.mem_cons.1 hm with rfl | hm
      · exact ⟨j, u, rfl, hs⟩
      · exact h m hm
    · simp only [not_or, Classical.not_not] at h0
      have : j = 0 := by omega
      subst this
      rw [h0.2]
      exact ⟨[], tails (y.map some), by simp, by simp⟩

theorem rest_star {cs ks : List Item} {i : Nat} {v y t : Path} {t1 : List Piece}
    (h1 : consume cs (List.replicate i none ++ (v ++ y).map some) = some t1) (h2 : consume cs (y.map some) = some (t.map some))
    (hs : '/' ∉ v ++ y) (ht : Matches (.star :: ks) t) : Rest (.star :: ks) t1 := by
  obtain ⟨j, w, rfl, hw⟩ := consume_earlier h1 h2
  refine ⟨j, w ++ t, rfl, ?_, Or.inr rfl⟩
  rw [matches_star_iff] at ht ⊢
  obtain ⟨u', t', rfl, h', hm⟩ := ht
  refine ⟨w ++ u', t', by simp, ?_, hm⟩
  intro hmem
  rcases List.mem_append.1 hmem with h | h
  · exact hs (hw _ h)
  · exact h' h

/-- The loop after a star finds a match if there is one. -/
theorem skip_complete {chunk : Path} {cs js : List Item} (hc : Denotes chunk cs) (hcs : Item.star ∉ cs) (last : Bool)
    (hl : (last = true ∧ js = []) ∨ (last = false ∧ ∃ ks, js = .star :: ks)) (y t : Path) (bs : List (List Piece))
    (hys : '/' ∉ y) (hy : consume cs (y.map some) = some (t.map some)) (ht : Matches js t) : ∀ (as : List (List Piece)),
    (∀ m ∈ as, ∃ i v, m = List.replicate i none ++ (v ++ y).map some ∧ '/' ∉ v) →
    ∃ t', skip chunk last (as ++ y.map some :: bs) = some (some t') ∧ Rest js t' := by
  intro as
  induction as with
  | nil =>
    intro _
    simp only [List.nil_append, skip, matchChunk_spec hc hcs, hy]
    rw [if_neg]
    · exact ⟨_, rfl, 0, t, by simp, ht, Or.inl rfl⟩
    · rintro ⟨h1, h2⟩
      rcases hl with ⟨_, rfl⟩ | ⟨h, _⟩
      · cases ht; simp at h2
      · rw [h] at h1; cases h1
  | cons m as ih =>
    intro ha
    have ih := ih (fun m hm => ha m (List.mem_cons_of_mem _ hm))
    simp only [List.cons_append, skip, matchChunk_spec hc hcs]
    cases h1 : consume cs m with
    | none => exact ih
    | some t1 =>
      dsimp only
      rcases hl with ⟨hl1, rfl⟩ | ⟨hl1, ks, rfl⟩
      · by_cases h0 : t1 = []
        · exact ⟨t1, by simp [h0], 0, [], by simp [h0], .nil, Or.inl rfl⟩
        · rw [if_pos ⟨hl1, h0⟩]; exact ih
      · rw [if_neg (by simp [hl1])]
        obtain ⟨i, v, rfl, hv⟩ := ha m (by simp)
        exact ⟨t1, rfl, rest_star h1 hy (by simp [hv, hys]) ht⟩

/-! ## The whole loop -/

theorem matchPieces_sound (n : Nat) : ∀ (p : Path) (name : List Piece), p.length ≤ n → some '/' ∉ name →
    matchPieces p name = some true → ∃ is, Denotes p is ∧ MatchesBytes is name := by
  induction n with
  | zero =>
    intro p name hp hn h
    have : p = [] := List.length_eq_zero_iff.1 (by omega)
    subst this
    unfold matchPieces at h
    simp at h
    subst h
    exact ⟨[], .nil, .nil⟩
  | succ n ih =>
    intro p name hpl hn h
    by_cases hp : p = []
    · subst hp
      unfold matchPieces at h
      simp at h
      subst h
      exact ⟨[], .nil, .nil⟩
    have hlen := scanChunk_length p hp
    obtain ⟨k, hk1, hk2, hk3⟩ := stars_split p
    have hsc : scanChunk p = (decide (p.head? = some '*'), scan false (p.dropWhile (· = '*'))) := rfl
    generalize hq : p.dropWhile (· = '*') = q at hk1 hk3 hsc
    rw [hsc] at hlen
    have hparts := scan_parts false q
    unfold matchPieces at h
    rw [dif_neg hp] at h
    simp only [hsc] at h
    -- a match of the chunk somewhere, and of the rest
    have fin : ∀ (m t : List Piece), (m = name ∨ (0 < k ∧ m ∈ tails name)) → matchChunk m (scan false q).1 = some (some t) →
        matchPieces (scan false q).2 t = some true → ∃ is, Denotes p is ∧ MatchesBytes is name := by
      intro m t hu hm hg
      obtain ⟨cs, c1, c2, c3⟩ := matchChunk_sound m t q hm
      obtain ⟨w, hw, _⟩ := consume_length c3
      have hms : some '/' ∉ m := by
        rcases hu with rfl | hu
        · exact hn
        · exact tails_slash hn hu.2
      obtain ⟨js, j1, j2⟩ := ih _ t (by simp only at hlen; omega) (fun hm => hms (by simp [hw, hm])) hg
      refine ⟨List.replicate k .star ++ (cs ++ js), ?_, ?_⟩
      · rw [hk1]
        apply denotes_stars
        rw [← hparts]
        exact denotes_append c1 j1
      · have hmm : MatchesBytes (cs ++ js) m := matches_consume cs js m t c3 j2
        cases k with
        | zero =>
          rcases hu with rfl | hu
          · exact hmm
          · omega
        | succ k =>
          refine matches_stars k _ name m ?_ hmm
          rcases hu with rfl | hu
          · simp
          · exact List.mem_cons_of_mem _ hu.2
    split at h
    · rename_i hst
      have hq0 : (scan false q).2 = [] := by
        cases hr : (scan false q).2 with
        | nil => rfl
        | cons c r =>
          exfalso
          rw [hst.2, hr] at hparts
          simp only [List.nil_append] at hparts
          rw [← hparts] at hk3 hst
          have h5 : c ≠ '*' := by simpa using hk3
          have : (scan false (c :: r)).1 ≠ [] := by
            by_cases h1 : c = '\\'
            · subst h1; cases r <;> simp [scan_esc, scan_esc_end]
            by_cases h2 : c = '['
            · subst h2; simp [scan_open]
            by_cases h3 : c = ']'
            · subst h3; simp [scan_close]
            · simp [scan_other false c r h1 h2 h3 h5]
          exact this hst.2
      have hq1 : q = [] := by rw [← hparts, hst.2, hq0]; rfl
      have hk0 := hk2.1 hst.1
      refine ⟨List.replicate k .star ++ [], ?_, ?_⟩
      · rw [hk1, hq1]; exact denotes_stars k .nil
      · cases k with
        | zero => omega
        | succ k => exact matches_stars k _ name [] (nil_mem_tails name hn) .nil
    · split at h
      · cases h
      · rename_i r hr
        split at h
        · cases h
        · cases h
        · rename_i t hnext
          have tryS : (if decide (p.head? = some '*') = true then
              skip (scan false q).1 (decide ((scan false q).2 = [])) (tails name)
              else some none) = some (some t) → ∃ is, Denotes p is ∧ MatchesBytes is name := by
            intro hs
            split at hs
            · rename_i hst
              obtain ⟨m, hmt, hm, _⟩ := skip_sound hs
              exact fin m t (Or.inr ⟨hk2.1 hst, hmt⟩) hm h
            · cases hs
          split at hnext
          · rename_i t1
            split at hnext
            · cases hnext
              exact fin name t (Or.inl rfl) hr h
            · exact tryS hnext
          · exact tryS hnext

theorem rest_stars {k : Nat} {cs js : List Item} {s : Path} (hcs : Item.star ∉ cs)
    (h : Matches (List.replicate k .star ++ (cs ++ js)) s) :
    ∃ u y t, s = u ++ y ∧ consume cs (y.map some) = some (t.map some) ∧ Matches js t ∧ '/' ∉ u ∧ (k = 0 → u = []) := by
  induction k generalizing s with
  | zero =>
    obtain ⟨t, h1, h2⟩ := consume_matches cs js hcs s h
    exact ⟨[], s, t, rfl, h1, h2, by simp, fun _ => rfl⟩
  | succ k ih =>
    rw [List.replicate_succ, List.cons_append, matches_star_iff] at h
    obtain ⟨u, r, rfl, hu, hm⟩ := h
    obtain ⟨u', y, t, rfl, h1, h2, h3, _⟩ := ih hm
    exact ⟨u ++ u', y, t, by simp, h1, h2, by simp [hu, h3], by omega⟩

theorem matchPieces_complete (n : Nat) : ∀ (p : Path) (name : List Piece) (is : List Item), p.length ≤ n → some '/' ∉ name →
    Denotes p is → matchPieces p name ≠ none ∧ (Rest is name → matchPieces p name = some true) := by
  induction n with
  | zero =>
    intro p name is hp hn hd
    have : p = [] := List.length_eq_zero_iff.1 (by omega)
    subst this
    have := denotes_nil hd
    subst this
    unfold matchPieces
    refine ⟨by simp, ?_⟩
    rintro ⟨j, s, rfl, h, h'⟩
    cases h
    rcases h' with rfl | h'
    · simp
    · cases h'
  | succ n ih =>
    intro p name is hpl hn hd
    by_cases hp : p = []
    · subst hp
      have := denotes_nil hd
      subst this
      unfold matchPieces
      refine ⟨by simp, ?_⟩
      rintro ⟨j, s, rfl, h, h'⟩
      cases h
      rcases h' with rfl | h'
      · simp
      · cases h'
    have hlen := scanChunk_length p hp
    obtain ⟨k, hk1, hk2, hk3⟩ := stars_split p
    have hsc : scanChunk p = (decide (p.head? = some '*'), scan false (p.dropWhile (· = '*'))) := rfl
    generalize hq : p.dropWhile (· = '*') = q at hk1 hk3 hsc
    rw [hsc] at hlen
    simp only at hlen
    rw [hk1] at hd
    obtain ⟨is', rfl, hd'⟩ := denotes_drop_stars k hd
    obtain ⟨cs, js, rfl, hcs, d1, d2, hrest⟩ := scan_denotes hd'
    have hm := matchChunk_spec d1 hcs name
    unfold matchPieces
    rw [dif_neg hp]
    simp only [hsc]
    split
    · refine ⟨by simp, fun _ => by simp [hn]⟩
    · rename_i hns
      simp only [hm]
      have hrec : ∀ t, some '/' ∉ t → matchPieces (scan false q).2 t ≠ none ∧
          (Rest js t → matchPieces (scan false q).2 t = some true) := by
        intro t ht
        exact ih _ t js (by omega) ht d2
      have hlast : (decide ((scan false q).2 = []) = true ∧ js = []) ∨
          (decide ((scan false q).2 = []) = false ∧ ∃ ks, js = .star :: ks) := by
        rcases hrest with ⟨a, b⟩ | ⟨r, ks, a, b⟩
        · exact Or.inl ⟨by simp [a], b⟩
        · exact Or.inr ⟨by simp [a], ks, b⟩
      have clean : ∀ {m t : List Piece}, some '/' ∉ m → consume cs m = some t → some '/' ∉ t := by
        intro m t h1 h2 h3
        obtain ⟨v, hv, _⟩ := consume_length h2
        exact h1 (by rw [hv]; simp [h3])
      -- what the loop after a star yields
      have hloop : ∀ t, skip (scan false q).1 (decide ((scan false q).2 = [])) (tails name) = some (some t) → some '/' ∉ t := by
        intro t ht
        obtain ⟨m, hmt, hmy, _⟩ := skip_sound ht
        rw [matchChunk_spec d1 hcs m] at hmy
        injection hmy with hmy
        exact clean (tails_slash hn hmt) hmy
      have hstar : (match (if decide (p.head? = some '*') = true then
                skip (scan false q).1 (decide ((scan false q).2 = [])) (tails name)
              else some none : Option (Option (List Piece))) with
            | none => none
            | some none => some false
            | some (some t) => matchPieces (scan false q).2 t) ≠ none ∧
          (∀ (j : Nat) (u y t : Path), 0 < k → name = List.replicate j none ++ (u ++ y).map some → (0 < j ∨ u ≠ []) →
            '/' ∉ u ++ y → consume cs (y.map some) = some (t.map some) → Matches js t →
            (match (if decide (p.head? = some '*') = true then
                skip (scan false q).1 (decide ((scan false q).2 = [])) (tails name)
              else some none : Option (Option (List Piece))) with
            | none => none
            | some none => some false
            | some (some t) => matchPieces (scan false q).2 t) = some true) := by
        by_cases hst : decide (p.head? = some '*') = true
        · simp only [hst, if_true]
          constructor
          · cases hsk : skip (scan false q).1 (decide ((scan false q).2 = [])) (tails name) with
            | none => exact absurd hsk (skip_total d1 hcs _ _)
            | some r =>
              cases r with
              | none => simp
              | some t => exact (hrec t (hloop t hsk)).1
          · intro j u y t _ e hju hsl hy ht
            simp only [List.mem_append, not_or] at hsl
            obtain ⟨as, bs, e1, e2⟩ := tails_reach y j u hju hsl.1
            obtain ⟨t', h1, h2⟩ := skip_complete d1 hcs (decide ((scan false q).2 = [])) hlast y t bs hsl.2 hy ht as e2
            rw [← e1, ← e] at h1
            rw [h1]
            exact (hrec t' (hloop t' h1)).2 h2
        · have hk0 : ¬ 0 < k := fun h => hst (hk2.2 h)
          rw [if_neg hst]
          exact ⟨by simp, fun j u y t h => absurd h hk0⟩
      -- what has to be matched
      have hgoal : Rest (List.replicate k .star ++ (cs ++ js)) name →
          ∃ (j : Nat) (u y t : Path), name = List.replicate j none ++ (u ++ y).map some ∧
            consume cs (y.map some) = some (t.map some) ∧ Matches js t ∧ '/' ∉ u ++ y ∧ ((0 < j ∨ u ≠ []) → 0 < k) := by
        rintro ⟨j, s, e, hM, h0⟩
        obtain ⟨u, y, t, rfl, h1, h2, h3, h4⟩ := rest_stars hcs hM
        refine ⟨j, u, y, t, e, h1, h2, ?_, ?_⟩
        · intro hmem
          apply hn
          rw [e]
          exact List.mem_append_right _ (List.mem_map.2 ⟨_, hmem, rfl⟩)
        · intro hju
          rcases Nat.eq_zero_or_pos k with rfl | hk
          · rcases hju with hj | hu
            · rcases h0 with h0 | h0
              · omega
              · exfalso
                simp only [List.replicate_zero, List.nil_append] at h0
                cases cs with
                | nil =>
                  -- an empty chunk without stars before it
                  simp only [List.nil_append] at h0
                  rcases hrest with ⟨a, b⟩ | ⟨r, ks, a, b⟩
                  · subst b; cases h0
                  · have hch : (scan false q).1 = [] := by
                      generalize hz : (scan false q).1 = z at d1
                      cases d1; rfl
                    have hparts := scan_parts false q
                    rw [hch, a, List.nil_append] at hparts
                    rw [← hparts] at hk3
                    simp at hk3
                | cons i cs =>
                  simp only [List.cons_append, List.head?_cons, Option.some.injEq] at h0
                  simp [h0] at hcs
            · exact absurd (h4 rfl) hu
          · exact hk
      cases hc : consume cs name with
      | none =>
        dsimp only
        refine ⟨hstar.1, fun hM => ?_⟩
        obtain ⟨j, u, y, t, e, h1, h2, h3, h4⟩ := hgoal hM
        have hju : 0 < j ∨ u ≠ [] := by
          refine Classical.byContradiction fun hno => ?_
          simp only [not_or, Classical.not_not] at hno
          have : j = 0 := by omega
          subst this
          rw [hno.2] at e
          simp only [List.replicate_zero, List.nil_append] at e
          rw [e, h1] at hc
          cases hc
        exact hstar.2 j u y t (h4 hju) e hju h3 h1 h2
      | some t0 =>
        dsimp only
        have ht0 := clean hn hc
        by_cases hif : t0 = [] ∨ (scan false q).2 ≠ []
        · rw [if_pos hif]
          dsimp only
          refine ⟨(hrec t0 ht0).1, fun hM => (hrec t0 ht0).2 ?_⟩
          obtain ⟨j, u, y, t, e, h1, h2, h3, h4⟩ := hgoal hM
          rcases hlast with ⟨hl1, hl2⟩ | ⟨hl1, ks, hl2⟩
          · have : t0 = [] := by
              rcases hif with h | h
              · exact h
              · simp at hl1; exact absurd hl1 h
            subst this; subst hl2; exact ⟨0, [], rfl, .nil, Or.inl rfl⟩
          · subst hl2
            rw [e] at hc
            exact rest_star hc h1 h3 h2
        · rw [if_neg hif]
          refine ⟨hstar.1, fun hM => ?_⟩
          simp only [not_or, Classical.not_not] at hif
          have hjs : js = [] := by
            rcases hlast with ⟨_, h⟩ | ⟨h, _⟩
            · exact h
            · simp at h; exact absurd hif.2 h
          obtain ⟨j, u, y, t, e, h1, h2, h3, h4⟩ := hgoal hM
          have hju : 0 < j ∨ u ≠ [] := by
            refine Classical.byContradiction fun hno => ?_
            simp only [not_or, Classical.not_not] at hno
            have : j = 0 := by omega
            subst this
            rw [hno.2] at e
            simp only [List.replicate_zero, List.nil_append] at e
            rw [e, h1] at hc
            cases hc
            subst hjs
            cases h2
            exact hif.1 rfl
          exact hstar.2 j u y t (h4 hju) e hju h3 h1 h2

/-! ## Bytes and characters -/

theorem bytes_ascii {is : List Item} {m : List Piece} (h : MatchesBytes is m) : ∀ n : Path, m = n.map some →
    (∀ c ∈ n, c.utf8Size = 1) → Matches is n := by
  induction h with
  | nil => intro n e _; cases n with | nil => exact .nil | cons a n => simp at e
  | one h t ih =>
    intro n e ha
    cases n with
    | nil => simp at e
    | cons a n =>
      simp only [List.map_cons, List.cons.injEq] at e
      obtain ⟨rfl, e⟩ := e
      exact .one ((accepts_some _ _).1 h) (ih n e fun c hc => ha c (List.mem_cons_of_mem _ hc))
  | starEnd t ih => intro n e ha; exact .starEnd (ih n e ha)
  | starMore h t ih =>
    intro n e ha
    cases n with
    | nil => simp at e
    | cons a n =>
      simp only [List.map_cons, List.cons.injEq] at e
      obtain ⟨rfl, rfl⟩ := e
      refine .starMore (by simpa using h) (ih n ?_ fun c hc => ha c (List.mem_cons_of_mem _ hc))
      simp [afterByte, ha a (by simp)]

theorem bytes_plain {is : List Item} {m : List Piece} (h : MatchesBytes is m) : (∀ i ∈ is, i.plain) → ∀ (j : Nat) (n : Path),
    m = List.replicate j none ++ n.map some → Matches is n := by
  induction h with
  | nil =>
    intro _ j n e
    cases n with
    | nil => exact .nil
    | cons a n => simp at e
  | @one i x is s h t ih =>
    intro hp j n e
    have hpi := hp i (by simp)
    cases i with
    | star => simp [Item.acceptsPiece, Item.accepts] at h
    | any => exact hpi.elim
    | set => exact hpi.elim
    | lit c =>
      simp only [Item.acceptsPiece] at h
      subst h
      cases j with
      | succ j => simp [List.replicate_succ] at e
      | zero =>
        cases n with
        | nil => simp at e
        | cons a n =>
          simp only [List.replicate_zero, List.nil_append, List.map_cons, List.cons.injEq, Option.some.injEq] at e
          obtain ⟨rfl, rfl⟩ := e
          exact .one rfl (ih (fun i hi => hp i (List.mem_cons_of_mem _ hi)) 0 n rfl)
  | starEnd t ih => intro hp j n e; exact .starEnd (ih (fun i hi => hp i (List.mem_cons_of_mem _ hi)) j n e)
  | starMore h t ih =>
    intro hp j n e
    cases j with
    | succ j =>
      simp only [List.replicate_succ, List.cons_append, List.cons.injEq] at e
      obtain ⟨rfl, rfl⟩ := e
      exact ih hp j n rfl
    | zero =>
      cases n with
      | nil => simp at e
      | cons a n =>
        simp only [List.replicate_zero, List.nil_append, List.map_cons, List.cons.injEq] at e
        obtain ⟨rfl, rfl⟩ := e
        exact .starMore (by simpa using h) (ih hp _ n rfl)

theorem bytes_orderly {is : List Item} : ∀ (n : Path), MatchesBytes is (n.map some) → Orderly is → Matches is n := by
  induction is with
  | nil =>
    intro n h _
    cases n with
    | nil => exact .nil
    | cons a n => simp only [List.map_cons] at h; cases h
  | cons i is ih =>
    intro n h ho
    by_cases hi : i = .star
    · subst hi
      refine bytes_plain h ?_ 0 n rfl
      intro i hi
      rcases List.mem_cons.1 hi with rfl | hi
      · trivial
      · exact ho i hi
    · have ho' : Orderly is := by cases i <;> first | exact absurd rfl hi | exact ho
      generalize hm : n.map some = m at h
      cases h with
      | one h t =>
        cases n with
        | nil => simp at hm
        | cons a n =>
          simp only [List.map_cons, List.cons.injEq] at hm
          obtain ⟨rfl, rfl⟩ := hm
          exact .one ((accepts_some _ _).1 h) (ih n t ho')
      | starEnd => exact absurd rfl hi
      | starMore => exact absurd rfl hi

/-! ## The answer -/

theorem slash_map {name : Path} (hn : '/' ∉ name) : some '/' ∉ name.map some := by
  intro h
  obtain ⟨c, hc, e⟩ := List.mem_map.1 h
  cases e
  exact hn hc

/-- Every name that matches the pattern gets the answer yes. -/
theorem goMatch_complete (p name : Path) (hn : '/' ∉ name) (h : Fits p name) : goMatch p name = some true := by
  obtain ⟨is, h1, h2⟩ := h
  exact (matchPieces_complete p.length p _ is (Nat.le_refl _) (slash_map hn) h1).2 ⟨0, name, rfl, h2, Or.inl rfl⟩

/-- Every name that gets the answer yes matches by bytes. -/
theorem goMatch_sound (p name : Path) (hn : '/' ∉ name) (h : goMatch p name = some true) : FitsBytes p name :=
  matchPieces_sound p.length p _ (Nat.le_refl _) (slash_map hn) h

theorem fits_tame {p name : Path} (h : FitsBytes p name) (ht : Tame p name) : Fits p name := by
  obtain ⟨is, h1, h2⟩ := h
  refine ⟨is, h1, ?_⟩
  rcases ht with ht | ht
  · exact bytes_ascii h2 name rfl ht
  · exact bytes_orderly name h2 (ht is h1)

/-- Where bytes and characters cannot be told apart, `filepath.Match` answers yes exactly for the names that match. -/
theorem goMatch_iff (p name : Path) (hn : '/' ∉ name) (ht : Tame p name) : goMatch p name = some true ↔ Fits p name :=
  ⟨fun h => fits_tame (goMatch_sound p name hn h) ht, goMatch_complete p name hn⟩

/-- There is no error for a well-formed pattern. -/
theorem goMatch_wellFormed (p name : Path) (hn : '/' ∉ name) (h : WellFormed p) : goMatch p name ≠ none := by
  obtain ⟨is, h⟩ := h
  exact (matchPieces_complete p.length p _ is (Nat.le_refl _) (slash_map hn) h).1

end MS.Glob
