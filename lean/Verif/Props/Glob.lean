import Verif.Lemmas.Glob
import Verif.Props.Files
import Verif.Props.Commands

/-! # Properties C78, C79: which songs `queue` selects -/

namespace MS.Glob

open MS.Files
open MS.GlobSpec hiding Piece

/-! ## Patterns without meta characters -/

theorem hasMeta_append (a b : Path) : hasMeta (a ++ b) = (hasMeta a || hasMeta b) := by simp [hasMeta]

theorem hasMeta_cons (c : Char) (p : Path) (h : hasMeta (c :: p) = false) :
    (c ≠ '*' ∧ c ≠ '?' ∧ c ≠ '[' ∧ c ≠ '\\') ∧ hasMeta p = false := by
  simp only [hasMeta, List.any_cons, Bool.or_eq_false_iff, decide_eq_false_iff_not] at h ⊢
  exact ⟨⟨h.1.1.1.1, h.1.1.1.2, h.1.1.2, h.1.2⟩, h.2⟩

theorem denotes_plain {c : Path} (h : hasMeta c = false) : Denotes c (c.map .lit) := by
  induction c with
  | nil => exact .nil
  | cons a c ih =>
    obtain ⟨⟨h1, h2, h3, h4⟩, h5⟩ := hasMeta_cons a c h
    exact .lit a h1 h2 h4 h3 (ih h5)

theorem matches_lits (c n : Path) : Matches (c.map .lit) n ↔ n = c := by
  induction c generalizing n with
  | nil => constructor
           · intro h; cases h; rfl
           · rintro rfl; exact .nil
  | cons a c ih =>
    constructor
    · intro h
      cases h with
      | one h t => simp only [Item.accepts] at h; rw [h, (ih _).1 t]
    · rintro rfl; exact .one rfl ((ih _).2 rfl)

theorem denotes_plain_unique {c : Path} (h : hasMeta c = false) : ∀ {is : List Item}, Denotes c is → is = c.map .lit := by
  induction c with
  | nil => intro is hd; exact denotes_nil hd
  | cons a c ih =>
    intro is hd
    obtain ⟨⟨h1, h2, h3, h4⟩, h5⟩ := hasMeta_cons a c h
    cases hd with
    | star t => exact absurd rfl h1
    | any t => exact absurd rfl h2
    | lit _ _ _ _ _ t => rw [ih h5 t]; rfl
    | escaped _ t => exact absurd rfl h4
    | set _ _ _ t => exact absurd rfl h3
    | negated _ _ t => exact absurd rfl h3

theorem fits_plain {c : Path} (h : hasMeta c = false) (n : Path) : Fits c n ↔ n = c := by
  constructor
  · intro ⟨is, h1, h2⟩
    rw [denotes_plain_unique h h1] at h2
    exact (matches_lits c n).1 h2
  · rintro rfl; exact ⟨_, denotes_plain h, (matches_lits _ _).2 rfl⟩

theorem wellFormed_plain {c : Path} (h : hasMeta c = false) : WellFormed c := ⟨_, denotes_plain h⟩

/-- The names that get the answer yes. -/
def Sel (p n : Path) : Prop := '/' ∉ n ∧ goMatch p n = some true

/-- The same, part by part. -/
inductive SelPath : List Path → List Path → Prop
  | nil : SelPath [] []
  | cons {p n : Path} {ps ns : List Path} (h : Sel p n) (t : SelPath ps ns) : SelPath (p :: ps) (n :: ns)

theorem sel_of_fits {p n : Path} (hn : '/' ∉ n) (h : Fits p n) : Sel p n := ⟨hn, goMatch_complete p n hn h⟩

theorem sel_bytes {p n : Path} (h : Sel p n) : FitsBytes p n := goMatch_sound p n h.1 h.2

theorem orderly_lits (c : Path) : Orderly (c.map .lit) := by
  induction c with
  | nil => trivial
  | cons a c ih => exact ih

theorem sel_plain {c : Path} (h : hasMeta c = false) (hc : '/' ∉ c) (n : Path) : Sel c n ↔ n = c := by
  constructor
  · intro hs
    refine (fits_plain h n).1 (fits_tame (sel_bytes hs) (Or.inr ?_))
    intro is hd
    rw [denotes_plain_unique h hd]
    exact orderly_lits c
  · rintro rfl; exact sel_of_fits hc ((fits_plain h _).2 rfl)

theorem selPath_of_fits {cs xs : List Path} (h : FitsPath cs xs) (hx : ∀ x ∈ xs, '/' ∉ x) : SelPath cs xs := by
  induction h with
  | nil => exact .nil
  | cons h t ih => exact .cons (sel_of_fits (hx _ (by simp)) h) (ih fun x hm => hx x (List.mem_cons_of_mem _ hm))

theorem selPath_bytes {cs xs : List Path} (h : SelPath cs xs) : FitsPathBytes cs xs := by
  induction h with
  | nil => exact .nil
  | cons h t ih => exact .cons (sel_bytes h) ih

/-- Specification: part by part, the pattern and the name cannot tell bytes from characters. -/
def TamePath (cs xs : List Path) : Prop := ∀ cn ∈ cs.zip xs, Tame cn.1 cn.2

theorem fitsPath_tame {cs xs : List Path} (h : FitsPathBytes cs xs) : TamePath cs xs → FitsPath cs xs := by
  induction h with
  | nil => intro _; exact .nil
  | cons h t ih =>
    intro ht
    exact .cons (fits_tame h (ht (_, _) (by simp))) (ih fun cn hm => ht cn (by simp [hm]))

theorem selPath_snoc {cs xs : List Path} {c n : Path} : SelPath (cs ++ [c]) (xs ++ [n]) ↔ SelPath cs xs ∧ Sel c n := by
  induction cs generalizing xs with
  | nil =>
    constructor
    · intro h
      cases xs with
      | nil => cases h with | cons h t => exact ⟨.nil, h⟩
      | cons x xs =>
        exfalso
        rw [List.nil_append, List.cons_append] at h
        cases h with
        | cons h t => generalize hz : xs ++ [n] = z at t; cases t; simp at hz
    · intro ⟨h1, h2⟩; cases h1; exact .cons h2 .nil
  | cons a cs ih =>
    constructor
    · intro h
      cases xs with
      | nil =>
        exfalso
        rw [List.nil_append, List.cons_append] at h
        cases h with
        | cons h t => generalize hz : cs ++ [c] = z at t; cases t; simp at hz
      | cons x xs =>
        rw [List.cons_append, List.cons_append] at h
        cases h with
        | cons h t => exact ⟨.cons h (ih.1 t).1, (ih.1 t).2⟩
    · intro ⟨h1, h2⟩
      cases h1 with
      | cons h t => exact .cons h (ih.2 ⟨t, h2⟩)

theorem selPath_length {cs xs : List Path} (h : SelPath cs xs) : cs.length = xs.length := by
  induction h with
  | nil => rfl
  | cons _ _ ih => simp [ih]

theorem selPath_plain {cs : List Path} (h : ∀ c ∈ cs, hasMeta c = false) (hs : ∀ c ∈ cs, '/' ∉ c) (xs : List Path) : SelPath cs xs ↔ xs = cs := by
  induction cs generalizing xs with
  | nil =>
    constructor
    · intro h; cases h; rfl
    · rintro rfl; exact .nil
  | cons c cs ih =>
    have ih := ih (fun c hc => h c (List.mem_cons_of_mem _ hc)) (fun c hc => hs c (List.mem_cons_of_mem _ hc))
    have hc := h c (by simp)
    have hc' := hs c (by simp)
    constructor
    · intro h
      cases h with
      | cons h t => rw [(sel_plain hc hc' _).1 h, (ih _).1 t]
    · rintro rfl
      exact .cons ((sel_plain hc hc' _).2 rfl) ((ih _).2 rfl)

/-! ## The music directory -/

/-- Specification: the file system is a tree below `d`: a path exists iff its directory lists its last name, directories
exist, and a directory lists proper names, each once. -/
structure Tree (fs : FS) (d : Path) : Prop where
  names : ∀ xs ns, (∀ x ∈ xs, Name x) → fs.dir (below d xs) = some ns → (∀ n ∈ ns, Name n) ∧ ns.Nodup
  entries : ∀ xs n, (∀ x ∈ xs, Name x) → Name n →
    (fs.exists_ (below d (xs ++ [n])) = true ↔ ∃ ns, fs.dir (below d xs) = some ns ∧ n ∈ ns)
  dirs : ∀ xs ns, (∀ x ∈ xs, Name x) → xs ≠ [] → fs.dir (below d xs) = some ns → fs.exists_ (below d xs) = true

theorem below_snoc {d : Path} (hd : d ≠ ['/']) (xs : List Path) (n : Path) :
    below d (xs ++ [n]) = below d xs ++ '/' :: n := by
  have h1 : ¬ (xs ++ [n]) = [] := by simp
  unfold below
  rw [if_neg h1, if_neg hd]
  by_cases hx : xs = []
  · subst hx; simp [joinSlash]
  · rw [if_neg hx, if_neg hd, joinSlash_append hx (by simp)]
    simp [joinSlash]

theorem dirPart_snoc (a n : Path) (h : '/' ∉ n) : dirPart (a ++ '/' :: n) = a ++ ['/'] := by
  unfold dirPart
  rw [List.reverse_append, List.reverse_cons, List.append_assoc, List.dropWhile_append_of_pos]
  · simp
  · intro x hx
    simp only [ne_eq, decide_not, Bool.not_eq_eq_eq_not, Bool.not_true, decide_eq_false_iff_not]
    rintro rfl
    exact h (by simpa using hx)

theorem filePart_snoc (a n : Path) (h : '/' ∉ n) : filePart (a ++ '/' :: n) = n := by
  unfold filePart
  rw [List.reverse_append, List.reverse_cons, List.append_assoc, List.takeWhile_append_of_pos]
  · simp
  · intro x hx
    simp only [ne_eq, decide_not, Bool.not_eq_eq_eq_not, Bool.not_true, decide_eq_false_iff_not]
    rintro rfl
    exact h (by simpa using hx)

theorem cleanGlobPath_slash (a : Path) (h : a ≠ []) : cleanGlobPath (a ++ ['/']) = a := by
  unfold cleanGlobPath
  rw [if_neg (by simp)]
  rw [if_neg]
  · simp
  · intro e
    have := congrArg List.length e
    simp at this
    exact h this

theorem hasMeta_below (d : Path) (hd : d ≠ ['/']) (hm : hasMeta d = false) (xs : List Path) :
    hasMeta (below d xs) = false ↔ ∀ x ∈ xs, hasMeta x = false := by
  have : ∀ n (xs : List Path), xs.length = n → (hasMeta (below d xs) = false ↔ ∀ x ∈ xs, hasMeta x = false) := by
    intro n
    induction n with
    | zero => intro xs h; have := List.length_eq_zero_iff.1 h; subst this; simp [below, hm]
    | succ n ih =>
      intro xs h
      have hne : xs ≠ [] := by intro e; subst e; simp at h
      obtain ⟨ys, y, rfl⟩ : ∃ ys y, xs = ys ++ [y] := ⟨xs.dropLast, xs.getLast hne, (List.dropLast_concat_getLast hne).symm⟩
      rw [below_snoc hd, hasMeta_append, Bool.or_eq_false_iff, ih ys (by simpa using h)]
      have : hasMeta ('/' :: y) = hasMeta y := by
        simp [hasMeta]
      rw [this]
      constructor
      · intro ⟨h1, h2⟩ x hx
        rcases List.mem_append.1 hx with hx | hx
        · exact h1 x hx
        · simp at hx; subst hx; exact h2
      · intro h
        exact ⟨fun x hx => h x (by simp [hx]), h y (by simp)⟩
  exact this _ xs rfl

/-! ## The loops of `Glob` -/

theorem globNames_some {dir p : Path} {ns : List Path} : ∀ {ms : List Path}, globNames dir p ns = some ms →
    ms = (ns.filter fun n => goMatch p n = some true).map (join dir) := by
  induction ns with
  | nil => intro ms h; cases h; rfl
  | cons n ns ih =>
    intro ms h
    simp only [globNames] at h
    split at h
    · cases h
    · rename_i b hb
      cases hr : globNames dir p ns with
      | none => rw [hr] at h; cases h
      | some rs =>
        rw [hr] at h
        cases h
        have := ih hr
        cases b
        · simp [hb, this]
        · simp [hb, this]

theorem globNames_total {dir p : Path} {ns : List Path} (h : ∀ n ∈ ns, goMatch p n ≠ none) : globNames dir p ns ≠ none := by
  induction ns with
  | nil => simp [globNames]
  | cons n ns ih =>
    simp only [globNames]
    split
    · rename_i e; exact absurd e (h n (by simp))
    · have := ih (fun n hn => h n (List.mem_cons_of_mem _ hn))
      cases hr : globNames dir p ns with
      | none => exact absurd hr this
      | some rs => simp

theorem sort_perm (ns : List Path) : (sortNames ns).Perm ns := List.mergeSort_perm _ _

theorem le_total' (a b : Path) : a ≤ b ∨ b ≤ a := List.le_total a b

theorem sort_sorted (ns : List Path) (h : ns.Nodup) : (sortNames ns).Pairwise (· < ·) := by
  have hs : (sortNames ns).Pairwise (fun a b => decide (a ≤ b) = true) := by
    apply List.pairwise_mergeSort
    · intro a b c h1 h2
      simp only [decide_eq_true_eq] at h1 h2 ⊢
      exact List.le_trans h1 h2
    · intro a b
      simp only [Bool.or_eq_true, decide_eq_true_eq]
      exact le_total' a b
  have hn : (sortNames ns).Nodup := (sort_perm ns).nodup_iff.2 h
  have := hs.and hn
  refine this.imp ?_
  intro a b ⟨h1, h2⟩
  simp only [decide_eq_true_eq] at h1
  rcases Classical.em (a < b) with h | h
  · exact h
  · exact absurd (List.le_antisymm h1 h) h2

theorem lt_snoc_left {xs ys : List Path} (h : xs < ys) (hl : xs.length = ys.length) (a b : Path) : xs ++ [a] < ys ++ [b] := by
  have h' : List.Lex (· < ·) xs ys := h
  show List.Lex (· < ·) _ _
  clear h
  induction h' with
  | nil => simp at hl
  | rel h => exact .rel h
  | cons h ih => exact .cons (ih (by simpa using hl))

theorem lt_snoc_right (xs : List Path) {a b : Path} (h : a < b) : xs ++ [a] < xs ++ [b] := by
  show List.Lex (· < ·) _ _
  induction xs with
  | nil => exact .rel h
  | cons x xs ih => exact .cons ih

/-- One directory. -/
theorem globDir_spec {fs : FS} {d : Path} (hc : CleanDir d) (ht : Tree fs d) {xs : List Path} (hx : ∀ x ∈ xs, Name x) (c : Path) :
    (WellFormed c → globDir fs (below d xs) c ≠ none) ∧
    ∀ ms, globDir fs (below d xs) c = some ms → ∃ rs : List Path, ms = rs.map (fun n => below d (xs ++ [n])) ∧
      (∀ n, n ∈ rs ↔ Name n ∧ fs.exists_ (below d (xs ++ [n])) = true ∧ Sel c n) ∧ rs.Pairwise (· < ·) := by
  unfold globDir
  cases hdir : fs.dir (below d xs) with
  | none =>
    refine ⟨by simp, fun ms h => ?_⟩
    cases h
    refine ⟨[], rfl, ?_, .nil⟩
    intro n
    simp only [List.not_mem_nil, false_iff]
    intro ⟨h1, h2, _⟩
    obtain ⟨ns, h3, _⟩ := (ht.entries xs n hx h1).1 h2
    rw [hdir] at h3; cases h3
  | some ns =>
    obtain ⟨hn, hnd⟩ := ht.names xs ns hx hdir
    have hmem : ∀ n, n ∈ sortNames ns ↔ n ∈ ns := fun n => (sort_perm ns).mem_iff
    constructor
    · intro hw
      exact globNames_total fun n h => goMatch_wellFormed c n (hn n ((hmem n).1 h)).2.1 hw
    · intro ms h
      dsimp only at h
      refine ⟨(sortNames ns).filter fun n => goMatch c n = some true, ?_, ?_, (sort_sorted ns hnd).filter _⟩
      · rw [globNames_some h]
        apply List.map_congr_left
        intro n h'
        exact join_below_below hc hx (hn n ((hmem n).1 (List.mem_filter.1 h').1))
      · intro n
        rw [List.mem_filter, hmem, decide_eq_true_eq]
        constructor
        · intro ⟨h1, h2⟩
          exact ⟨hn n h1, (ht.entries xs n hx (hn n h1)).2 ⟨ns, hdir, h1⟩, (hn n h1).2.1, h2⟩
        · intro ⟨h1, h2, h3⟩
          obtain ⟨ns', h4, h5⟩ := (ht.entries xs n hx h1).1 h2
          rw [hdir] at h4
          cases h4
          exact ⟨h5, h3.2⟩

/-- All matching directories. -/
theorem globDirs_spec {fs : FS} {d : Path} (hc : CleanDir d) (ht : Tree fs d) (c : Path) (k : Nat) : ∀ (xss : List (List Path)),
    (∀ xs ∈ xss, xs.length = k ∧ ∀ x ∈ xs, Name x) → xss.Pairwise (· < ·) →
    (WellFormed c → globDirs fs c (xss.map (below d)) ≠ none) ∧
    ∀ ms, globDirs fs c (xss.map (below d)) = some ms → ∃ rels : List (List Path), ms = rels.map (below d) ∧
      (∀ r, r ∈ rels ↔ ∃ xs ∈ xss, ∃ n, r = xs ++ [n] ∧ Name n ∧ fs.exists_ (below d r) = true ∧ Sel c n) ∧
      rels.Pairwise (· < ·) := by
  intro xss
  induction xss with
  | nil =>
    intro _ _
    refine ⟨by simp [globDirs], fun ms h => ?_⟩
    cases h
    exact ⟨[], rfl, by simp, .nil⟩
  | cons xs xss ih =>
    intro hl hp
    obtain ⟨hp1, hp2⟩ := List.pairwise_cons.1 hp
    obtain ⟨ih1, ih2⟩ := ih (fun xs h => hl xs (List.mem_cons_of_mem _ h)) hp2
    obtain ⟨g1, g2⟩ := globDir_spec hc ht (hl xs (by simp)).2 c
    simp only [List.map_cons, globDirs]
    constructor
    · intro hw
      cases h1 : globDir fs (below d xs) c with
      | none => exact absurd h1 (g1 hw)
      | some m1 =>
        cases h2 : globDirs fs c (xss.map (below d)) with
        | none => exact absurd h2 (ih1 hw)
        | some m2 => simp
    · intro ms h
      cases h1 : globDir fs (below d xs) c with
      | none => rw [h1] at h; cases h
      | some m1 =>
        rw [h1] at h
        cases h2 : globDirs fs c (xss.map (below d)) with
        | none => rw [h2] at h; cases h
        | some m2 =>
          rw [h2] at h
          cases h
          obtain ⟨rs, rfl, r1, r2⟩ := g2 m1 h1
          obtain ⟨rels, rfl, q1, q2⟩ := ih2 m2 h2
          refine ⟨rs.map (fun n => xs ++ [n]) ++ rels, ?_, ?_, ?_⟩
          · simp [List.map_append, Function.comp_def]
          · intro r
            simp only [List.mem_append, List.mem_map, List.mem_cons, q1]
            constructor
            · rintro (⟨n, hn, rfl⟩ | ⟨ys, hys, n, h⟩)
              · exact ⟨xs, Or.inl rfl, n, rfl, (r1 n).1 hn⟩
              · exact ⟨ys, Or.inr hys, n, h⟩
            · rintro ⟨ys, rfl | hys, n, rfl, h⟩
              · exact Or.inl ⟨n, (r1 n).2 h, rfl⟩
              · exact Or.inr ⟨ys, hys, n, rfl, h⟩
          · rw [List.pairwise_append]
            refine ⟨?_, q2, ?_⟩
            · rw [List.pairwise_map]
              exact r2.imp fun h => lt_snoc_right xs h
            · intro a ha b hb
              obtain ⟨n, _, rfl⟩ := List.mem_map.1 ha
              obtain ⟨ys, hys, m, rfl, _⟩ := (q1 b).1 hb
              exact lt_snoc_left (hp1 ys hys) (by rw [(hl xs (by simp)).1, (hl ys (List.mem_cons_of_mem _ hys)).1]) n m

/-- `Glob` below the music directory. -/
theorem glob_spec {fs : FS} {d : Path} (hc : CleanDir d) (hd : d ≠ ['/']) (hm : hasMeta d = false) (ht : Tree fs d) :
    ∀ (n : Nat) (cs : List Path), cs.length = n → cs ≠ [] → (∀ c ∈ cs, Name c) →
    ((∀ c ∈ cs, WellFormed c) → glob fs (below d cs) ≠ none) ∧
    ∀ ms, glob fs (below d cs) = some ms → ∃ rels : List (List Path), ms = rels.map (below d) ∧
      (∀ r, r ∈ rels ↔ (∀ x ∈ r, Name x) ∧ fs.exists_ (below d r) = true ∧ SelPath cs r) ∧ rels.Pairwise (· < ·) := by
  intro n
  induction n with
  | zero => intro cs h hne; exact absurd (List.length_eq_zero_iff.1 h) hne
  | succ n ih =>
    intro cs hl hne hcs
    have hbne := below_ne (cleanDir_ne hc) (d := d)
    unfold glob
    by_cases hplain : ∀ c ∈ cs, hasMeta c = false
    · rw [if_pos ((hasMeta_below d hd hm cs).2 hplain)]
      refine ⟨by simp, fun ms h => ?_⟩
      cases h
      refine ⟨if fs.exists_ (below d cs) then [cs] else [], by split <;> rfl, ?_, by split <;> simp⟩
      intro r
      rw [selPath_plain hplain fun c h => (hcs c h).2.1]
      constructor
      · intro h
        split at h
        · rename_i he
          simp at h
          subst h
          exact ⟨hcs, he, rfl⟩
        · simp at h
      · rintro ⟨h1, h2, rfl⟩
        simp [h2]
    · rw [if_neg (fun h => hplain ((hasMeta_below d hd hm cs).1 h))]
      obtain ⟨ys, c, rfl⟩ : ∃ ys c, cs = ys ++ [c] := ⟨cs.dropLast, cs.getLast hne, (List.dropLast_concat_getLast hne).symm⟩
      have hys : ∀ y ∈ ys, Name y := fun y h => hcs y (by simp [h])
      have hcn : Name c := hcs c (by simp)
      have hyl : ys.length = n := by simpa using hl
      rw [below_snoc hd]
      simp only [dirPart_snoc _ c hcn.2.1, filePart_snoc _ c hcn.2.1, cleanGlobPath_slash _ (hbne ys)]
      have snoc_of : ∀ r, SelPath (ys ++ [c]) r → ∃ zs m, r = zs ++ [m] := by
        intro r h
        have := selPath_length h
        have hr : r ≠ [] := by intro e; subst e; simp at this
        exact ⟨r.dropLast, r.getLast hr, (List.dropLast_concat_getLast hr).symm⟩
      by_cases hmy : hasMeta (below d ys) = false
      · rw [if_pos hmy]
        have hyp := (hasMeta_below d hd hm ys).1 hmy
        have hysl : ∀ y ∈ ys, '/' ∉ y := fun y h => (hys y h).2.1
        obtain ⟨g1, g2⟩ := globDir_spec hc ht hys c
        refine ⟨fun hw => g1 (hw c (by simp)), fun ms h => ?_⟩
        obtain ⟨rs, rfl, r1, r2⟩ := g2 ms h
        refine ⟨rs.map (fun m => ys ++ [m]), by simp [Function.comp_def], ?_, ?_⟩
        · intro r
          simp only [List.mem_map, r1]
          constructor
          · rintro ⟨m, ⟨h1, h2, h3⟩, rfl⟩
            refine ⟨?_, h2, selPath_snoc.2 ⟨(selPath_plain hyp hysl ys).2 rfl, h3⟩⟩
            intro x hx
            rcases List.mem_append.1 hx with hx | hx
            · exact hys x hx
            · simp at hx; subst hx; exact h1
          · intro ⟨h1, h2, h3⟩
            obtain ⟨zs, m, rfl⟩ := snoc_of r h3
            obtain ⟨f1, f2⟩ := selPath_snoc.1 h3
            have := (selPath_plain hyp hysl zs).1 f1
            subst this
            exact ⟨m, ⟨h1 m (by simp), h2, f2⟩, rfl⟩
        · rw [List.pairwise_map]
          exact r2.imp fun h => lt_snoc_right ys h
      · rw [if_neg hmy]
        have hyne : ys ≠ [] := by rintro rfl; exact hmy (by simpa [below] using hm)
        rw [dif_pos (by simp)]
        obtain ⟨i1, i2⟩ := ih ys hyl hyne hys
        cases hg : glob fs (below d ys) with
        | none =>
          refine ⟨fun hw => absurd hg (i1 fun c hc => hw c (by simp [hc])), fun ms h => by cases h⟩
        | some ds =>
          obtain ⟨xss, rfl, x1, x2⟩ := i2 ds hg
          dsimp only
          have hlen : ∀ xs ∈ xss, xs.length = ys.length ∧ ∀ x ∈ xs, Name x := by
            intro xs h
            obtain ⟨a, _, b⟩ := (x1 xs).1 h
            exact ⟨(selPath_length b).symm, a⟩
          obtain ⟨g1, g2⟩ := globDirs_spec hc ht c ys.length xss hlen x2
          refine ⟨fun hw => g1 (hw c (by simp)), fun ms h => ?_⟩
          obtain ⟨rels, rfl, r1, r2⟩ := g2 ms h
          refine ⟨rels, rfl, ?_, r2⟩
          intro r
          rw [r1]
          constructor
          · rintro ⟨xs, hxs, m, rfl, h1, h2, h3⟩
            obtain ⟨a, _, b⟩ := (x1 xs).1 hxs
            refine ⟨?_, h2, selPath_snoc.2 ⟨b, h3⟩⟩
            intro x hx
            rcases List.mem_append.1 hx with hx | hx
            · exact a x hx
            · simp at hx; subst hx; exact h1
          · intro ⟨h1, h2, h3⟩
            obtain ⟨zs, m, rfl⟩ := snoc_of r h3
            obtain ⟨f1, f2⟩ := selPath_snoc.1 h3
            have hzs : ∀ x ∈ zs, Name x := fun x hx => h1 x (by simp [hx])
            obtain ⟨ns, hns, _⟩ := (ht.entries zs m hzs (h1 m (by simp))).1 h2
            have hzne : zs ≠ [] := by
              rintro rfl
              have := selPath_length f1
              exact hyne (List.length_eq_zero_iff.1 (by simpa using this))
            exact ⟨zs, (x1 zs).2 ⟨hzs, ht.dirs zs ns hzs hzne hns, f1⟩, m, rfl, h1 m (by simp), h2, f2⟩

/-! ## C78 -/

/-- Specification: the parts of a pattern, between its slashes. -/
def parts (pattern : Path) : List Path := (split pattern).filter fun c => c ≠ [] && c ≠ ['.']

theorem parts_eq (p : Path) : parts p = good p := rfl

/-- Specification: the songs below `d`, by the names that lead there. -/
def Song (fs : FS) (d : Path) (r : List Path) : Prop :=
  r ≠ [] ∧ (∀ x ∈ r, Name x) ∧ fs.isFile (below d r) = true ∧ ∃ base, joinSlash r = base ++ ".mp3".toList

theorem song_filter (fs : FS) (d : Path) (rels : List (List Path)) :
    filterSongs (((rels.map (below d)).filter fs.isFile).map fun m => removeDirPrefix m d) =
      ((rels.filter fun r => fs.isFile (below d r)).map fun r => removeDirPrefix (below d r) d).filter
        (fun f => ['.', 'm', 'p', '3'].isSuffixOf f) := by
  unfold filterSongs
  congr 1
  rw [show (rels.map (below d)).filter fs.isFile = (rels.filter (fs.isFile ∘ below d)).map (below d) from List.filter_map ..,
    List.map_map]
  rfl

/-- What `queue` selects if the pattern is accepted, for every pattern. -/
theorem select_spec {fs : FS} {d : Path} (hc : CleanDir d) (hd : d ≠ ['/']) (hm : hasMeta d = false) (ht : Tree fs d)
    (pattern : Path) (hu : NoUp pattern) (hne : parts pattern ≠ []) :
    ((∀ c ∈ parts pattern, WellFormed c) → select fs d pattern ≠ none) ∧
    ∀ ss, select fs d pattern = some ss → ∃ rels : List (List Path), ss = rels.map joinSlash ∧
      (∀ r, r ∈ rels ↔ Song fs d r ∧ SelPath (parts pattern) r) ∧ rels.Pairwise (· < ·) := by
  have hn := good_names pattern hu
  rw [parts_eq] at hne ⊢
  obtain ⟨g1, g2⟩ := glob_spec hc hd hm ht _ (good pattern) rfl hne hn
  unfold select listGlobFiles
  rw [join_below hc pattern hu]
  refine ⟨fun hw => ?_, fun ss h => ?_⟩
  · cases h : glob fs (below d (good pattern)) with
    | none => exact absurd h (g1 hw)
    | some ms => simp
  · cases hg : glob fs (below d (good pattern)) with
    | none => rw [hg] at h; cases h
    | some ms =>
      rw [hg] at h
      cases h
      obtain ⟨rels, rfl, r1, r2⟩ := g2 ms hg
      refine ⟨rels.filter (fun r => fs.isFile (below d r) && ['.', 'm', 'p', '3'].isSuffixOf (joinSlash r)), ?_, ?_, r2.filter _⟩
      · rw [song_filter]
        have e : ((rels.filter fun r => fs.isFile (below d r)).map fun r => removeDirPrefix (below d r) d) =
            (rels.filter fun r => fs.isFile (below d r)).map joinSlash := by
          apply List.map_congr_left
          intro r hr
          exact remove_below hc ((r1 r).1 (List.mem_filter.1 hr).1).1 (fun e => absurd e hd)
        rw [e, List.filter_map, List.filter_filter]
        congr 1
        apply List.filter_congr
        intro r _
        simp only [Function.comp]
        exact Bool.and_comm _ _
      · intro r
        rw [List.mem_filter, r1, Bool.and_eq_true, List.isSuffixOf_iff_suffix]
        constructor
        · intro ⟨⟨h1, h2, h3⟩, h4, b, hb⟩
          refine ⟨⟨?_, h1, h4, b, hb.symm⟩, h3⟩
          rintro rfl
          exact hne (List.length_eq_zero_iff.1 (by simpa using selPath_length h3))
        · intro ⟨⟨h0, h1, h2, b, hb⟩, h3⟩
          refine ⟨⟨h1, ?_, h3⟩, h2, b, hb.symm⟩
          simp only [FS.isFile, Bool.and_eq_true] at h2
          exact h2.1

/-- C78, the songs: in a music directory given in the shortest way and without pattern characters, a well-formed pattern
without `..` selects every song below the music directory whose path matches the pattern part by part, each once, ordered by
their path; each selected name opens the file that matched. Everything selected is such a song, except that the library's
matcher goes by bytes behind a star (see the specification): this makes a difference only for names with characters outside
ASCII and patterns with `?` or a class behind a star. -/
theorem C78_select_partial {fs : FS} {d : Path} (hc : CleanDir d) (hd : d ≠ ['/']) (hm : hasMeta d = false) (ht : Tree fs d)
    (pattern : Path) (hu : NoUp pattern) (hne : parts pattern ≠ []) (hw : ∀ c ∈ parts pattern, WellFormed c) :
    ∃ rels : List (List Path), select fs d pattern = some (rels.map joinSlash) ∧
      (∀ r, Song fs d r → FitsPath (parts pattern) r → r ∈ rels) ∧
      (∀ r ∈ rels, Song fs d r ∧ FitsPathBytes (parts pattern) r ∧
        (TamePath (parts pattern) r → FitsPath (parts pattern) r)) ∧
      rels.Pairwise (· < ·) ∧ ∀ r ∈ rels, opened d (joinSlash r) = below d r := by
  obtain ⟨h1, h2⟩ := select_spec hc hd hm ht pattern hu hne
  cases hs : select fs d pattern with
  | none => exact absurd hs (h1 hw)
  | some ss =>
    obtain ⟨rels, rfl, a, b⟩ := h2 ss hs
    refine ⟨rels, rfl, ?_, ?_, b, fun r hr => ?_⟩
    · intro r h1 h2
      exact (a r).2 ⟨h1, selPath_of_fits h2 fun x hx => (h1.2.1 x hx).2.1⟩
    · intro r hr
      obtain ⟨h1, h2⟩ := (a r).1 hr
      have h3 := selPath_bytes h2
      exact ⟨h1, h3, fitsPath_tame h3⟩
    · have hn := ((a r).1 hr).1.2.1
      rw [opened, join_below hc _ (noUp_join hn), good_join hn]

/-- C78, exactly the songs that match, if no name and pattern part can tell bytes from characters (for example if all names are
ASCII, or if no `?` and no class comes behind a star). -/
theorem C78_select_exact_partial {fs : FS} {d : Path} (hc : CleanDir d) (hd : d ≠ ['/']) (hm : hasMeta d = false)
    (ht : Tree fs d) (pattern : Path) (hu : NoUp pattern) (hne : parts pattern ≠ [])
    (hw : ∀ c ∈ parts pattern, WellFormed c) (htame : ∀ r, Song fs d r → TamePath (parts pattern) r) :
    ∃ rels : List (List Path), select fs d pattern = some (rels.map joinSlash) ∧
      (∀ r, r ∈ rels ↔ Song fs d r ∧ FitsPath (parts pattern) r) ∧ rels.Pairwise (· < ·) := by
  obtain ⟨rels, h1, h2, h3, h4, _⟩ := C78_select_partial hc hd hm ht pattern hu hne hw
  refine ⟨rels, h1, fun r => ⟨fun h => ?_, fun h => h2 r h.1 h.2⟩, h4⟩
  obtain ⟨a, _, b⟩ := h3 r h
  exact ⟨a, b (htame r a)⟩

/-- C78, malformed patterns select nothing: they are reported as invalid, or as matching no song. -/
theorem C78_malformed {fs : FS} {d : Path} (hc : CleanDir d) (hd : d ≠ ['/']) (hm : hasMeta d = false) (ht : Tree fs d)
    (pattern : Path) (hu : NoUp pattern) (hne : parts pattern ≠ []) (c : Path) (hcp : c ∈ parts pattern)
    (hw : ¬ WellFormed c) : select fs d pattern = none ∨ select fs d pattern = some [] := by
  cases hs : select fs d pattern with
  | none => exact Or.inl rfl
  | some ss =>
    right
    obtain ⟨rels, rfl, a, _⟩ := (select_spec hc hd hm ht pattern hu hne).2 ss hs
    cases rels with
    | nil => rfl
    | cons r rels =>
      exfalso
      have h := ((a r).1 (by simp)).2
      have : ∀ (cs xs : List Path), FitsPathBytes cs xs → ∀ c ∈ cs, WellFormed c := by
        intro cs xs h
        induction h with
        | nil => simp
        | cons h _ ih =>
          intro c hc
          rcases List.mem_cons.1 hc with rfl | hc
          · exact ⟨h.choose, h.choose_spec.1⟩
          · exact ih c hc
      exact hw (this _ _ (selPath_bytes h) c hcp)

/-- C78, the command: `queue PATTERN` appends exactly the selected songs, in that order. -/
theorem C78_queue_partial {fs : FS} {d : Path} (hc : CleanDir d) (hd : d ≠ ['/']) (hm : hasMeta d = false) (ht : Tree fs d)
    (pattern : String) (hu : NoUp pattern.toList) (hne : parts pattern.toList ≠ [])
    (hw : ∀ c ∈ parts pattern.toList, WellFormed c) (e : Commands.Ext)
    (he : ∀ p : String, e.glob p = match select fs d p.toList with
      | some ss => .ok (ss.map String.ofList)
      | none => .error "syntax error in pattern".toList) (c : Commands.Ctl) :
    ∃ (rels : List (List Path)) (t : List Char),
      Commands.exec e .queue [pattern] c =
        .done { c with songs := c.songs ++ rels.map fun r => String.ofList (joinSlash r) } (.text t) ∧
      (∀ r, Song fs d r → FitsPath (parts pattern.toList) r → r ∈ rels) ∧
      (∀ r ∈ rels, Song fs d r ∧ FitsPathBytes (parts pattern.toList) r ∧
        (TamePath (parts pattern.toList) r → FitsPath (parts pattern.toList) r)) ∧ rels.Pairwise (· < ·) := by
  obtain ⟨rels, h1, h2, h2', h3, _⟩ := C78_select_partial hc hd hm ht pattern.toList hu hne hw
  have hg := he pattern
  rw [h1] at hg
  simp only [List.map_map] at hg
  by_cases hr : rels = []
  · subst hr
    obtain ⟨t, h⟩ := Commands.C34_no_match e pattern [] c (Or.inl hg)
    refine ⟨[], t, ?_, h2, h2', h3⟩
    rw [h]
    simp
  · obtain ⟨t, h⟩ := Commands.C34_append e pattern [] _ c rfl hg (by simpa using hr)
    exact ⟨rels, t, h, h2, h2', h3⟩

/-! ## C79 -/

/-- Two paths with the same text are the same. -/
theorem joinSlash_inj {r s : List Path} (hr : ∀ x ∈ r, Name x) (hs : ∀ x ∈ s, Name x) (h : joinSlash r = joinSlash s) :
    r = s := by
  rw [← good_join hr, ← good_join hs, h]

/-- A song whose path and pattern are given: it is the only selected one if it is the only one that fits. -/
theorem select_single {fs : FS} {d : Path} (hc : CleanDir d) (hd : d ≠ ['/']) (hm : hasMeta d = false) (ht : Tree fs d)
    (pattern : Path) (hu : NoUp pattern) (r : List Path) (hs : Song fs d r) (h1 : ∀ s, SelPath (parts pattern) s ↔ s = r)
    (hw : ∀ c ∈ parts pattern, WellFormed c) : select fs d pattern = some [joinSlash r] := by
  have hne : parts pattern ≠ [] := by
    intro e
    have := selPath_length ((h1 r).2 rfl)
    rw [e] at this
    exact hs.1 (List.length_eq_zero_iff.1 (by simpa using this.symm))
  obtain ⟨g1, g2⟩ := select_spec hc hd hm ht pattern hu hne
  obtain ⟨ss, e⟩ := Option.ne_none_iff_exists'.1 (g1 hw)
  obtain ⟨rels, rfl, h2, h3⟩ := g2 ss e
  have hall : ∀ s, s ∈ rels ↔ s = r := by
    intro s
    rw [h2, h1]
    constructor
    · exact And.right
    · rintro rfl; exact ⟨hs, rfl⟩
  have : rels = [r] := by
    match rels, hall, h3 with
    | [], hall, _ => exact absurd ((hall r).2 rfl) (by simp)
    | [a], hall, _ => rw [(hall a).1 (by simp)]
    | a :: b :: l, hall, h3 =>
      exfalso
      have ha := (hall a).1 (by simp)
      have hb := (hall b).1 (by simp)
      have := (List.pairwise_cons.1 h3).1 b (by simp)
      rw [ha, hb] at this
      exact List.lt_irrefl r this
  rw [e, this]
  rfl

/-- C79, names without pattern characters: queueing a listed song by its name adds exactly this song. -/
theorem C79_plain_partial {fs : FS} {d : Path} (hc : CleanDir d) (hd : d ≠ ['/']) (hm : hasMeta d = false) (ht : Tree fs d)
    (r : List Path) (hs : Song fs d r) (hp : ∀ n ∈ r, hasMeta n = false) :
    select fs d (joinSlash r) = some [joinSlash r] := by
  have hg : parts (joinSlash r) = r := good_join hs.2.1
  refine select_single hc hd hm ht _ (noUp_join hs.2.1) r hs ?_ ?_
  · rw [hg]; exact selPath_plain hp fun c h => (hs.2.1 c h).2.1
  · rw [hg]; exact fun c h => wellFormed_plain (hp c h)

/-- Specification: a name with a backslash before every pattern character. -/
def escape : Path → Path
  | [] => []
  | c :: p => if c = '*' ∨ c = '?' ∨ c = '[' ∨ c = '\\' then '\\' :: c :: escape p else c :: escape p

theorem escape_denotes (n : Path) : ∀ is, Denotes (escape n) is ↔ is = n.map .lit := by
  induction n with
  | nil =>
    intro is
    constructor
    · exact denotes_nil
    · rintro rfl; exact .nil
  | cons c p ih =>
    intro is
    unfold escape
    generalize escape p = q at ih
    split
    · constructor
      · intro h
        cases h with
        | lit _ _ _ h => exact absurd rfl h
        | escaped _ t => rw [(ih _).1 t]; rfl
      · rintro rfl; exact .escaped c ((ih _).2 rfl)
    · rename_i h
      simp only [not_or] at h
      constructor
      · intro hd
        cases hd with
        | star => exact absurd rfl h.1
        | any => exact absurd rfl h.2.1
        | lit _ _ _ _ _ t => rw [(ih _).1 t]; rfl
        | escaped => exact absurd rfl h.2.2.2
        | set => exact absurd rfl h.2.2.1
        | negated => exact absurd rfl h.2.2.1
      · rintro rfl; exact .lit c h.1 h.2.1 h.2.2.2 h.2.2.1 ((ih _).2 rfl)

theorem escape_mem {n : Path} {x : Char} (h : x ∈ escape n) : x ∈ n ∨ x = '\\' := by
  induction n with
  | nil => simp [escape] at h
  | cons c p ih =>
    unfold escape at h
    split at h
    · simp only [List.mem_cons] at h ⊢
      rcases h with h | h | h
      · exact Or.inr h
      · exact Or.inl (Or.inl h)
      · rcases ih h with h | h
        · exact Or.inl (Or.inr h)
        · exact Or.inr h
    · simp only [List.mem_cons] at h ⊢
      rcases h with h | h
      · exact Or.inl (Or.inl h)
      · rcases ih h with h | h
        · exact Or.inl (Or.inr h)
        · exact Or.inr h

theorem escape_name {n : Path} (h : Name n) : Name (escape n) := by
  have key : escape n = n ∨ '\\' ∈ escape n := by
    clear h
    induction n with
    | nil => exact Or.inl rfl
    | cons c p ih =>
      unfold escape
      split
      · right; simp
      · rcases ih with e | e
        · left; rw [e]
        · right; simp [e]
  rcases key with e | e
  · rw [e]; exact h
  · refine ⟨by intro h; rw [h] at e; simp at e, ?_, by intro h; rw [h] at e; simp at e, by intro h; rw [h] at e; simp at e⟩
    intro hm
    rcases escape_mem hm with h' | h'
    · exact h.2.1 h'
    · exact absurd h' (by decide)

/-- C79, every listed song can be queued: with a backslash before every pattern character of its name, exactly this song is
selected. -/
theorem C79_escaped {fs : FS} {d : Path} (hc : CleanDir d) (hd : d ≠ ['/']) (hm : hasMeta d = false) (ht : Tree fs d)
    (r : List Path) (hs : Song fs d r) : select fs d (joinSlash (r.map escape)) = some [joinSlash r] := by
  have hn : ∀ x ∈ r.map escape, Name x := by
    intro x hx
    obtain ⟨y, hy, rfl⟩ := List.mem_map.1 hx
    exact escape_name (hs.2.1 y hy)
  have hg : parts (joinSlash (r.map escape)) = r.map escape := good_join hn
  refine select_single hc hd hm ht _ (noUp_join hn) r hs ?_ ?_
  · rw [hg]
    intro s
    have hsl : ∀ x ∈ r, '/' ∉ x := fun x hx => (hs.2.1 x hx).2.1
    revert hsl
    generalize r = q
    intro hsl
    induction q generalizing s with
    | nil =>
      constructor
      · intro h; cases h; rfl
      · rintro rfl; exact .nil
    | cons c q ih =>
      have ih := fun s => ih s fun x hx => hsl x (List.mem_cons_of_mem _ hx)
      have hf : ∀ n, Sel (escape c) n ↔ n = c := by
        intro n
        constructor
        · intro h
          have ho : Tame (escape c) n := by
            refine Or.inr fun is hd => ?_
            rw [(escape_denotes c is).1 hd]
            exact orderly_lits c
          obtain ⟨is, h1, h2⟩ := fits_tame (sel_bytes h) ho
          rw [(escape_denotes c is).1 h1] at h2
          exact (matches_lits c n).1 h2
        · rintro rfl
          exact sel_of_fits (hsl _ (by simp)) ⟨_, (escape_denotes _ _).2 rfl, (matches_lits _ _).2 rfl⟩
      constructor
      · intro h
        cases h with
        | cons h t => rw [(hf _).1 h, (ih _).1 t]
      · rintro rfl
        exact .cons ((hf _).2 rfl) ((ih _).2 rfl)
  · rw [hg]
    intro c h
    obtain ⟨y, _, rfl⟩ := List.mem_map.1 h
    exact ⟨_, (escape_denotes y _).2 rfl⟩

theorem ranges_pos {u : Path} {rs : List (Char × Char)} (h : Ranges u rs) : rs ≠ [] → 0 < u.length := by
  intro hne
  cases h with
  | nil => exact absurd rfl hne
  | one h t => cases h <;> simp
  | range h _ t => cases h <;> simp

/-- Without a star a pattern has at most as many terms as characters, and fewer if a bracket or backslash occurs. -/
theorem denotes_count {c : Path} {is : List Item} (h : Denotes c is) : '*' ∉ c →
    .star ∉ is ∧ is.length ≤ c.length ∧ (('[' ∈ c ∨ '\\' ∈ c) → is.length < c.length) := by
  induction h with
  | nil => intro _; exact ⟨by simp, by simp, by simp⟩
  | star t ih => intro h; simp at h
  | any t ih =>
    intro h
    simp only [List.mem_cons, not_or] at h
    obtain ⟨a, b, d⟩ := ih h.2
    refine ⟨by simp [a], by simp; omega, ?_⟩
    simp only [List.mem_cons, List.length_cons, show ¬ ('[' : Char) = '?' by decide, show ¬ ('\\' : Char) = '?' by decide, false_or]
    intro h; have := d h; omega
  | lit c h1 h2 h3 h4 t ih =>
    intro h
    simp only [List.mem_cons, not_or] at h
    obtain ⟨a, b, d⟩ := ih h.2
    refine ⟨by simp [a], by simp; omega, ?_⟩
    simp only [List.mem_cons, List.length_cons, Ne.symm h3, Ne.symm h4, false_or]
    intro h; have := d h; omega
  | escaped c t ih =>
    intro h
    simp only [List.mem_cons, not_or] at h
    obtain ⟨a, b, d⟩ := ih h.2.2
    exact ⟨by simp [a], by simp; omega, by intro _; simp; omega⟩
  | set hr hne hc t ih =>
    intro h
    simp only [List.mem_cons, List.mem_append, not_or] at h
    obtain ⟨a, b, d⟩ := ih h.2.2.2
    have := ranges_pos hr hne
    exact ⟨by simp [a], by simp; omega, by intro _; simp; omega⟩
  | negated hr hne t ih =>
    intro h
    simp only [List.mem_cons, List.mem_append, not_or] at h
    obtain ⟨a, b, d⟩ := ih h.2.2.2.2
    have := ranges_pos hr hne
    exact ⟨by simp [a], by simp; omega, by intro _; simp; omega⟩

theorem matches_length {is : List Item} {n : List Piece} (h : MatchesBytes is n) : .star ∉ is → n.length = is.length := by
  induction h with
  | nil => simp
  | one h t ih => intro hs; simp only [List.mem_cons, not_or] at hs; simp [ih hs.2]
  | starEnd t ih => intro hs; simp at hs
  | starMore h t ih => intro hs; simp at hs

/-- C79 is false for names with a bracket or a backslash: such a song, if its name has no star, is never selected by its
name, in any music directory. -/
theorem C79_bracket_never {fs : FS} {d : Path} (hc : CleanDir d) (hd : d ≠ ['/']) (hm : hasMeta d = false) (ht : Tree fs d)
    (r : List Path) (hs : Song fs d r) (n : Path) (hn : n ∈ r) (hb : '[' ∈ n ∨ '\\' ∈ n) (hstar : '*' ∉ n) :
    ∀ ss, select fs d (joinSlash r) = some ss → joinSlash r ∉ ss := by
  intro ss h hmem
  have hg : parts (joinSlash r) = r := good_join hs.2.1
  obtain ⟨rels, rfl, a, _⟩ := (select_spec hc hd hm ht _ (noUp_join hs.2.1) (by rw [hg]; exact hs.1)).2 ss h
  obtain ⟨s, hsr, e⟩ := List.mem_map.1 hmem
  obtain ⟨h1, h2⟩ := (a s).1 hsr
  have := joinSlash_inj h1.2.1 hs.2.1 e
  subst this
  rw [hg] at h2
  have key : ∀ (cs xs : List Path), FitsPathBytes cs xs → cs = xs → ∀ n ∈ cs, FitsBytes n n := by
    intro cs xs h
    induction h with
    | nil => simp
    | cons h t ih =>
      intro e n hn
      simp only [List.cons.injEq] at e
      rcases List.mem_cons.1 hn with rfl | hn
      · rw [← e.1] at h; exact h
      · exact ih e.2 n hn
  obtain ⟨is, d1, d2⟩ := key _ _ (selPath_bytes h2) rfl n hn
  obtain ⟨c1, _, c3⟩ := denotes_count d1 hstar
  have := matches_length d2 c1
  rw [List.length_map] at this
  have := c3 hb
  omega

/-- Names with stars and question marks only: the song is selected, with every other song that matches. -/
theorem C79_wildcards {fs : FS} {d : Path} (hc : CleanDir d) (hd : d ≠ ['/']) (hm : hasMeta d = false) (ht : Tree fs d)
    (r : List Path) (hs : Song fs d r) (hb : ∀ n ∈ r, '[' ∉ n ∧ '\\' ∉ n) :
    ∃ ss, select fs d (joinSlash r) = some ss ∧ joinSlash r ∈ ss := by
  have hg : parts (joinSlash r) = r := good_join hs.2.1
  have self : ∀ n : Path, '[' ∉ n → '\\' ∉ n → '/' ∉ n → Fits n n := by
    intro n
    induction n with
    | nil => intro _ _ _; exact ⟨[], .nil, .nil⟩
    | cons c n ih =>
      intro h1 h2 h3
      simp only [List.mem_cons, not_or] at h1 h2 h3
      obtain ⟨is, d1, d2⟩ := ih h1.2 h2.2 h3.2
      by_cases e1 : c = '*'
      · subst e1; exact ⟨_, .star d1, .starMore (by decide) (.starEnd d2)⟩
      by_cases e2 : c = '?'
      · subst e2; exact ⟨_, .any d1, .one (by simp [Item.accepts]) d2⟩
      · exact ⟨_, .lit c e1 e2 (Ne.symm h2.1) (Ne.symm h1.1) d1, .one rfl d2⟩
  have hfit : ∀ n ∈ r, Fits n n := fun n hn => self n (hb n hn).1 (hb n hn).2 (hs.2.1 n hn).2.1
  have hfp : FitsPath r r := by
    have : ∀ q : List Path, (∀ n ∈ q, Fits n n) → FitsPath q q := by
      intro q
      induction q with
      | nil => intro _; exact .nil
      | cons a q ih => intro h; exact .cons (h a (by simp)) (ih fun n hn => h n (List.mem_cons_of_mem _ hn))
    exact this r hfit
  obtain ⟨rels, e, h2, _, _⟩ := C78_select_partial hc hd hm ht _ (noUp_join hs.2.1) (by rw [hg]; exact hs.1)
    (by rw [hg]; exact fun c h => ⟨_, (hfit c h).choose_spec.1⟩)
  exact ⟨_, e, List.mem_map.2 ⟨r, h2 r hs (by rw [hg]; exact hfp), rfl⟩⟩

/-! ## Refutations and examples -/

/-- A finite tree below `d`: the paths and whether they are directories. -/
def ofList (d : Path) (es : List (List Path × Bool)) : FS where
  dir p := if p = d then some (es.filterMap fun e => if e.1.dropLast = [] then e.1.getLast? else none)
    else (es.find? fun e => decide (below d e.1 = p) && e.2).map fun f =>
      es.filterMap fun e => if e.1.dropLast = f.1 then e.1.getLast? else none
  exists_ p := es.any fun e => decide (below d e.1 = p)

/-- Every path has proper names and stands in a directory of the list, and none occurs twice. -/
structure Proper (es : List (List Path × Bool)) : Prop where
  names : ∀ e ∈ es, e.1 ≠ [] ∧ ∀ n ∈ e.1, Name n
  parent : ∀ e ∈ es, e.1.dropLast = [] ∨ (e.1.dropLast, true) ∈ es
  once : (es.map Prod.fst).Nodup

theorem below_inj {d : Path} (hd : d ≠ ['/']) {xs ys : List Path} (hx : ∀ n ∈ xs, Name n) (hy : ∀ n ∈ ys, Name n)
    (h : below d xs = below d ys) : xs = ys := by
  unfold below at h
  rw [if_neg hd, if_neg hd] at h
  split at h
  · rename_i e
    split at h
    · rename_i e'; rw [e, e']
    · have := congrArg List.length h; simp at this
  · split at h
    · have := congrArg List.length h; simp at this
    · have := List.append_cancel_left h
      simp only [List.cons.injEq, true_and] at this
      exact joinSlash_inj hx hy this

theorem children_mem (es : List (List Path × Bool)) (hp : Proper es) (xs : List Path) (n : Path) :
    n ∈ (es.filterMap fun e => if e.1.dropLast = xs then e.1.getLast? else none) ↔ ∃ b, (xs ++ [n], b) ∈ es := by
  simp only [List.mem_filterMap]
  constructor
  · rintro ⟨⟨p, b⟩, he, h⟩
    simp only at h
    split at h
    · rename_i hd
      have hne := (hp.names _ he).1
      simp only [ne_eq] at hne
      rw [List.getLast?_eq_some_getLast hne] at h
      cases h
      refine ⟨b, ?_⟩
      rw [← hd, List.dropLast_concat_getLast hne]
      exact he
    · cases h
  · rintro ⟨b, he⟩
    exact ⟨_, he, by simp⟩

theorem children_nodup (es : List (List Path × Bool)) (hp : Proper es) (xs : List Path) :
    (es.filterMap fun e => if e.1.dropLast = xs then e.1.getLast? else none).Nodup := by
  have h1 := hp.once
  have h2 := hp.names
  clear hp
  induction es with
  | nil => simp
  | cons e es ih =>
    simp only [List.map_cons, List.nodup_cons] at h1
    have ih := ih h1.2 (fun e he => h2 e (List.mem_cons_of_mem _ he))
    by_cases hd : e.1.dropLast = xs
    · have hne := (h2 e (by simp)).1
      rw [List.filterMap_cons]
      simp only [hd, if_true, List.getLast?_eq_some_getLast hne, List.nodup_cons]
      refine ⟨?_, ih⟩
      intro hm
      obtain ⟨f, hf, h⟩ := List.mem_filterMap.1 hm
      split at h
      · rename_i hd'
        have hne' := (h2 f (List.mem_cons_of_mem _ hf)).1
        rw [List.getLast?_eq_some_getLast hne'] at h
        injection h with h
        apply h1.1
        refine List.mem_map.2 ⟨f, hf, ?_⟩
        rw [← List.dropLast_concat_getLast hne', ← List.dropLast_concat_getLast hne, h, hd, hd']
      · cases h
    · rw [List.filterMap_cons]
      simp only [hd, if_false]
      exact ih

theorem pair_unique {es : List (List Path × Bool)} (h : (es.map Prod.fst).Nodup) {p : List Path} {b c : Bool}
    (h1 : (p, b) ∈ es) (h2 : (p, c) ∈ es) : b = c := by
  induction es with
  | nil => simp at h1
  | cons e es ih =>
    simp only [List.map_cons, List.nodup_cons] at h
    simp only [List.mem_cons] at h1 h2
    rcases h1 with h1 | h1 <;> rcases h2 with h2 | h2
    · rw [← h1] at h2; cases h2; rfl
    · exact absurd (List.mem_map.2 ⟨_, h2, by rw [← h1]⟩) h.1
    · exact absurd (List.mem_map.2 ⟨_, h1, by rw [← h2]⟩) h.1
    · exact ih h.2 h1 h2

theorem ofList_dir {d : Path} (hd : d ≠ ['/']) {es : List (List Path × Bool)} (hp : Proper es) {xs : List Path}
    (hx : ∀ x ∈ xs, Name x) (ns : List Path) : (ofList d es).dir (below d xs) = some ns ↔
      (xs = [] ∨ (xs, true) ∈ es) ∧ ns = es.filterMap fun e => if e.1.dropLast = xs then e.1.getLast? else none := by
  unfold ofList
  by_cases h0 : xs = []
  · subst h0
    simp [below, eq_comm]
  · have hb : below d xs ≠ d := by
      intro e
      exact h0 (below_inj hd hx (ys := []) (by simp) (by simpa [below] using e))
    simp only [hb, if_false, h0, false_or]
    constructor
    · intro h
      cases hf : es.find? (fun e => decide (below d e.1 = below d xs) && e.2) with
      | none => rw [hf] at h; cases h
      | some f =>
        rw [hf] at h
        have h1 := List.find?_some hf
        have h2 := List.mem_of_find?_eq_some hf
        simp only [Bool.and_eq_true, decide_eq_true_eq] at h1
        have e := below_inj hd (hp.names f h2).2 hx h1.1
        simp only [Option.map_some, Option.some.injEq] at h
        refine ⟨?_, by rw [← h, e]⟩
        have : f = (xs, true) := by rw [← e, ← h1.2]
        rw [← this]; exact h2
    · intro ⟨h1, h2⟩
      cases hf : es.find? (fun e => decide (below d e.1 = below d xs) && e.2) with
      | none =>
        have := List.find?_eq_none.1 hf _ h1
        simp at this
      | some f =>
        have h3 := List.find?_some hf
        have h4 := List.mem_of_find?_eq_some hf
        simp only [Bool.and_eq_true, decide_eq_true_eq] at h3
        have e := below_inj hd (hp.names f h4).2 hx h3.1
        simp only [Option.map_some, Option.some.injEq]
        rw [h2, e]

theorem ofList_exists {d : Path} (hd : d ≠ ['/']) {es : List (List Path × Bool)} (hp : Proper es) {xs : List Path}
    (hx : ∀ x ∈ xs, Name x) : (ofList d es).exists_ (below d xs) = true ↔ ∃ b, (xs, b) ∈ es := by
  simp only [ofList, List.any_eq_true, decide_eq_true_eq]
  constructor
  · rintro ⟨⟨p, b⟩, he, h⟩
    have := below_inj hd (hp.names _ he).2 hx h
    simp only at this
    subst this
    exact ⟨b, he⟩
  · rintro ⟨b, he⟩; exact ⟨_, he, rfl⟩

/-- Every finite tree meets the specification. -/
theorem tree_ofList {d : Path} (hd : d ≠ ['/']) {es : List (List Path × Bool)} (hp : Proper es) : Tree (ofList d es) d where
  names := by
    intro xs ns hx h
    obtain ⟨h1, rfl⟩ := (ofList_dir hd hp hx ns).1 h
    refine ⟨?_, children_nodup es hp xs⟩
    intro n hn
    obtain ⟨b, hb⟩ := (children_mem es hp xs n).1 hn
    exact (hp.names _ hb).2 n (by simp)
  entries := by
    intro xs n hx hn
    have hx' : ∀ x ∈ xs ++ [n], Name x := by
      intro x h
      rcases List.mem_append.1 h with h | h
      · exact hx x h
      · simp at h; subst h; exact hn
    rw [ofList_exists hd hp hx']
    constructor
    · rintro ⟨b, hb⟩
      refine ⟨_, (ofList_dir hd hp hx _).2 ⟨?_, rfl⟩, (children_mem es hp xs n).2 ⟨b, hb⟩⟩
      simpa using hp.parent _ hb
    · rintro ⟨ns, h1, h2⟩
      obtain ⟨_, rfl⟩ := (ofList_dir hd hp hx ns).1 h1
      exact (children_mem es hp xs n).1 h2
  dirs := by
    intro xs ns hx hne h
    obtain ⟨h1, _⟩ := (ofList_dir hd hp hx ns).1 h
    rw [ofList_exists hd hp hx]
    rcases h1 with h1 | h1
    · exact absurd h1 hne
    · exact ⟨_, h1⟩

theorem ofList_isFile {d : Path} (hd : d ≠ ['/']) {es : List (List Path × Bool)} (hp : Proper es) {xs : List Path}
    (hx : ∀ x ∈ xs, Name x) (h : (xs, false) ∈ es) : (ofList d es).isFile (below d xs) = true := by
  have h1 := (ofList_exists hd hp hx).2 ⟨_, h⟩
  have h2 : (ofList d es).dir (below d xs) = none := by
    cases hdir : (ofList d es).dir (below d xs) with
    | none => rfl
    | some ns =>
      obtain ⟨h3, _⟩ := (ofList_dir hd hp hx ns).1 hdir
      rcases h3 with rfl | h3
      · exact absurd rfl (hp.names _ h).1
      · cases pair_unique hp.once h h3
  simp [FS.isFile, h1, h2]

instance (n : Path) : Decidable (Name n) := by unfold Name; infer_instance

/-- The tree of the examples: the songs `a.mp3`, `[x].mp3` and `s/b.mp3`, and a text. -/
def music : List (List Path × Bool) :=
  [([['s']], true), ([['s'], "b.mp3".toList], false), (["[x].mp3".toList], false), (["a.mp3".toList], false),
    (["x".toList], false)]

theorem music_proper : Proper music where
  names := by decide
  parent := by decide
  once := by decide

/-- The pattern `*/[a-c].mp3`. -/
def pat : Path := "*/[a-c].mp3".toList

theorem pat_parts : parts pat = [['*'], "[a-c].mp3".toList] := by decide

theorem pat_denotes : Denotes ['*'] [.star] ∧
    Denotes "[a-c].mp3".toList [.set false [('a', 'c')], .lit '.', .lit 'm', .lit 'p', .lit '3'] := by
  refine ⟨.star .nil, ?_⟩
  have h : Ranges ['a', '-', 'c'] [('a', 'c')] :=
    .range (u := ['a']) (v := ['c']) (.plain 'a' (by decide) (by decide) (by decide)) (.plain 'c' (by decide) (by decide) (by decide)) .nil
  exact .set h (by simp) (by simp) (.lit '.' (by decide) (by decide) (by decide) (by decide)
    (.lit 'm' (by decide) (by decide) (by decide) (by decide) (.lit 'p' (by decide) (by decide) (by decide) (by decide)
      (.lit '3' (by decide) (by decide) (by decide) (by decide) .nil))))

/-- The hypotheses of C78 hold in the example, and the song `s/b.mp3` is selected. -/
example : ∃ ss, select (ofList ['m'] music) ['m'] pat = some ss ∧ "s/b.mp3".toList ∈ ss := by
  obtain ⟨rels, h1, h2, _, _⟩ := C78_select_partial (d := ['m']) (by unfold CleanDir; decide) (by decide) (by decide)
    (tree_ofList (by decide) music_proper) pat (by unfold NoUp; decide) (by rw [pat_parts]; simp)
    (by
      rw [pat_parts]
      intro c hc
      simp only [List.mem_cons, List.not_mem_nil, or_false] at hc
      rcases hc with rfl | rfl
      · exact ⟨_, pat_denotes.1⟩
      · exact ⟨_, pat_denotes.2⟩)
  refine ⟨_, h1, List.mem_map.2 ⟨[['s'], "b.mp3".toList], h2 _ ?_ ?_, by decide⟩⟩
  · exact ⟨by simp, by decide, ofList_isFile (by decide) music_proper (by decide) (by decide), "s/b".toList, by decide⟩
  · rw [pat_parts]
    refine .cons ⟨_, pat_denotes.1, .starMore (by decide) (.starEnd .nil)⟩ (.cons ⟨_, pat_denotes.2, ?_⟩ .nil)
    exact .one ⟨('a', 'c'), by simp, by decide, by decide⟩ (.one rfl (.one rfl (.one rfl (.one rfl .nil))))

/-- The hypotheses of C79 hold in the example: the song `[x].mp3` is listed, and cannot be queued by that name. -/
example : ∀ ss, select (ofList ['m'] music) ['m'] "[x].mp3".toList = some ss → "[x].mp3".toList ∉ ss :=
  C79_bracket_never (d := ['m']) (by unfold CleanDir; decide) (by decide) (by decide)
    (tree_ofList (by decide) music_proper) ["[x].mp3".toList]
    ⟨by simp, by decide, ofList_isFile (by decide) music_proper (by decide) (by decide), "[x]".toList, by decide⟩
    "[x].mp3".toList (by simp) (by decide) (by decide)

example : select (ofList ['m'] music) ['m'] "\\[x].mp3".toList = some ["[x].mp3".toList] :=
  C79_escaped (d := ['m']) (by unfold CleanDir; decide) (by decide) (by decide)
    (tree_ofList (by decide) music_proper) ["[x].mp3".toList]
    ⟨by simp, by decide, ofList_isFile (by decide) music_proper (by decide) (by decide), "[x]".toList, by decide⟩

example : select (ofList ['m'] music) ['m'] "s/b.mp3".toList = some ["s/b.mp3".toList] :=
  C79_plain_partial (d := ['m']) (by unfold CleanDir; decide) (by decide) (by decide)
    (tree_ofList (by decide) music_proper) [['s'], "b.mp3".toList]
    ⟨by simp, by decide, ofList_isFile (by decide) music_proper (by decide) (by decide), "s/b".toList, by decide⟩
    (by decide)

/-- C78 is false for patterns with `..`: they select songs outside the music directory, under names that open other files. -/
theorem C78_escape : ∃ fs : FS, fs.isFile "m2/y.mp3".toList = true ∧
    select fs ['m'] "../m2/y.mp3".toList = some ["2/y.mp3".toList] ∧
    opened ['m'] "2/y.mp3".toList = "m/2/y.mp3".toList ∧ fs.exists_ "m/2/y.mp3".toList = false := by
  refine ⟨⟨fun _ => none, fun p => decide (p = "m2/y.mp3".toList)⟩, by decide, ?_, by decide, by decide⟩
  have e : join ['m'] "../m2/y.mp3".toList = "m2/y.mp3".toList := by decide
  unfold select listGlobFiles
  rw [e]
  unfold glob
  decide

/-- C78 is false for music directories with pattern characters in their name: nothing is found, although the song is there. -/
theorem C78_meta_dir : ∃ fs : FS, fs.isFile "[m]/a.mp3".toList = true ∧ select fs "[m]".toList "a.mp3".toList = some [] := by
  let fs : FS := ⟨fun p => if p = "[m]".toList then some ["a.mp3".toList] else if p = ['.'] then some ["[m]".toList] else none,
    fun p => decide (p = "[m]/a.mp3".toList)⟩
  refine ⟨fs, by decide, ?_⟩
  have e : join "[m]".toList "a.mp3".toList = "[m]/a.mp3".toList := by decide
  have h1 : goMatch "[m]".toList "[m]".toList = some false := by
    unfold goMatch matchPieces
    simp [scanChunk, scan, matchChunk, ranges, getEsc]
  have d1 : cleanGlobPath (dirPart "[m]/a.mp3".toList) = "[m]".toList := by decide
  have d2 : cleanGlobPath (dirPart "[m]".toList) = ['.'] := by decide
  have g : glob fs "[m]".toList = some [] := by
    unfold glob
    rw [if_neg (by decide)]
    simp only [d2]
    rw [if_pos (by decide)]
    have f : filePart "[m]".toList = "[m]".toList := by decide
    have s : sortNames ["[m]".toList] = ["[m]".toList] := by simp [sortNames, List.mergeSort_singleton]
    show globNames ['.'] (filePart "[m]".toList) (sortNames ["[m]".toList]) = some []
    rw [f, s]
    simp only [globNames, h1]
    rfl
  unfold select listGlobFiles
  rw [e]
  unfold glob
  rw [if_neg (by decide)]
  simp only [d1]
  rw [if_neg (by decide), dif_pos (by decide), g]
  rfl

/-- A malformed pattern is not always reported as such: with only the song `b.mp3` there, `queue a[` says that no song
matches. -/
theorem C78_malformed_silent : ¬ WellFormed ['a', '['] ∧
    select (ofList ['m'] [([['b', '.', 'm', 'p', '3']], false)]) ['m'] ['a', '['] = some [] := by
  constructor
  · rintro ⟨is, h⟩
    generalize hq : (['[']  : Path) = q at h
    cases h with
    | lit _ _ _ _ _ t =>
      subst hq
      generalize hr : ([] : Path) = r at t
      cases t with
      | lit _ _ _ _ h => exact h rfl
      | set => simp at hr
      | negated => simp at hr
  · have h1 : goMatch ['a', '['] ['b', '.', 'm', 'p', '3'] = some false := by
      unfold goMatch matchPieces
      simp [scanChunk, scan, matchChunk]
    have e : join ['m'] ['a', '['] = ['m', '/', 'a', '['] := by decide
    have d1 : cleanGlobPath (dirPart ['m', '/', 'a', '[']) = ['m'] := by decide
    have f : filePart ['m', '/', 'a', '['] = ['a', '['] := by decide
    have s : sortNames [['b', '.', 'm', 'p', '3']] = [['b', '.', 'm', 'p', '3']] := by simp [sortNames, List.mergeSort_singleton]
    unfold select listGlobFiles
    rw [e]
    unfold glob
    rw [if_neg (by decide)]
    simp only [d1, f]
    rw [if_pos (by decide)]
    have : globDir (ofList ['m'] [([['b', '.', 'm', 'p', '3']], false)]) ['m'] ['a', '['] = some [] := by
      show globNames ['m'] ['a', '['] (sortNames [['b', '.', 'm', 'p', '3']]) = some []
      rw [s]
      simp only [globNames, h1]
      rfl
    rw [this]
    rfl

/-- The pattern `*[^é].mp3`: everything that does not end in é. -/
def notE : Path := ['*', '[', '^', 'é', ']', '.', 'm', 'p', '3']

/-- The song `é.mp3`. -/
def songE : Path := ['é', '.', 'm', 'p', '3']

theorem notE_items : Denotes notE [.star, .set true [('é', 'é')], .lit '.', .lit 'm', .lit 'p', .lit '3'] :=
  .star (.negated (u := ['é']) (.one (u := ['é']) (.plain 'é' (by decide) (by decide) (by decide)) .nil) (by simp)
    (.lit '.' (by decide) (by decide) (by decide) (by decide) (.lit 'm' (by decide) (by decide) (by decide) (by decide)
      (.lit 'p' (by decide) (by decide) (by decide) (by decide) (.lit '3' (by decide) (by decide) (by decide) (by decide) .nil)))))

theorem notE_match : goMatch notE songE = some true := by
  have r1 : ranges 'é' true false ['é', ']', '.', 'm', 'p', '3'] = some (true, ['.', 'm', 'p', '3']) := by
    simp [ranges, getEsc]
  have r2 : ranges '\uFFFD' true false ['é', ']', '.', 'm', 'p', '3'] = some (false, ['.', 'm', 'p', '3']) := by
    simp [ranges, getEsc]
  have s1 : scanChunk notE = (true, ['[', '^', 'é', ']', '.', 'm', 'p', '3'], []) := by decide
  have m1 : matchChunk (songE.map some) ['[', '^', 'é', ']', '.', 'm', 'p', '3'] = some none := by
    simp [songE, matchChunk, r1]
  have m2 : matchChunk (none :: songE.tail.map some) ['[', '^', 'é', ']', '.', 'm', 'p', '3'] = some (some []) := by
    simp [songE, matchChunk, r2]
  have t1 : tails (songE.map some) = (none :: songE.tail.map some) :: (tails (songE.map some)).tail := by decide
  generalize (tails (songE.map some)).tail = ts at t1
  unfold goMatch matchPieces
  rw [dif_neg (by decide)]
  simp only [s1, m1, t1, skip, m2]
  simp [matchPieces]

theorem notE_not : ¬ Fits notE songE := by
  rintro ⟨is, hd, hm⟩
  have sc : scan false notE.tail = (notE.tail, []) := by decide
  cases hd with
  | lit _ h => exact h rfl
  | @star _ is t =>
    obtain ⟨cs, js, rfl, h1, h2, h3, _⟩ := scan_denotes t
    change Denotes (scan false notE.tail).1 cs at h2
    change Denotes (scan false notE.tail).2 js at h3
    rw [sc] at h2 h3
    have := denotes_nil h3
    subst this
    rw [List.append_nil] at hm
    obtain ⟨u, y, e, _, hy⟩ := (matches_star_iff cs songE).1 hm
    obtain ⟨t', c1, c2⟩ := consume_matches cs [] h1 y (by simpa using hy)
    cases c2
    have hmc := matchChunk_spec h2 h1 (y.map some)
    rw [c1] at hmc
    have hl : u.length ≤ songE.length := by rw [e]; simp
    have hy : y = songE.drop u.length := by rw [e]; simp
    have key : ∀ k, k ≤ 5 → matchChunk ((songE.drop k).map some) notE.tail = some none := by
      intro k hk
      match k, hk with
      | 0, _ => simp [songE, notE, matchChunk, ranges, getEsc]
      | 1, _ => simp [songE, notE, matchChunk, ranges, getEsc]
      | 2, _ => simp [songE, notE, matchChunk, ranges, getEsc]
      | 3, _ => simp [songE, notE, matchChunk, ranges, getEsc]
      | 4, _ => simp [songE, notE, matchChunk, ranges, getEsc]
      | 5, _ => simp [songE, notE, matchChunk]
    have := key u.length hl
    rw [← hy, hmc] at this
    simp at this

/-- C78 is false for names outside ASCII: `queue *[^é].mp3` adds the song `é.mp3`, which does not match, since the library's
matcher lets the star end between the two bytes of é. -/
theorem C78_bytes : WellFormed notE ∧ ¬ Fits notE songE ∧
    select (ofList ['m'] [([songE], false)]) ['m'] notE = some [songE] := by
  refine ⟨⟨_, notE_items⟩, notE_not, ?_⟩
  · have e : join ['m'] notE = ['m', '/'] ++ notE := by decide
    have d1 : cleanGlobPath (dirPart (['m', '/'] ++ notE)) = ['m'] := by decide
    have f : filePart (['m', '/'] ++ notE) = notE := by decide
    have s : sortNames [songE] = [songE] := by simp [sortNames, List.mergeSort_singleton]
    unfold select listGlobFiles
    rw [e]
    unfold glob
    rw [if_neg (by decide)]
    simp only [d1, f]
    rw [if_pos (by decide)]
    have : globDir (ofList ['m'] [([songE], false)]) ['m'] notE = some [['m', '/'] ++ songE] := by
      show globNames ['m'] notE (sortNames [songE]) = _
      rw [s]
      simp only [globNames, notE_match]
      decide
    rw [this]
    decide

/-- The pattern `*??*a`. -/
def twoThenA : Path := ['*', '?', '?', '*', 'a']

/-- Matching by bytes is an upper bound only: the library does not go back to a star once the text up to the next star has been
found, so that `*??*a` does not select `€a`, although the star could end behind the first byte of €. -/
theorem C78_bytes_bound : FitsBytes twoThenA ['€', 'a'] ∧ goMatch twoThenA ['€', 'a'] = some false := by
  constructor
  · refine ⟨[.star, .any, .any, .star, .lit 'a'], .star (.any (.any (.star (.lit 'a' (by decide) (by decide) (by decide) (by decide) .nil)))), ?_⟩
    refine .starMore (by decide) ?_
    show MatchesBytes _ [none, none, some 'a']
    exact .starEnd (.one (by simp [Item.acceptsPiece, Item.accepts]) (.one (by simp [Item.acceptsPiece, Item.accepts]) (.starEnd (.one rfl .nil))))
  · have s1 : scanChunk twoThenA = (true, ['?', '?'], ['*', 'a']) := by decide
    have s2 : scanChunk ['*', 'a'] = (true, ['a'], []) := by decide
    unfold goMatch matchPieces
    rw [dif_neg (by decide)]
    simp only [s1]
    simp [matchChunk]
    unfold matchPieces
    simp [s2, matchChunk, tails, skip]

/-- The hypotheses of the exact form hold in the example: all names are ASCII. -/
example : ∃ rels : List (List Path), select (ofList ['m'] music) ['m'] pat = some (rels.map joinSlash) ∧
    ∀ r, r ∈ rels ↔ Song (ofList ['m'] music) ['m'] r ∧ FitsPath (parts pat) r := by
  obtain ⟨rels, h1, h2, _⟩ := C78_select_exact_partial (d := ['m']) (by unfold CleanDir; decide) (by decide) (by decide)
    (tree_ofList (by decide) music_proper) pat (by unfold NoUp; decide) (by rw [pat_parts]; simp)
    (by
      rw [pat_parts]
      intro c hc
      simp only [List.mem_cons, List.not_mem_nil, or_false] at hc
      rcases hc with rfl | rfl
      · exact ⟨_, pat_denotes.1⟩
      · exact ⟨_, pat_denotes.2⟩)
    (by
      intro r hr cn hcn
      left
      obtain ⟨b, hb⟩ := (ofList_exists (d := ['m']) (by decide) music_proper hr.2.1).1
        (by have := hr.2.2.1; simp only [FS.isFile, Bool.and_eq_true] at this; exact this.1)
      have all : ∀ e ∈ music, ∀ n ∈ e.1, ∀ c ∈ n, c.utf8Size = 1 := by decide
      exact all _ hb cn.2 (List.of_mem_zip hcn).2)
  exact ⟨rels, h1, h2⟩
end MS.Glob
