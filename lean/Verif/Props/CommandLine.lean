import Verif.Props.CommandNumbers
import Verif.Props.Flags
import Verif.Props.Logging
/-!
# Property C119: the words of the command line
-/
set_option linter.unusedSimpArgs false
namespace MS.CommandLine
open MS.Numbers MS.CommandSpec MS.Flags

/-! ## Values -/

theorem setValue_iff (k : Kind) (s : List Char) (g : Given) : setValue k s = some g ↔ Reads parseDuration k s g := by
  cases k with
  | text =>
    simp only [setValue, Option.some.injEq]
    exact ⟨fun h => h ▸ .text, fun h => by cases h; rfl⟩
  | int =>
    simp only [setValue, Option.map_eq_some_iff]
    constructor
    · rintro ⟨n, h, rfl⟩
      obtain ⟨h1, h2, h3⟩ := (parseInt_iff s n).1 h
      exact .int h1 h2 h3
    · intro h
      cases h with
      | int h1 h2 h3 => exact ⟨_, (parseInt_iff s _).2 ⟨h1, h2, h3⟩, rfl⟩
  | uint =>
    simp only [setValue, Option.map_eq_some_iff]
    constructor
    · rintro ⟨n, h, rfl⟩
      obtain ⟨h1, h2⟩ := (parseUint_iff s n).1 h
      exact .uint h1 h2
    · intro h
      cases h with
      | uint h1 h2 => exact ⟨_, (parseUint_iff s _).2 ⟨h1, h2⟩, rfl⟩
  | dur =>
    simp only [setValue, Option.map_eq_some_iff]
    constructor
    · rintro ⟨n, h, rfl⟩; exact .dur h
    · intro h
      cases h with
      | dur h => exact ⟨_, h, rfl⟩
  | switch =>
    simp only [setValue, Option.map_eq_some_iff]
    constructor
    · rintro ⟨b, h, rfl⟩
      refine .switch ?_
      unfold parseBool at h
      split at h
      · rename_i hm
        obtain ⟨x, hx, rfl⟩ := List.mem_map.1 hm
        cases h; exact .on hx
      · split at h
        · rename_i hm
          obtain ⟨x, hx, rfl⟩ := List.mem_map.1 hm
          cases h; exact .off hx
        · cases h
    · intro h
      cases h with
      | switch h =>
        refine ⟨_, ?_, rfl⟩
        cases h with
        | on h =>
          unfold parseBool
          rw [if_pos (List.mem_map.2 ⟨_, h, rfl⟩)]
        | @off x h =>
          have : x.toList ∉ ["1", "t", "T", "TRUE", "true", "True"].map String.toList := by
            simp only [List.mem_cons, List.not_mem_nil, or_false] at h
            rcases h with rfl | rfl | rfl | rfl | rfl | rfl <;> decide
          unfold parseBool
          rw [if_neg this, if_pos (List.mem_map.2 ⟨_, h, rfl⟩)]

/-! ## Words -/

theorem cut_some (n v : List Char) (hn : n ≠ []) (he : '=' ∉ n.tail) : cutEquals (n ++ '=' :: v) = (n, some v) := by
  match n with
  | [] => exact absurd rfl hn
  | [c] => rfl
  | c :: d :: r =>
    have hd : d ≠ '=' := by rintro rfl; simp at he
    have ih := cut_some (d :: r) v (by simp) (by simp at he ⊢; exact he.2)
    rw [List.cons_append] at ih ⊢
    rw [cutEquals.eq_def]
    simp only [List.cons_append, hd, if_false]
    rw [ih]

theorem cut_none (n : List Char) (he : '=' ∉ n.tail) : cutEquals n = (n, none) := by
  match n with
  | [] => rfl
  | [c] => rfl
  | c :: d :: r =>
    have hd : d ≠ '=' := by rintro rfl; simp at he
    have ih := cut_none (d :: r) (by simp at he ⊢; exact he.2)
    rw [cutEquals]
    simp only [hd, if_false]
    rw [ih]

theorem cut_spec (w : List Char) : w = (cutEquals w).1 ++ ((cutEquals w).2.map ('=' :: ·)).getD [] := by
  match w with
  | [] => rfl
  | [c] => rfl
  | c :: d :: r =>
    rw [cutEquals]
    by_cases hd : d = '='
    · simp [hd]
    · simp only [hd, if_false, List.cons_append]
      rw [← cut_spec (d :: r)]

/-- what a word with dashes does -/
def optWord (formal : Formal) (args : List Word) (name : List Char) (value : Option (List Char)) :
    Option (List (List Char × Given) × List Word) :=
  match formal.lookup name with
  | none => none
  | some .switch =>
    match setValue .switch (value.getD "true".toList) with
    | none => none
    | some v => (parseWords formal args).map fun r => ((name, v) :: r.1, r.2)
  | some k =>
    match value, args with
    | some t, args =>
      match setValue k t with
      | none => none
      | some v => (parseWords formal args).map fun r => ((name, v) :: r.1, r.2)
    | none, t :: args =>
      match setValue k t with
      | none => none
      | some v => (parseWords formal args).map fun r => ((name, v) :: r.1, r.2)
    | none, [] => none

theorem parse_dash (formal : Formal) (args : List Word) (c : Char) (cs : List Char) :
    parseWords formal (('-' :: c :: cs) :: args) =
      if c = '-' ∧ cs = [] then some ([], args)
      else if (if c = '-' then cs else c :: cs).head? = some '-' ∨ (if c = '-' then cs else c :: cs).head? = some '=' then none
      else optWord formal args (cutEquals (if c = '-' then cs else c :: cs)).1 (cutEquals (if c = '-' then cs else c :: cs)).2 := by
  rw [parseWords.eq_def]
  rfl

theorem parse_plain (formal : Formal) (args : List Word) (w : Word) (h : ∀ c cs, w ≠ '-' :: c :: cs) :
    parseWords formal (w :: args) = some ([], w :: args) := by
  rw [parseWords.eq_def]
  split
  · rename_i heq; cases heq
  · rename_i s a heq
    cases heq
    split
    · rename_i c cs; exact absurd rfl (h c cs)
    · rfl

/-- the names of a table can be told from their dashes and values -/
def Clean (t : Table) : Prop := ∀ o ∈ t, ∀ n ∈ o.1, n.toList ≠ [] ∧ n.toList.head? ≠ some '-' ∧ '=' ∉ n.toList

/-- the table describes the registered flags -/
def Describes (t : Table) (formal : Formal) : Prop := ∀ n k, formal.lookup n = some k ↔ Known t n k

theorem known_clean {t : Table} (hc : Clean t) {n : List Char} {k : Kind} (h : Known t n k) :
    n ≠ [] ∧ n.head? ≠ some '-' ∧ '=' ∉ n := by
  obtain ⟨o, ho, -, m, hm, rfl⟩ := h
  exact hc o ho m hm

theorem head_ne_eq {n : List Char} (h : '=' ∉ n) : n.head? ≠ some '=' := by
  intro hh
  cases n with
  | nil => simp at hh
  | cons c r => simp at hh; exact h (by simp [hh])

theorem not_tail {n : List Char} (h : '=' ∉ n) : '=' ∉ n.tail := fun hm => h (List.mem_of_mem_tail hm)

/-- a word with dashes in front of `b` -/
theorem parse_word (formal : Formal) (args : List Word) {d b : List Char} (hd : Dashes d) (hb : b ≠ [])
    (h1 : b.head? ≠ some '-') (h2 : b.head? ≠ some '=') :
    parseWords formal ((d ++ b) :: args) = optWord formal args (cutEquals b).1 (cutEquals b).2 := by
  obtain ⟨c, r, rfl⟩ : ∃ c r, b = c :: r := by cases b with
    | nil => exact absurd rfl hb
    | cons c r => exact ⟨c, r, rfl⟩
  simp only [List.head?_cons, ne_eq, Option.some.injEq] at h1 h2
  rcases hd with rfl | rfl
  · rw [List.singleton_append, parse_dash, if_neg (by simp [h1])]
    simp only [h1, if_false, List.head?_cons, Option.some.injEq, h2, or_self]
  · rw [List.cons_append, List.singleton_append, parse_dash, if_neg (by simp)]
    simp only [if_true, List.head?_cons, Option.some.injEq, h1, h2, or_self, if_false]

theorem parse_of_line {t : Table} {formal : Formal} (hc : Clean t) (hd : Describes t formal) {words rest : List Word}
    {texts : List (List Char × Kind × List Char)} (h : Line t words texts rest) : ∀ opts, AllRead parseDuration texts opts →
    parseWords formal words = some (opts, rest) := by
  induction h with
  | done => intro opts h; cases h; rw [parseWords]
  | plain hw => intro opts h; cases h; exact parse_plain _ _ _ hw
  | stop =>
    intro opts h; cases h
    rw [parse_dash, if_pos ⟨rfl, rfl⟩]
  | @separate d n k v ws os rest h1 h2 h3 _ ih =>
    intro opts h
    cases h with
    | cons hr ha =>
      obtain ⟨c1, c2, c3⟩ := known_clean hc h2
      rw [parse_word _ _ h1 c1 c2 (head_ne_eq c3), cut_none n (not_tail c3)]
      simp only [optWord, (hd n k).2 h2]
      rw [← setValue_iff] at hr
      cases k with
      | switch => exact absurd rfl h3
      | _ => simp only [hr, ih _ ha, Option.map_some]
  | @joined d n k v ws os rest h1 h2 _ ih =>
    intro opts h
    cases h with
    | cons hr ha =>
      obtain ⟨c1, c2, c3⟩ := known_clean hc h2
      have e1 : (n ++ '=' :: v).head? = n.head? := by
        cases n with
        | nil => exact absurd rfl c1
        | cons c r => rfl
      rw [List.append_assoc, parse_word _ _ h1 (by simp) (by rw [e1]; exact c2) (by rw [e1]; exact head_ne_eq c3),
        cut_some n v c1 (not_tail c3)]
      simp only [optWord, (hd n k).2 h2]
      rw [← setValue_iff] at hr
      cases k <;> simp only [Option.getD_some, hr, ih _ ha, Option.map_some]
  | @bare d n ws os rest h1 h2 _ ih =>
    intro opts h
    cases h with
    | cons hr ha =>
      obtain ⟨c1, c2, c3⟩ := known_clean hc h2
      rw [parse_word _ _ h1 c1 c2 (head_ne_eq c3), cut_none n (not_tail c3)]
      simp only [optWord, (hd n _).2 h2]
      rw [← setValue_iff] at hr
      simp only [Option.getD_none, hr, ih _ ha, Option.map_some]

theorem line_of_parse {t : Table} {formal : Formal} (hd : Describes t formal) : ∀ (k : Nat) (words : List Word), words.length ≤ k →
    ∀ opts rest, parseWords formal words = some (opts, rest) →
    ∃ texts, Line t words texts rest ∧ AllRead parseDuration texts opts := by
  intro k
  induction k with
  | zero =>
    intro words hl opts rest h
    obtain rfl : words = [] := List.length_eq_zero_iff.1 (by omega)
    rw [parseWords] at h; cases h
    exact ⟨[], .done, .nil⟩
  | succ k ih =>
    intro words hl opts rest h
    cases words with
    | nil => rw [parseWords] at h; cases h; exact ⟨[], .done, .nil⟩
    | cons w args =>
      by_cases hw : ∀ c cs, w ≠ '-' :: c :: cs
      · rw [parse_plain _ _ _ hw] at h; cases h
        exact ⟨[], .plain hw, .nil⟩
      · obtain ⟨c, cs, rfl⟩ : ∃ c cs, w = '-' :: c :: cs := by
          false_or_by_contra
          rename_i hn
          exact hw fun c cs e => hn ⟨c, cs, e⟩
        rw [parse_dash] at h
        by_cases h0 : c = '-' ∧ cs = []
        · rw [if_pos h0] at h; cases h
          obtain ⟨rfl, rfl⟩ := h0
          exact ⟨[], .stop, .nil⟩
        · rw [if_neg h0] at h
          -- the word is dashes and a body
          obtain ⟨d, b, hdash, e, e'⟩ : ∃ d b, Dashes d ∧ '-' :: c :: cs = d ++ b ∧ (if c = '-' then cs else c :: cs) = b := by
            by_cases hc : c = '-'
            · subst hc; exact ⟨['-', '-'], cs, .inr rfl, rfl, by simp⟩
            · exact ⟨['-'], c :: cs, .inl rfl, rfl, by simp [hc]⟩
          rw [e'] at h
          split at h
          · cases h
          · have hspec := cut_spec b
            rw [e]
            generalize hn : (cutEquals b).1 = n at h hspec
            generalize hv : (cutEquals b).2 = v at h hspec
            have hl' : args.length ≤ k := by simp at hl; exact hl
            -- a value in the same word
            have joined : ∀ kind x, Known t n kind → v = some x → ∀ g r, Reads parseDuration kind x g →
                parseWords formal args = some r → opts = (n, g) :: r.1 → rest = r.2 →
                ∃ texts, Line t ((d ++ b) :: args) texts rest ∧ AllRead parseDuration texts opts := by
              rintro kind x hk rfl g ⟨o, r⟩ hr hp h8 h9
              subst h8 h9
              obtain ⟨texts, h1, h2⟩ := ih args hl' _ _ hp
              simp only [Option.map_some, Option.getD_some] at hspec
              rw [hspec, ← List.append_assoc]
              exact ⟨_, .joined hdash hk h1, .cons hr h2⟩
            unfold optWord at h
            split at h
            · cases h
            · rename_i hlook
              have hk := (hd n .switch).1 hlook
              split at h
              · cases h
              · rename_i g hg
                obtain ⟨r, hp, e1⟩ := Option.map_eq_some_iff.1 h
                cases e1
                have hr := (setValue_iff _ _ _).1 hg
                cases hvv : v with
                | some x =>
                  rw [hvv, Option.getD_some] at hr
                  exact joined _ x hk hvv g r hr hp rfl rfl
                | none =>
                  subst hvv
                  simp only [Option.map_none, Option.getD_none, List.append_nil] at hspec hr
                  obtain ⟨texts, h1, h2⟩ := ih args hl' _ _ hp
                  rw [hspec]
                  exact ⟨_, .bare hdash hk h1, .cons hr h2⟩
            · rename_i kind hsw hlook
              have hk := (hd n kind).1 hlook
              split at h
              · rename_i x
                split at h
                · cases h
                · rename_i g hg
                  obtain ⟨r, hp, e1⟩ := Option.map_eq_some_iff.1 h
                  cases e1
                  exact joined _ x hk rfl g r ((setValue_iff _ _ _).1 hg) hp rfl rfl
              · rename_i x args'
                split at h
                · cases h
                · rename_i g hg
                  obtain ⟨r, hp, e1⟩ := Option.map_eq_some_iff.1 h
                  cases e1
                  simp only [Option.map_none, Option.getD_none, List.append_nil] at hspec
                  obtain ⟨texts, h1, h2⟩ := ih args' (by simp at hl'; omega) _ _ hp
                  rw [hspec]
                  exact ⟨_, .separate hdash hk (fun e => hsw (by rw [e])) h1, .cons ((setValue_iff _ _ _).1 hg) h2⟩
              · cases h

theorem parse_iff {t : Table} {formal : Formal} (hc : Clean t) (hd : Describes t formal) (words rest : List Word)
    (opts : List (List Char × Given)) : parseWords formal words = some (opts, rest) ↔
      ∃ texts, Line t words texts rest ∧ AllRead parseDuration texts opts :=
  ⟨line_of_parse hd words.length words (Nat.le_refl _) opts rest, fun ⟨_, h1, h2⟩ => parse_of_line hc hd h1 opts h2⟩

/-! ## The three programs -/

/-- the names of a table with their kinds -/
def flat (t : Table) : Formal := t.flatMap fun o => o.1.map fun n => (n.toList, o.2)

theorem lookup_iff {formal : Formal} (hn : (formal.map (·.1)).Nodup) (n : List Char) (k : Kind) :
    formal.lookup n = some k ↔ (n, k) ∈ formal := by
  induction formal with
  | nil => simp
  | cons a l ih =>
    obtain ⟨m, j⟩ := a
    rw [List.map_cons, List.nodup_cons] at hn
    rw [List.lookup_cons]
    by_cases h : n = m
    · subst h
      simp only [beq_self_eq_true, Option.some.injEq, List.mem_cons, Prod.mk.injEq, true_and]
      constructor
      · exact fun h => .inl h.symm
      · rintro (h | h)
        · exact h.symm
        · exact absurd (List.mem_map.2 ⟨_, h, rfl⟩) hn.1
    · simp only [beq_eq_false_iff_ne.2 h, List.mem_cons, Prod.mk.injEq, h, false_and, false_or]
      exact ih hn.2

theorem describes_of {t : Table} {formal : Formal} (h : formal = flat t) (hn : (formal.map (·.1)).Nodup) : Describes t formal := by
  intro n k
  rw [lookup_iff hn, h]
  unfold flat Known
  simp only [List.mem_flatMap, List.mem_map, Prod.mk.injEq]
  constructor
  · rintro ⟨o, ho, m, hm, h1, h2⟩; exact ⟨o, ho, h2, m, hm, h1.symm⟩
  · rintro ⟨o, ho, h2, m, hm, h1⟩; exact ⟨o, ho, m, hm, h1.symm, h2⟩

/-- what ties a program's flags to its table -/
structure Prog (logging : Bool) (flags : Flags) (core : Table) (options : List (List String × Val)) (t : Table) : Prop where
  table : t = core ++ (if logging then loggingOptions else []) ++ common
  describes : Describes t (formalOf logging flags)
  clean : Clean t
  matched : Match flags options
  same : core.map (·.1) = options.map (·.1)
  values : ∀ o ∈ core, o.2 ≠ .switch
  apart : ∀ o ∈ core, ∀ n ∈ o.1, n.toList ∉ loggingNames
  unique : ∀ n k k', Known t n k → Known t n k' → k = k'
  distinct : ∀ f ∈ flags, (names f).Nodup

/-- every option is known and its value is of its kind -/
def Fitting (t : Table) (opts : List (List Char × Given)) : Prop :=
  ∀ a ∈ opts, ∃ k, Known t a.1 k ∧ (k = .switch ↔ ∃ b, a.2 = .on b) ∧ (k = .text → ∃ s, a.2 = .val (.str s))

theorem fitting_of {t : Table} {words rest : List Word} {texts : List (List Char × Kind × List Char)} (h : Line t words texts rest) :
    ∀ {opts : List (List Char × Given)}, AllRead parseDuration texts opts → Fitting t opts := by
  have rd : ∀ {k s g}, Reads parseDuration k s g → (k = .switch ↔ ∃ b, g = .on b) ∧ (k = .text → ∃ s, g = .val (.str s)) := by
    intro k s g hr
    cases hr <;> simp
  induction h with
  | done => intro opts h; cases h; intro a ha; cases ha
  | plain => intro opts h; cases h; intro a ha; cases ha
  | stop => intro opts h; cases h; intro a ha; cases ha
  | separate _ hk _ _ ih =>
    intro opts h
    cases h with
    | cons hr ha =>
      intro a hm
      rcases List.mem_cons.1 hm with rfl | hm
      · exact ⟨_, hk, rd hr⟩
      · exact ih ha a hm
  | joined _ hk _ ih =>
    intro opts h
    cases h with
    | cons hr ha =>
      intro a hm
      rcases List.mem_cons.1 hm with rfl | hm
      · exact ⟨_, hk, rd hr⟩
      · exact ih ha a hm
  | bare _ hk _ ih =>
    intro opts h
    cases h with
    | cons hr ha =>
      intro a hm
      rcases List.mem_cons.1 hm with rfl | hm
      · exact ⟨_, hk, rd hr⟩
      · exact ih ha a hm

theorem mem_settings (opts : List (List Char × Given)) (n : List Char) (v : Val) :
    (n, v) ∈ settings opts ↔ (n, .val v) ∈ opts ∧ n ∉ loggingNames := by
  unfold settings
  rw [List.mem_filterMap]
  constructor
  · rintro ⟨⟨m, g⟩, hm, h⟩
    cases g with
    | on b => simp at h
    | val w =>
      simp only at h
      split at h
      · cases h
      · cases h; exact ⟨hm, by assumption⟩
  · rintro ⟨h1, h2⟩
    exact ⟨_, h1, by simp [h2]⟩

section prog
variable {logging : Bool} {flags : Flags} {core t : Table} {options : List (List String × Val)}
  (P : Prog logging flags core options t) {opts : List (List Char × Given)}
include P

theorem core_known {o : List String × Kind} (ho : o ∈ core) {n : String} (hn : n ∈ o.1) : Known t n.toList o.2 := by
  refine ⟨o, ?_, rfl, n, hn, rfl⟩
  rw [P.table]; simp [ho]

/-- under the name of an option with a value there are only values -/
theorem core_val (hf : Fitting t opts) {o : List String × Kind} (ho : o ∈ core) {n : String} (hn : n ∈ o.1)
    {a : List Char × Given} (ha : a ∈ opts) (hna : a.1 = n.toList) : ∃ v, a = (n.toList, .val v) ∧ a.1 ∉ loggingNames := by
  obtain ⟨k, hk, hs, -⟩ := hf a ha
  have hk' := core_known P ho hn
  rw [← hna] at hk'
  have := P.unique _ _ _ hk hk'
  subst this
  obtain ⟨m, g⟩ := a
  simp only at hna
  subst hna
  cases g with
  | val v => exact ⟨v, rfl, P.apart o ho n hn⟩
  | on b => exact absurd (hs.2 ⟨b, rfl⟩) (P.values o ho)

theorem settings_known (hf : Fitting t opts) {a : List Char × Val} (ha : a ∈ settings opts) : ∃ o ∈ core, ∃ n ∈ o.1, a.1 = n.toList := by
  obtain ⟨h1, h2⟩ := (mem_settings opts a.1 a.2).1 ha
  obtain ⟨k, ⟨o, ho, hk, n, hn, e⟩, hs, -⟩ := hf _ h1
  rw [P.table, List.mem_append, List.mem_append] at ho
  rcases ho with (ho | ho) | ho
  · exact ⟨o, ho, n, hn, e⟩
  · exfalso
    apply h2
    cases logging with
    | false => simp at ho
    | true =>
      simp only [if_true] at ho
      have : ∀ o ∈ loggingOptions, ∀ n ∈ o.1, n.toList ∈ loggingNames := by decide
      simp only at e
      rw [e]; exact this o ho n hn
  · exfalso
    have : ∀ o ∈ common, o.2 = .switch := by decide
    obtain ⟨b, hb⟩ := hs.1 (hk ▸ this o ho)
    cases hb

theorem cond_iff (hf : Fitting t opts) :
    (!accepted flags (settings opts) || switches.any (twoForms opts)) = false ↔ OneName t opts := by
  have hsame : ∀ ns, (∃ o ∈ core, o.1 = ns) ↔ ∃ o ∈ options, o.1 = ns := by
    intro ns
    have h1 : ns ∈ core.map (·.1) ↔ ns ∈ options.map (·.1) := by rw [P.same]
    simpa [List.mem_map] using h1
  rw [Bool.or_eq_false_iff, Bool.not_eq_false', accepted_iff P.matched P.distinct]
  -- the values
  have hcore : Proper options (settings opts) ↔ OneName core opts := by
    constructor
    · rintro ⟨-, h⟩ o ho n hn m hm a ha b hb ea eb
      obtain ⟨o', ho', e⟩ := (hsame o.1).1 ⟨o, ho, rfl⟩
      obtain ⟨v, rfl, hl⟩ := core_val P hf ho hn ha ea
      obtain ⟨w, rfl, hl'⟩ := core_val P hf ho hm hb eb
      exact h o' ho' n (e ▸ hn) m (e ▸ hm) (n.toList, v) ((mem_settings _ _ _).2 ⟨ha, hl⟩) (m.toList, w)
        ((mem_settings _ _ _).2 ⟨hb, hl'⟩) rfl rfl
    · intro h
      refine ⟨?_, ?_⟩
      · intro a ha
        obtain ⟨o, ho, n, hn, e⟩ := settings_known P hf ha
        obtain ⟨o', ho', e'⟩ := (hsame o.1).1 ⟨o, ho, rfl⟩
        exact ⟨o', ho', n, e' ▸ hn, e⟩
      · intro o ho n hn m hm a ha b hb ea eb
        obtain ⟨o', ho', e⟩ := (hsame o.1).2 ⟨o, ho, rfl⟩
        exact h o' ho' n (e ▸ hn) m (e ▸ hm) _ ((mem_settings _ _ _).1 ha).1 _ ((mem_settings _ _ _).1 hb).1 ea eb
  -- the switches
  have hsw : switches.any (twoForms opts) = false ↔ OneName common opts := by
    have any_iff : ∀ n : List Char, (opts.any fun o => o.1 == n) = true ↔ ∃ a ∈ opts, a.1 = n := by
      intro n; simp [List.any_eq_true]
    have two : ∀ x y : String, x ≠ y → (twoForms opts [x.toList, y.toList] = false ↔
        ∀ n ∈ [x, y], ∀ m ∈ [x, y], ∀ a ∈ opts, ∀ b ∈ opts, a.1 = n.toList → b.1 = m.toList → n = m) := by
      intro x y hxy
      unfold twoForms
      rw [decide_eq_false_iff_not]
      have hlen : 1 < (List.filter (fun n => opts.any fun o => o.1 == n) [x.toList, y.toList]).length ↔
          ((opts.any fun o => o.1 == x.toList) = true ∧ (opts.any fun o => o.1 == y.toList) = true) := by
        cases h1 : (opts.any fun o => o.1 == x.toList) <;> cases h2 : (opts.any fun o => o.1 == y.toList) <;>
          simp [List.filter_cons, h1, h2]
      rw [hlen, any_iff, any_iff]
      constructor
      · intro h n hn m hm a ha b hb ea eb
        simp only [List.mem_cons, List.not_mem_nil, or_false] at hn hm
        rcases hn with rfl | rfl <;> rcases hm with rfl | rfl
        · rfl
        · exact absurd ⟨⟨a, ha, ea⟩, b, hb, eb⟩ h
        · exact absurd ⟨⟨b, hb, eb⟩, a, ha, ea⟩ h
        · rfl
      · rintro h ⟨⟨a, ha, ea⟩, b, hb, eb⟩
        exact hxy (h x (by simp) y (by simp) a ha b hb ea eb)
    have e : switches.any (twoForms opts) =
        (twoForms opts ["help".toList, "h".toList] || (twoForms opts ["version".toList, "v".toList] || false)) := rfl
    rw [e, Bool.or_eq_false_iff, Bool.or_false, two "help" "h" (by decide), two "version" "v" (by decide)]
    unfold OneName common
    simp only [List.forall_mem_cons, List.not_mem_nil, false_implies, implies_true, and_true]
  have hlog : OneName (if logging then loggingOptions else []) opts := by
    intro o ho n hn m hm a _ b _ _ _
    cases logging with
    | false => simp at ho
    | true =>
      simp only [if_true] at ho
      have : ∀ o ∈ loggingOptions, ∀ n ∈ o.1, ∀ m ∈ o.1, n = m := by decide
      exact this o ho n hn m hm
  rw [hcore, hsw, P.table]
  unfold OneName at *
  constructor
  · rintro ⟨h1, h2⟩ o ho
    rw [List.mem_append, List.mem_append] at ho
    rcases ho with (ho | ho) | ho
    · exact h1 o ho
    · exact hlog o ho
    · exact h2 o ho
  · intro h
    exact ⟨fun o ho => h o (by simp [ho]), fun o ho => h o (by simp [ho])⟩

omit P in
theorem isOn_iff (x y : String) : isOn opts [x.toList, y.toList] = true ↔ lastOf [x, y] opts = some (.on true) := by
  unfold isOn lastOf
  rw [last_find]
  have : (opts.filter fun o => [x.toList, y.toList].contains o.1) = opts.filter fun o => [x, y].any fun n => n.toList == o.1 := by
    apply List.filter_congr
    intro a _
    rw [Bool.eq_iff_iff]
    simp only [List.any_eq_true, beq_iff_eq, List.contains_iff_mem, List.mem_cons, List.not_mem_nil, or_false]
    constructor
    · rintro (h | h)
      · exact ⟨x, .inl rfl, h.symm⟩
      · exact ⟨y, .inr rfl, h.symm⟩
    · rintro ⟨n, rfl | rfl, h⟩
      · exact .inl h.symm
      · exact .inr h.symm
  rw [this]
  cases h : (opts.filter fun o => [x, y].any fun n => n.toList == o.1).getLast? with
  | none => simp
  | some a =>
    obtain ⟨n, g⟩ := a
    cases g <;> simp

omit P in
theorem shows_iff : switches.any (isOn opts) = true ↔
    lastOf ["help", "h"] opts = some (.on true) ∨ lastOf ["version", "v"] opts = some (.on true) := by
  have e : switches.any (isOn opts) = (isOn opts ["help".toList, "h".toList] || (isOn opts ["version".toList, "v".toList] || false)) := rfl
  rw [e, Bool.or_eq_true, Bool.or_false, isOn_iff, isOn_iff]

theorem run_iff (words : List Word) (opts : List (List Char × Given)) :
    appRun logging flags words = .runs opts ↔ Starts parseDuration t words opts := by
  unfold appRun Starts
  by_cases hcomp : words.getLast? = some "--generate-bash-completion".toList
  · simp only [hcomp, decide_true, if_true, ne_eq, not_true, false_and, iff_false]
    split
    · simp
    · split
      · simp
      · simp
  · simp only [hcomp, decide_false, Bool.false_eq_true, if_false, ne_eq, not_false_iff, true_and]
    have hp := parse_iff P.clean P.describes words
    cases hw : parseWords (formalOf logging flags) words with
    | none =>
      simp only [reduceCtorEq, false_iff]
      rintro ⟨⟨texts, rest, h1, h2, -⟩, -⟩
      rw [(hp rest opts).2 ⟨texts, h1, h2⟩] at hw
      cases hw
    | some r =>
      obtain ⟨o, rest⟩ := r
      obtain ⟨texts, h1, h2⟩ := (hp rest o).1 hw
      have hf := fitting_of h1 h2
      have hc := cond_iff P hf
      simp only
      constructor
      · intro h
        by_cases c1 : (!accepted flags (settings o) || switches.any (twoForms o)) = true
        · rw [if_pos c1] at h; cases h
        · rw [if_neg c1] at h
          by_cases c2 : switches.any (isOn o) = true
          · rw [if_pos c2] at h; cases h
          · rw [if_neg c2] at h
            by_cases c3 : rest.head? = some "help".toList ∨ rest.head? = some "h".toList
            · rw [if_pos c3] at h; cases h
            · rw [if_neg c3] at h; cases h
              rw [shows_iff, not_or] at c2
              rw [not_or] at c3
              exact ⟨⟨texts, rest, h1, h2, c3.1, c3.2⟩, hc.1 (by simpa using c1), c2.1, c2.2⟩
      · rintro ⟨⟨texts', rest', h1', h2', c3, c3'⟩, c1, c2, c2'⟩
        have := (hp rest' opts).2 ⟨texts', h1', h2'⟩
        rw [hw] at this
        cases this
        rw [if_neg (by rw [hc.2 c1]; simp), if_neg (by rw [shows_iff, not_or]; exact ⟨c2, c2'⟩), if_neg (by rw [not_or]; exact ⟨c3, c3'⟩)]

theorem failed_iff (words : List Word) (hcomp : words.getLast? ≠ some "--generate-bash-completion".toList) :
    appRun logging flags words = .failed ↔ Wrong parseDuration t words := by
  unfold appRun Wrong
  simp only [hcomp, decide_false, Bool.false_eq_true, if_false]
  have hp := parse_iff P.clean P.describes words
  cases hw : parseWords (formalOf logging flags) words with
  | none =>
    simp only [true_iff]
    rintro ⟨texts, rest, opts, h1, h2, -⟩
    rw [(hp rest opts).2 ⟨texts, h1, h2⟩] at hw
    cases hw
  | some r =>
    obtain ⟨o, rest⟩ := r
    obtain ⟨texts, h1, h2⟩ := (hp rest o).1 hw
    have hc := cond_iff P (fitting_of h1 h2)
    simp only
    by_cases c1 : (!accepted flags (settings o) || switches.any (twoForms o)) = true
    · rw [if_pos c1]
      simp only [true_iff]
      rintro ⟨texts', rest', opts, h1', h2', h3⟩
      have := (hp rest' opts).2 ⟨texts', h1', h2'⟩
      rw [hw] at this
      cases this
      rw [hc.2 h3] at c1
      simp at c1
    · rw [if_neg c1]
      have : ¬ ¬ ∃ texts rest opts, Line t words texts rest ∧ AllRead parseDuration texts opts ∧ OneName t opts :=
        fun h => h ⟨texts, rest, o, h1, h2, hc.1 (by simpa using c1)⟩
      simp only [this, iff_false]
      split
      · simp
      · split <;> simp

/-- the value of an option with a value -/
theorem value_eq (hf : Fitting t opts) {ns : List String} {d : Val} (hd : (ns, d) ∈ options) :
    effective ns d (settings opts) = valueOf ns d opts := by
  have hns : ns ∈ core.map (·.1) := by rw [P.same]; exact List.mem_map.2 ⟨_, hd, rfl⟩
  obtain ⟨o, ho, e⟩ := List.mem_map.1 hns
  subst e
  have key : ∀ l : List (List Char × Given), (∀ a ∈ l, a ∈ opts) →
      (l.filter fun a => o.1.any fun n => n.toList == a.1).map (·.2) =
      ((settings l).filter fun a => o.1.any fun n => n.toList == a.1).map fun a => Given.val a.2 := by
    intro l
    induction l with
    | nil => intro _; rfl
    | cons a l ih =>
      intro hl
      have ih := ih fun b hb => hl b (List.mem_cons_of_mem _ hb)
      rw [List.filter_cons]
      cases hany : o.1.any fun n => n.toList == a.1 with
      | true =>
        obtain ⟨n, hn, he⟩ := List.any_eq_true.1 hany
        obtain ⟨v, rfl, hlog⟩ := core_val P hf ho hn (hl a (by simp)) (beq_iff_eq.1 he).symm
        have hs : settings ((n.toList, Given.val v) :: l) = (n.toList, v) :: settings l := by
          simp only at hlog
          simp [settings, List.filterMap_cons, hlog]
        rw [hs, List.filter_cons]
        simp only at hany
        simp only [hany, if_true, List.map_cons, ih]
      | false =>
        simp only [Bool.false_eq_true, if_false, ih]
        have hs : settings (a :: l) = settings l ∨ ∃ v, settings (a :: l) = (a.1, v) :: settings l := by
          obtain ⟨n, g⟩ := a
          cases g with
          | on b => left; rfl
          | val v =>
            by_cases hlog : n ∈ loggingNames
            · left; simp [settings, List.filterMap_cons, hlog]
            · right; exact ⟨v, by simp [settings, List.filterMap_cons, hlog]⟩
        rcases hs with hs | ⟨v, hs⟩
        · rw [hs]
        · rw [hs, List.filter_cons]
          simp only [hany, Bool.false_eq_true, if_false]
  have key := congrArg List.getLast? (key opts fun a h => h)
  rw [List.getLast?_map, List.getLast?_map] at key
  unfold effective valueOf lastOf
  rw [key]
  cases ((settings opts).filter fun a => o.1.any fun n => n.toList == a.1).getLast? <;> rfl

end prog

theorem unique_of {t : Table} {formal : Formal} (h : Describes t formal) (n : List Char) (k k' : Kind) (h1 : Known t n k)
    (h2 : Known t n k') : k = k' := by
  rw [← h] at h1 h2
  rw [h1] at h2
  exact Option.some.inj h2

theorem server_describes : Describes serverTable (formalOf true serverFlags) :=
  describes_of (by decide +kernel) (by decide +kernel)
theorem player_describes : Describes playerTable (formalOf true playerFlags) :=
  describes_of (by decide +kernel) (by decide +kernel)
theorem infoer_describes : Describes infoerTable (formalOf false infoerFlags) :=
  describes_of (by decide +kernel) (by decide +kernel)

theorem server_prog : Prog true serverFlags (serverTable.take 15) serverOptions serverTable where
  table := by decide +kernel
  describes := server_describes
  clean := by unfold Clean; decide +kernel
  matched := server_match
  same := by decide +kernel
  values := by decide +kernel
  apart := by decide +kernel
  unique := unique_of server_describes
  distinct := by decide +kernel

theorem player_prog : Prog true playerFlags (playerTable.take 3) playerOptions playerTable where
  table := by decide +kernel
  describes := player_describes
  clean := by unfold Clean; decide +kernel
  matched := player_match
  same := by decide +kernel
  values := by decide +kernel
  apart := by decide +kernel
  unique := unique_of player_describes
  distinct := by decide +kernel

theorem infoer_prog : Prog false infoerFlags (infoerTable.take 4) infoerOptions infoerTable where
  table := by decide +kernel
  describes := infoer_describes
  clean := by unfold Clean; decide +kernel
  matched := infoer_match
  same := by decide +kernel
  values := by decide +kernel
  apart := by decide +kernel
  unique := unique_of infoer_describes
  distinct := by decide +kernel

theorem starts_fitting {t : Table} {words : List Word} {opts : List (List Char × Given)} (h : Starts parseDuration t words opts) :
    Fitting t opts := by
  obtain ⟨-, ⟨texts, rest, h1, h2, -⟩, -⟩ := h
  exact fitting_of h1 h2

theorem starts_proper {logging : Bool} {flags : Flags} {core t : Table} {options : List (List String × Val)}
    (P : Prog logging flags core options t) {words : List Word} {opts : List (List Char × Given)}
    (h : Starts parseDuration t words opts) : Proper options (settings opts) := by
  have := (cond_iff P (starts_fitting h)).2 h.2.2.1
  rw [Bool.or_eq_false_iff, Bool.not_eq_false', accepted_iff P.matched P.distinct] at this
  exact this.1

/-! ## The theorems -/

/-- **C119** The words after the program's name start the server exactly if they are options it knows, one dash or two in
front of the name, the value in the next word or behind `=`, up to the first word that is not one (or `--`), all values can be
read, no option is given under two names and neither help nor the version is asked for; and the server then uses for every
option the last value given, or the default. -/
theorem C119_server (words : List Word) (u : ServerUses) : server words = some u ↔
    ∃ opts, Starts parseDuration serverTable words opts ∧ u = {
      listenAddress := some (valueOf ["address", "addr", "a"] (.str "127.0.0.1".toList) opts)
      listenPort := some (valueOf ["port", "p"] (.int 13333) opts)
      musicDir := some (valueOf ["music-dir", "dir", "d"] (.str "audio".toList) opts)
      sshAddress := some (valueOf ["ssh-address", "ssh-addr", "sa"] (.str "127.0.0.1".toList) opts)
      sshPort := some (valueOf ["ssh-port", "sp"] (.int 13334) opts)
      sshUsers := some (valueOf ["users-file", "users", "u"] (.str "users.json".toList) opts)
      sshKeyFile := some (valueOf ["host-key", "key", "k"] (.str "id_rsa".toList) opts)
      streamChunkSize := some (valueOf ["stream-chunk-size"] (.int 176400) opts)
      nanBreakSize := some (valueOf ["song-break-size"] (.int 44100) opts)
      streamStartDelay := some (valueOf ["stream-start-delay"] (.dur 5000000000) opts)
      streamDelay := some (valueOf ["stream-delay"] (.dur 15000000000) opts)
      sampleRate := some (valueOf ["sample-rate"] (.int 44100) opts) } := by
  have key : ∀ opts, Starts parseDuration serverTable words opts → Flags.server (settings opts) = some {
      listenAddress := some (valueOf ["address", "addr", "a"] (.str "127.0.0.1".toList) opts)
      listenPort := some (valueOf ["port", "p"] (.int 13333) opts)
      musicDir := some (valueOf ["music-dir", "dir", "d"] (.str "audio".toList) opts)
      sshAddress := some (valueOf ["ssh-address", "ssh-addr", "sa"] (.str "127.0.0.1".toList) opts)
      sshPort := some (valueOf ["ssh-port", "sp"] (.int 13334) opts)
      sshUsers := some (valueOf ["users-file", "users", "u"] (.str "users.json".toList) opts)
      sshKeyFile := some (valueOf ["host-key", "key", "k"] (.str "id_rsa".toList) opts)
      streamChunkSize := some (valueOf ["stream-chunk-size"] (.int 176400) opts)
      nanBreakSize := some (valueOf ["song-break-size"] (.int 44100) opts)
      streamStartDelay := some (valueOf ["stream-start-delay"] (.dur 5000000000) opts)
      streamDelay := some (valueOf ["stream-delay"] (.dur 15000000000) opts)
      sampleRate := some (valueOf ["sample-rate"] (.int 44100) opts) } := by
    intro opts h
    have hf := starts_fitting h
    obtain ⟨u, hu⟩ := (C99_accepted_iff (settings opts)).1.2 (starts_proper server_prog h)
    rw [hu]
    obtain ⟨h1, h2, h3, h4, h5, h6, h7, h8, h9, h10, h11, h12⟩ := C99_server_partial _ u hu
    have hv := fun ns d hd => value_eq server_prog hf (ns := ns) (d := d) hd
    rw [hv _ _ (by decide)] at h1 h2 h3 h4 h5 h6 h7 h8 h9 h10 h11 h12
    congr 1
    cases u
    simp only [ServerUses.mk.injEq]
    exact ⟨h1, h2, h3, h4, h5, h6, h7, h8, h11, h9, h10, h12⟩
  unfold server
  constructor
  · intro h
    split at h
    · rename_i opts hr
      rw [run_iff server_prog] at hr
      rw [key opts hr] at h
      exact ⟨opts, hr, (Option.some.inj h).symm⟩
    · cases h
  · rintro ⟨opts, hs, rfl⟩
    rw [(run_iff server_prog words opts).2 hs]
    exact key opts hs

/-- **C119** The same for the player and the infoer, which always synchronise their clocks with the built-in settings. -/
theorem C119_clients (words : List Word) (u : ClientUses) :
    (player words = some u ↔ ∃ opts, Starts parseDuration playerTable words opts ∧ u = {
      address := some (valueOf ["address", "addr", "a"] (.str "127.0.0.1".toList) opts)
      port := some (valueOf ["port", "p"] (.int 13333) opts)
      sampleRate := some (valueOf ["sample-rate"] (.int 44100) opts)
      lyricsHistorySize := none
      timeSyncInterval := some (.dur 600000000000), timeSyncCycles := some (.int 500)
      timeSyncCycleDelay := some (.dur 10000000) }) ∧
    (infoer words = some u ↔ ∃ opts, Starts parseDuration infoerTable words opts ∧ u = {
      address := some (valueOf ["address", "addr", "a"] (.str "127.0.0.1".toList) opts)
      port := some (valueOf ["port", "p"] (.int 13333) opts)
      sampleRate := some (valueOf ["sample-rate"] (.int 44100) opts)
      lyricsHistorySize := some (valueOf ["lyrics-history-size"] (.int 5) opts)
      timeSyncInterval := some (.dur 600000000000), timeSyncCycles := some (.int 500)
      timeSyncCycleDelay := some (.dur 10000000) }) := by
  have keyP : ∀ opts, Starts parseDuration playerTable words opts → Flags.player (settings opts) = some {
      address := some (valueOf ["address", "addr", "a"] (.str "127.0.0.1".toList) opts)
      port := some (valueOf ["port", "p"] (.int 13333) opts)
      sampleRate := some (valueOf ["sample-rate"] (.int 44100) opts)
      lyricsHistorySize := none
      timeSyncInterval := some (.dur 600000000000), timeSyncCycles := some (.int 500)
      timeSyncCycleDelay := some (.dur 10000000) } := by
    intro opts h
    have hf := starts_fitting h
    obtain ⟨u, hu⟩ := (C99_accepted_iff (settings opts)).2.1.2 (starts_proper player_prog h)
    rw [hu]
    obtain ⟨h1, h2, h3⟩ := (C99_clients_partial _ u).1 hu
    have hv := fun ns d hd => value_eq player_prog hf (ns := ns) (d := d) hd
    rw [hv _ _ (by decide)] at h1 h2 h3
    unfold Flags.player at hu
    split at hu
    · cases hu
      simp only at h1 h2 h3
      simp only [h1, h2, h3]
      rfl
    · cases hu
  have keyI : ∀ opts, Starts parseDuration infoerTable words opts → Flags.infoer (settings opts) = some {
      address := some (valueOf ["address", "addr", "a"] (.str "127.0.0.1".toList) opts)
      port := some (valueOf ["port", "p"] (.int 13333) opts)
      sampleRate := some (valueOf ["sample-rate"] (.int 44100) opts)
      lyricsHistorySize := some (valueOf ["lyrics-history-size"] (.int 5) opts)
      timeSyncInterval := some (.dur 600000000000), timeSyncCycles := some (.int 500)
      timeSyncCycleDelay := some (.dur 10000000) } := by
    intro opts h
    have hf := starts_fitting h
    obtain ⟨u, hu⟩ := (C99_accepted_iff (settings opts)).2.2.2 (starts_proper infoer_prog h)
    rw [hu]
    obtain ⟨h1, h2, h3, h4⟩ := (C99_clients_partial _ u).2 hu
    have hv := fun ns d hd => value_eq infoer_prog hf (ns := ns) (d := d) hd
    rw [hv _ _ (by decide)] at h1 h2 h3 h4
    unfold Flags.infoer at hu
    split at hu
    · cases hu
      simp only at h1 h2 h3 h4
      simp only [h1, h2, h3, h4]
      rfl
    · cases hu
  unfold player infoer
  constructor
  · constructor
    · intro h
      split at h
      · rename_i opts hr
        rw [run_iff player_prog] at hr
        rw [keyP opts hr] at h
        exact ⟨opts, hr, (Option.some.inj h).symm⟩
      · cases h
    · rintro ⟨opts, hs, rfl⟩
      rw [(run_iff player_prog words opts).2 hs]
      exact keyP opts hs
  · constructor
    · intro h
      split at h
      · rename_i opts hr
        rw [run_iff infoer_prog] at hr
        rw [keyI opts hr] at h
        exact ⟨opts, hr, (Option.some.inj h).symm⟩
      · cases h
    · rintro ⟨opts, hs, rfl⟩
      rw [(run_iff infoer_prog words opts).2 hs]
      exact keyI opts hs

/-- **C119** Without a request for completions, a program ends with an error message exactly if the words are wrong usage. -/
theorem C119_refused (words : List Word) (h : words.getLast? ≠ some "--generate-bash-completion".toList) :
    (appRun true serverFlags words = .failed ↔ Wrong parseDuration serverTable words) ∧
    (appRun true playerFlags words = .failed ↔ Wrong parseDuration playerTable words) ∧
    (appRun false infoerFlags words = .failed ↔ Wrong parseDuration infoerTable words) :=
  ⟨failed_iff server_prog words h, failed_iff player_prog words h, failed_iff infoer_prog words h⟩

/-- A command line has one meaning only. -/
theorem C119_unambiguous (words : List Word) (texts texts' : List (List Char × Kind × List Char)) (rest rest' : List Word)
    (opts opts' : List (List Char × Given)) (h1 : Line serverTable words texts rest) (h2 : AllRead parseDuration texts opts)
    (h1' : Line serverTable words texts' rest') (h2' : AllRead parseDuration texts' opts') : opts = opts' ∧ rest = rest' := by
  have e := (parse_iff server_prog.clean server_prog.describes words rest opts).2 ⟨texts, h1, h2⟩
  have e' := (parse_iff server_prog.clean server_prog.describes words rest' opts').2 ⟨texts', h1', h2'⟩
  rw [e] at e'
  cases e'
  exact ⟨rfl, rfl⟩

/-- **C119** Whole numbers, as the options take them, with their range. -/
theorem C119_numbers (s : List Char) :
    (∀ n : Int, parseInt s = some n ↔ Whole s n ∧ -2 ^ 63 ≤ n ∧ n < 2 ^ 63) ∧
    ∀ n : Nat, parseUint s = some n ↔ Natural s n ∧ n < 2 ^ 64 :=
  ⟨parseInt_iff s, parseUint_iff s⟩

theorem natural_unique {s : List Char} {n m : Nat} (h : Natural s n) (hm : Natural s m) (h1 : n < 2 ^ 64) (h2 : m < 2 ^ 64) :
    n = m := by
  have a := (parseUint_iff s n).2 ⟨h, h1⟩
  have b := (parseUint_iff s m).2 ⟨hm, h2⟩
  rw [a] at b
  exact Option.some.inj b

/-- A leading zero makes a number octal: it is worth what its digits are worth in base 8, and with a digit 8 or 9 it is no
number. -/
theorem C119_leading_zero (s : List Char) (ds : List Nat) (hs : Digits false s ds) (n : Int) :
    parseInt ('0' :: s) = some n ↔ (∀ d ∈ ds, d < 8) ∧ n = num 8 ds ∧ n < 2 ^ 63 := by
  have hd := (digits_run hs).2.1
  obtain ⟨c, r, rfl⟩ : ∃ c r, s = c :: r := by
    cases s with
    | nil => exact absurd hs (digits_nil false ds)
    | cons c r => exact ⟨c, r, rfl⟩
  rw [parseInt_iff]
  constructor
  · rintro ⟨⟨sg, neg, r', m, e, hsg, hn, rfl⟩, hlo, hhi⟩
    have hsg' : sg = [] ∧ neg = false := by
      rcases hsg with ⟨rfl, rfl⟩ | ⟨rfl, rfl⟩ | ⟨rfl, rfl⟩
      · exact ⟨rfl, rfl⟩
      · exact absurd (List.cons.inj e).1 (by decide)
      · exact absurd (List.cons.inj e).1 (by decide)
    obtain ⟨rfl, rfl⟩ := hsg'
    rw [List.nil_append] at e
    subst e
    simp only [sgn, Bool.false_eq_true, if_false] at hlo hhi ⊢
    generalize he : '0' :: c :: r = w at hn
    cases hn with
    | zero => simp at he
    | decimal _ h => exact absurd (List.cons.inj he).1.symm h
    | @octal u s' ds' hu hd' hlt =>
      have e2 := (List.cons.inj he).2
      rcases hu with rfl | rfl
      · rw [List.nil_append] at e2
        subst e2
        rw [(digits_run hd').2.1] at hd
        subst hd
        exact ⟨hlt, rfl, hhi⟩
      · rw [e2] at hs; exact absurd hs (digits_under false _ _)
    | @withPrefix x base hex u s' ds' hx _ _ _ =>
      have e2 := (List.cons.inj (List.cons.inj he).2).1
      subst e2
      have := (digits_run hs).1 c (by simp)
      rcases hx with ⟨rfl | rfl, -⟩ | ⟨rfl | rfl, -⟩ | ⟨rfl | rfl, -⟩ <;> exact absurd this (by decide)
  · rintro ⟨hlt, rfl, h63⟩
    refine ⟨⟨[], false, _, num 8 ds, rfl, .inl ⟨rfl, rfl⟩, ?_, rfl⟩, by omega, h63⟩
    exact .octal (u := []) (.inl rfl) hs hlt

theorem line_append {t : Table} {pre rest : List Word} {texts : List (List Char × Kind × List Char)} (h : Line t pre texts rest)
    (hr : rest = []) (w : Word) (ws : List Word) (hw : ∀ c cs, w ≠ '-' :: c :: cs) : Line t (pre ++ w :: ws) texts (w :: ws) := by
  induction h with
  | done => exact .plain hw
  | plain => cases hr
  | stop => subst hr; exact .stop
  | separate h1 h2 h3 _ ih => exact .separate h1 h2 h3 (ih hr)
  | joined h1 h2 _ ih => exact .joined h1 h2 (ih hr)
  | bare h1 h2 _ ih => exact .bare h1 h2 (ih hr)

/-- From the first word on that is neither an option nor the value of one, the words are ignored without a message, be they
options or not (unless that word is `help` or `h`). -/
theorem C119_ignored {logging : Bool} {flags : Flags} {t : Table}
    (hp : (logging = true ∧ flags = serverFlags ∧ t = serverTable) ∨ (logging = true ∧ flags = playerFlags ∧ t = playerTable) ∨
      (logging = false ∧ flags = infoerFlags ∧ t = infoerTable))
    (pre : List Word) (texts : List (List Char × Kind × List Char)) (opts : List (List Char × Given)) (h1 : Line t pre texts [])
    (h2 : AllRead parseDuration texts opts) (w : Word) (hw : ∀ c cs, w ≠ '-' :: c :: cs) (hh : w ≠ "help".toList ∧ w ≠ "h".toList)
    (ws : List Word) (hlast : pre.getLast? ≠ some "--generate-bash-completion".toList ∧
      (w :: ws).getLast? ≠ some "--generate-bash-completion".toList) :
    appRun logging flags (pre ++ w :: ws) = appRun logging flags pre := by
  have main : ∀ {core options}, Prog logging flags core options t → appRun logging flags (pre ++ w :: ws) = appRun logging flags pre := by
    intro core options P
    have e1 := parse_of_line P.clean P.describes h1 opts h2
    have e2 := parse_of_line P.clean P.describes (line_append h1 rfl w ws hw) opts h2
    have hl : (pre ++ w :: ws).getLast? ≠ some "--generate-bash-completion".toList := by
      rw [List.getLast?_append, List.getLast?_cons, Option.some_or, ← List.getLast?_cons]; exact hlast.2
    unfold appRun
    simp only [hl, hlast.1, decide_false, Bool.false_eq_true, if_false, e1, e2, List.head?_cons, List.head?_nil, Option.some.injEq,
      hh.1, hh.2, or_self, reduceCtorEq]
  rcases hp with ⟨rfl, rfl, rfl⟩ | ⟨rfl, rfl, rfl⟩ | ⟨rfl, rfl, rfl⟩
  · exact main server_prog
  · exact main player_prog
  · exact main infoer_prog

theorem loggingCtx_eq {t : Table} {opts : List (List Char × Given)} (hf : Fitting t opts) (n : String)
    (hn : ∀ k, Known t n.toList k → k = .text) : .str (loggingCtx opts n.toList) = valueOf [n] (.str []) opts := by
  unfold loggingCtx valueOf lastOf
  rw [last_find]
  have : (opts.filter fun o => o.1 == n.toList) = opts.filter fun o => [n].any fun m => m.toList == o.1 := by
    apply List.filter_congr
    intro a _
    rw [Bool.eq_iff_iff]
    simp only [List.any_cons, List.any_nil, Bool.or_false, beq_iff_eq]
    exact eq_comm
  rw [this]
  cases h : (opts.filter fun o => [n].any fun m => m.toList == o.1).getLast? with
  | none => rfl
  | some a =>
    obtain ⟨m, g⟩ := a
    have hm := List.mem_of_getLast? h
    obtain ⟨h1, h2⟩ := List.mem_filter.1 hm
    simp only [List.any_cons, List.any_nil, Bool.or_false, beq_iff_eq] at h2
    subst h2
    obtain ⟨k, hk, -, ht⟩ := hf _ h1
    obtain ⟨s, hs⟩ := ht (hn k hk)
    simp only at hs
    subst hs
    rfl

/-- the text given for the default log level, empty if none is given -/
def defaultLevel (opts : List (List Char × Given)) : List Char :=
  match valueOf ["logging"] (.str []) opts with
  | .str s => s
  | _ => []

/-- **C119** and C50 together: once the server or the player runs, every logger's level is the one named by the last `logging`
option, or info; the options for single loggers change nothing. The infoer takes no such option and logs nothing. -/
theorem C119_logging (byName : List Char → Int) (words : List Word) (c : Logging.Cutoffs) (name : List Char)
    (hn : name ∈ ["comm".toList, "play".toList, "shed".toList, "ssh".toList, "time".toList]) :
    (logLevels byName serverFlags words = some c → ∃ opts, Starts parseDuration serverTable words opts ∧
      Logging.cutoffLevel c name = if defaultLevel opts = [] then Logging.info else byName (defaultLevel opts)) ∧
    (logLevels byName playerFlags words = some c → ∃ opts, Starts parseDuration playerTable words opts ∧
      Logging.cutoffLevel c name = if defaultLevel opts = [] then Logging.info else byName (defaultLevel opts)) ∧
    (infoerLevels words = some c → (∃ opts, Starts parseDuration infoerTable words opts) ∧
      ∀ level ≤ Logging.fatal, ∀ n msg date, Logging.log c n msg date level = []) := by
  have main : ∀ {flags core options t}, Prog true flags core options t → (∀ k, Known t "logging".toList k → k = .text) →
      logLevels byName flags words = some c → ∃ opts, Starts parseDuration t words opts ∧
        Logging.cutoffLevel c name = if defaultLevel opts = [] then Logging.info else byName (defaultLevel opts) := by
    intro flags core options t P hk h
    unfold logLevels at h
    split at h
    · rename_i opts hr
      have hs := (run_iff P words opts).1 hr
      refine ⟨opts, hs, ?_⟩
      cases h
      rw [Logging.C50_flags_ineffective _ _ _ hn]
      have hd : loggingCtx opts "logging".toList = defaultLevel opts := by
        unfold defaultLevel
        rw [← loggingCtx_eq (starts_fitting hs) "logging" hk]
      rw [hd]
    · cases h
  have text : ∀ {t : Table} {formal : Formal}, Describes t formal → formal.lookup "logging".toList = some .text →
      ∀ k, Known t "logging".toList k → k = .text := by
    intro t formal hd hl k h
    rw [← hd, hl] at h
    exact (Option.some.inj h).symm
  refine ⟨main server_prog (text server_describes (by decide +kernel)), main player_prog (text player_describes (by decide +kernel)), ?_⟩
  intro h
  unfold infoerLevels at h
  split at h
  · rename_i opts hr
    cases h
    refine ⟨⟨opts, (run_iff infoer_prog words opts).1 hr⟩, ?_⟩
    intro level hl n msg date
    unfold Logging.log
    rw [if_pos]
    have : ¬ Logging.off ≤ level := by unfold Logging.fatal at hl; unfold Logging.off; omega
    simp [Logging.shouldLog, Logging.cutoffLevel, Logging.init, this]
  · cases h

/-! ## Examples -/

section examples

/-- A word. -/
def w (s : String) : Word := s.toList

/-- Both kinds of dashes and of values; the last port counts; an octal number; an option taken as a value; what follows the
first plain word is ignored. -/
def typed : List (List Char × Given) := [(w "port", .val (.int 80)), (w "port", .val (.int 8080)), (w "dir", .val (.str (w "--music"))),
  (w "stream-chunk-size", .val (.int 8))]
theorem typed_starts : Starts parseDuration serverTable
    [w "--port=80", w "-port", w "0x1F90", w "-dir", w "--music", w "--stream-chunk-size", w "010", w "x", w "-sa"] typed :=
  (run_iff server_prog _ _).1 (by decide +kernel)
example : ∃ u, server [w "--port=80", w "-port", w "0x1F90", w "-dir", w "--music", w "--stream-chunk-size", w "010", w "x", w "-sa"] =
    some u ∧ u.listenPort = some (.int 8080) ∧ u.musicDir = some (.str (w "--music")) ∧ u.streamChunkSize = some (.int 8) ∧
    u.sshAddress = some (.str (w "127.0.0.1")) :=
  ⟨_, (C119_server _ _).2 ⟨typed, typed_starts, rfl⟩, by decide +kernel⟩
/-- Refused: two names of an option, a number with a digit too large, a missing value, an unknown option, a number that is too
large. -/
example : appRun true serverFlags [w "-p", w "1", w "--port", w "2"] = .failed ∧ appRun true serverFlags [w "-p", w "08"] = .failed ∧
    appRun true serverFlags [w "-p"] = .failed ∧ appRun true playerFlags [w "-u", w "x"] = .failed ∧
    appRun true playerFlags [w "-p=9223372036854775808"] = .failed := by decide +kernel
/-- Not started, without an error. -/
example : appRun true serverFlags [w "-h"] = .shown ∧ appRun true serverFlags [w "--version"] = .shown ∧
    appRun true serverFlags [w "-p", w "1", w "help"] = .shown ∧
    appRun false infoerFlags [w "-p", w "x", w "--generate-bash-completion"] = .shown ∧
    appRun true serverFlags [w "-h=false"] = .runs [(w "h", .on false)] := by decide +kernel
/-- The infoer has no options for logging. -/
example : appRun false infoerFlags [w "--logging", w "debug"] = .failed ∧
    appRun true playerFlags [w "--logging", w "debug"] = .runs [(w "logging", .val (.str (w "debug")))] := by decide +kernel

/-- The hypotheses are met. -/
example : Starts parseDuration serverTable [w "-p", w "1_000"] [("p".toList, .val (.int 1000))] :=
  (run_iff server_prog _ _).1 (by decide +kernel)
example : Wrong parseDuration serverTable [w "--port"] := ((C119_refused [w "--port"] (by decide)).1).1 (by decide +kernel)
example : (player [w "-addr", w "host", w "-p=1"]).isSome = true := by decide +kernel
example : (infoerLevels [w "-p=1"]).isSome = true ∧ (logLevels (fun _ => 1) serverFlags [w "--logging=debug"]).isSome = true := by
  decide +kernel
example : Digits false ['1', '0'] [1, 0] := .next ((digit_iff _ _ _).2 rfl) (.last ((digit_iff _ _ _).2 rfl))
example : parseInt ['0', '1', '0'] = some 8 ∧ parseInt ['0', '0', '8'] = none := by decide

end examples

end MS.CommandLine
