import Verif.Model.Session
import Verif.Props.Unparse
/-!
# Properties C38-C40, C66: completion, dispatch and the command registry
-/
set_option linter.unusedSimpArgs false
namespace MS.Session
open MS.Shell MS.Spec.Shell

/-! ## C40: the registry -/

theorem less_irrefl (a : List Char) : less a a = false := by
  induction a with
  | nil => rfl
  | cons c l ih => simp [less, ih]

/-- Names that are not ordered are equal. -/
theorem less_total (a b : List Char) (h1 : less a b = false) (h2 : less b a = false) : a = b := by
  induction a generalizing b with
  | nil => cases b with
    | nil => rfl
    | cons d m => simp [less] at h1
  | cons c l ih =>
    cases b with
    | nil => simp [less] at h2
    | cons d m =>
      simp only [less] at h1 h2
      split at h1
      · simp at h1
      · split at h1
        · rename_i h; simp [h] at h2
        · rename_i g1 g2
          simp only [g1, g2, if_false] at h2
          rw [ih m h1 h2]
          have : c.toNat = d.toNat := by omega
          rw [← Char.ofNat_toNat c, this, Char.ofNat_toNat]

/-- C40: after any registrations the registry consists of exactly the registered commands, ordered by name. -/
theorem C40_registry {cs l : List Cmd} (h : Registry cs l) : l.Perm cs ∧ Sorted l := by
  induction h with
  | nil => exact ⟨.refl _, .nil⟩
  | snoc h hr ih => exact ⟨hr.1.trans (ih.1.append_right _), hr.2⟩

theorem less_asymm (a b : List Char) (h : less a b = true) : less b a = false := by
  induction a generalizing b with
  | nil => cases b <;> simp [less] at h ⊢
  | cons c l ih =>
    cases b with
    | nil => simp [less] at h
    | cons d m =>
      simp only [less] at h ⊢
      by_cases h1 : c.toNat < d.toNat
      · simp [h1, show ¬ d.toNat < c.toNat by omega]
      · by_cases h2 : d.toNat < c.toNat
        · simp [h1, h2] at h
        · simp [h1, h2] at h ⊢; exact ih m h

theorem less_trans' (a b c : List Char) (h1 : less b a = false) (h2 : less c b = false) : less c a = false := by
  induction a generalizing b c with
  | nil => cases c with
    | nil => rfl
    | cons z n => cases b with
      | nil => simp [less]
      | cons y m => simp [less]
  | cons x l ih =>
    cases b with
    | nil => simp [less] at h1
    | cons y m =>
      cases c with
      | nil => simp [less] at h2
      | cons z n =>
        simp only [less] at h1 h2 ⊢
        by_cases g1 : y.toNat < x.toNat
        · simp [g1] at h1
        · by_cases g2 : z.toNat < y.toNat
          · simp [g2] at h2
          · rw [if_neg g1] at h1
            rw [if_neg g2] at h2
            rw [if_neg (by omega)]
            by_cases g3 : x.toNat < z.toNat
            · rw [if_pos g3]
            · rw [if_neg g3]
              rw [if_neg (by omega)] at h1
              rw [if_neg (by omega)] at h2
              exact ih m n h1 h2

/-- Any commands can be registered, in any order. -/
theorem C40_registers (cs l : List Cmd) (h : Registry cs l) (c : Cmd) : ∃ l', Registry (cs ++ [c]) l' := by
  refine ⟨(l ++ [c]).mergeSort (fun a b => !less b.name a.name), .snoc h ⟨List.mergeSort_perm _ _, ?_⟩⟩
  have := List.pairwise_mergeSort (le := fun a b : Cmd => !less b.name a.name)
    (by intro a b c h1 h2; simp at h1 h2 ⊢; exact less_trans' _ _ _ h1 h2)
    (by intro a b; simp; cases h : less b.name a.name with
      | false => simp
      | true => simp [less_asymm _ _ h]) (l ++ [c])
  exact this.imp (by intro a b h; simpa using h)

/-- C40: a lookup finds a command with the name, iff one was registered. -/
theorem C40_lookup {cs l : List Cmd} (h : Registry cs l) (name : List Char) :
    (∀ c, commandByName l name = some c → c ∈ cs ∧ c.name = name) ∧
      ((commandByName l name).isSome ↔ ∃ c ∈ cs, c.name = name) := by
  have hp := (C40_registry h).1
  refine ⟨?_, ?_⟩
  · intro c hc
    have hm := List.mem_of_find?_eq_some hc
    have := List.find?_some hc
    exact ⟨hp.mem_iff.1 hm, by simpa using this⟩
  · unfold commandByName
    rw [List.find?_isSome]
    constructor
    · rintro ⟨c, hc, he⟩; exact ⟨c, hp.mem_iff.1 hc, by simpa using he⟩
    · rintro ⟨c, hc, he⟩; exact ⟨c, hp.mem_iff.2 hc, by simpa using he⟩

/-- C40: `help` shows each registered command once, and `clear` and `exit`. -/
theorem C40_help {cs l : List Cmd} (h : Registry cs l) : ∃ ls, helpLines l = ls ++
      [helpLine clearName "Clears the terminal".toList, helpLine exitName "Closes the connection".toList] ∧
    ls.Perm (cs.map fun c => helpLine c.name c.info) :=
  ⟨_, rfl, (C40_registry h).1.map _⟩

/-- No two commands have the same name. -/
def Distinct (cs : List Cmd) : Prop := cs.Pairwise fun a b => a.name ≠ b.name

theorem distinct_perm {l m : List Cmd} (h : l.Perm m) (hd : Distinct l) : Distinct m :=
  (List.Perm.pairwise_iff (R := fun a b : Cmd => a.name ≠ b.name) (fun hab => Ne.symm hab) h).1 hd

theorem distinct_eq {l : List Cmd} (hd : Distinct l) {a b : Cmd} (ha : a ∈ l) (hb : b ∈ l) (he : a.name = b.name) :
    a = b := by
  induction l with
  | nil => simp at ha
  | cons x l ih =>
    cases hd with
    | cons h1 h2 =>
      rcases List.mem_cons.1 ha with ha | ha <;> rcases List.mem_cons.1 hb with hb | hb
      · rw [ha, hb]
      · rw [ha] at he; exact absurd he (h1 b hb)
      · rw [hb] at he; exact absurd he.symm (h1 a ha)
      · exact ih h2 ha hb

/-- A list of distinct commands is determined by its elements and being sorted. -/
theorem sorted_unique : ∀ (l m : List Cmd), l.Perm m → Distinct l → Sorted l → Sorted m → l = m := by
  intro l
  induction l with
  | nil => intro m h _ _ _; exact h.nil_eq
  | cons a l ih =>
    intro m h hd hl hm
    cases m with
    | nil => exact absurd h.symm.nil_eq (by simp)
    | cons b m =>
      have hab : a = b := by
        have ha : a ∈ b :: m := h.mem_iff.1 (by simp)
        have hb : b ∈ a :: l := h.mem_iff.2 (by simp)
        rcases List.mem_cons.1 ha with e | ha'
        · exact e
        · rcases List.mem_cons.1 hb with e | hb'
          · exact e.symm
          · cases hl with
            | cons hl1 _ =>
              cases hm with
              | cons hm1 _ =>
                have := less_total a.name b.name (hm1 a ha') (hl1 b hb')
                exact distinct_eq hd (by simp) (by simp [hb']) this
      subst hab
      cases hd with
      | cons _ hd2 =>
        cases hl with
        | cons _ hl2 =>
          cases hm with
          | cons _ hm2 => rw [ih m h.cons_inv hd2 hl2 hm2]

/-- C40: if all names differ, the registry does not depend on the order of registration nor on the sorting. -/
theorem C40_unique {cs cs' l l' : List Cmd} (h : Registry cs l) (h' : Registry cs' l') (hp : cs.Perm cs')
    (hd : Distinct cs) : l = l' := by
  obtain ⟨p1, s1⟩ := C40_registry h
  obtain ⟨p2, s2⟩ := C40_registry h'
  exact sorted_unique l l' (p1.trans (hp.trans p2.symm)) (distinct_perm p1.symm hd) s1 s2

theorem helpTarget_mem (name : List Char) (l : List Cmd) : ∀ t, (∀ c, t = some c → c.name = name) →
    ∀ c, l.foldl (fun t c => if c.name = name then some c else t) t = some c → (c ∈ l ∨ t = some c) ∧ c.name = name := by
  induction l with
  | nil => intro t ht c hc; exact ⟨.inr hc, ht c hc⟩
  | cons x l ih =>
    intro t ht c hc
    simp only [List.foldl_cons] at hc
    by_cases hx : x.name = name
    · simp only [hx, if_true] at hc
      obtain ⟨h1, h2⟩ := ih (some x) (by intro c e; injection e with e; subst e; exact hx) c hc
      refine ⟨?_, h2⟩
      rcases h1 with h1 | h1
      · exact .inl (List.mem_cons_of_mem _ h1)
      · injection h1 with h1; subst h1; exact .inl (by simp)
    · simp only [hx, if_false] at hc
      obtain ⟨h1, h2⟩ := ih t ht c hc
      exact ⟨h1.imp (List.mem_cons_of_mem _) id, h2⟩

theorem helpTarget_isSome (name : List Char) (l : List Cmd) : ∀ t, (∃ c ∈ l, c.name = name) ∨ t.isSome →
    (l.foldl (fun t c => if c.name = name then some c else t) t).isSome := by
  induction l with
  | nil => rintro t (⟨c, hc, _⟩ | h); simp at hc; exact h
  | cons x l ih =>
    intro t h
    simp only [List.foldl_cons]
    apply ih
    rcases h with ⟨c, hc, he⟩ | h
    · rcases List.mem_cons.1 hc with rfl | hc
      · right; simp [he]
      · exact .inl ⟨c, hc, he⟩
    · right; split <;> simp [h]

/-- C40: if all names differ, `help name` describes the very command that `name` runs. -/
theorem C40_help_target {cs l : List Cmd} (h : Registry cs l) (hd : Distinct cs) (name : List Char) :
    helpTarget l name = commandByName l name := by
  have hp := (C40_registry h).1
  have hdl := distinct_perm hp.symm hd
  cases hc : commandByName l name with
  | some c =>
    have hm := List.mem_of_find?_eq_some hc
    have hn : c.name = name := by simpa using List.find?_some hc
    have hs := helpTarget_isSome name l none (.inl ⟨c, hm, hn⟩)
    obtain ⟨d, hd'⟩ := Option.isSome_iff_exists.1 hs
    obtain ⟨h1, h2⟩ := helpTarget_mem name l none (by simp) d hd'
    unfold helpTarget
    rw [hd']
    congr 1
    rcases h1 with h1 | h1
    · exact distinct_eq hdl h1 hm (h2.trans hn.symm)
    · simp at h1
  | none =>
    cases ht : helpTarget l name with
    | none => rfl
    | some d =>
      obtain ⟨h1, h2⟩ := helpTarget_mem name l none (by simp) d ht
      rcases h1 with h1 | h1
      · have : (commandByName l name).isSome := ((C40_lookup h name).2).2 ⟨d, hp.mem_iff.1 h1, h2⟩
        rw [hc] at this; simp at this
      · simp at h1

/-- C40: the usage shown for a command names it and shows its usage text, if it has one. -/
theorem C40_usage (c : Cmd) : (c.usage ≠ [] → usageText c = "Usage: ".toList ++ c.name ++ " ".toList ++ c.usage) ∧
    (c.usage = [] → usageText c = "No usage information for command '".toList ++ c.name ++ "'".toList) :=
  ⟨fun h => by rw [usageText, if_neg h], fun h => by rw [usageText, if_pos h]⟩

/-! ## C39: dispatch -/

/-- C39: a line runs a command iff one with the parsed name is registered; it is then one with that name, run with the
parsed parameters. Otherwise `clear` clears, `exit` ends the session, and anything else runs nothing. -/
theorem C39_dispatch {cs l : List Cmd} (h : Registry cs l) (line : List Char) :
    (∀ c args, handleLine l line = .exec c args → c ∈ cs ∧ c.name = (parse line).command ∧ args = (parse line).parameters) ∧
    ((∃ c args, handleLine l line = .exec c args) ↔ ∃ c ∈ cs, c.name = (parse line).command) ∧
    (handleLine l line = .exit ↔ (parse line).command = exitName ∧ ¬ ∃ c ∈ cs, c.name = exitName) ∧
    (handleLine l line = .clear ↔ (parse line).command = clearName ∧ ¬ ∃ c ∈ cs, c.name = clearName) ∧
    (∀ n, handleLine l line = .unknown n ↔ n = (parse line).command ∧ n ≠ exitName ∧ n ≠ clearName ∧ ¬ ∃ c ∈ cs, c.name = n) := by
  obtain ⟨h1, h2⟩ := C40_lookup h (parse line).command
  have hec : exitName ≠ clearName := by decide
  cases hc : commandByName l (parse line).command with
  | some c =>
    have hH : handleLine l line = .exec c (parse line).parameters := by simp only [handleLine, hc]
    rw [hH]
    have he : ∃ c ∈ cs, c.name = (parse line).command := ⟨c, h1 c hc⟩
    refine ⟨?_, ?_, ?_, ?_, ?_⟩
    · intro d args e
      simp only [Action.exec.injEq] at e
      obtain ⟨rfl, rfl⟩ := e
      exact ⟨(h1 c hc).1, (h1 c hc).2, rfl⟩
    · exact ⟨fun _ => he, fun _ => ⟨c, _, rfl⟩⟩
    · simp only [reduceCtorEq, false_iff]
      rintro ⟨e, hn⟩; rw [e] at he; exact hn he
    · simp only [reduceCtorEq, false_iff]
      rintro ⟨e, hn⟩; rw [e] at he; exact hn he
    · intro n
      simp only [reduceCtorEq, false_iff]
      rintro ⟨e, _, _, hn⟩; rw [← e] at he; exact hn he
  | none =>
    have hn : ¬ ∃ c ∈ cs, c.name = (parse line).command := by
      rw [← h2, hc]; simp
    have hH : handleLine l line = if (parse line).command = clearName then .clear
      else if (parse line).command = exitName then .exit else .unknown (parse line).command := by
      simp only [handleLine, hc]
    rw [hH]
    by_cases e1 : (parse line).command = clearName
    · rw [if_pos e1]
      rw [e1] at hn
      refine ⟨by simp, ?_, ?_, ?_, ?_⟩
      · simp only [reduceCtorEq, exists_const, exists_false, false_iff]; rw [e1]; exact hn
      · simp only [reduceCtorEq, false_iff]; rintro ⟨e, _⟩; rw [e1] at e; exact hec e.symm
      · simp only [true_iff]; exact ⟨e1, hn⟩
      · intro n; simp only [reduceCtorEq, false_iff]; rintro ⟨e, _, h, _⟩; rw [e1] at e; exact h e
    · rw [if_neg e1]
      by_cases e2 : (parse line).command = exitName
      · rw [if_pos e2]
        rw [e2] at hn
        refine ⟨by simp, ?_, ?_, ?_, ?_⟩
        · simp only [reduceCtorEq, exists_const, exists_false, false_iff]; rw [e2]; exact hn
        · simp only [true_iff]; exact ⟨e2, hn⟩
        · simp only [reduceCtorEq, false_iff]; rintro ⟨e, _⟩; exact e1 e
        · intro n; simp only [reduceCtorEq, false_iff]; rintro ⟨e, h, _⟩; rw [e2] at e; exact h e
      · rw [if_neg e2]
        refine ⟨by simp, ?_, ?_, ?_, ?_⟩
        · simp only [reduceCtorEq, exists_const, exists_false, false_iff]; exact hn
        · simp only [reduceCtorEq, false_iff]; rintro ⟨e, _⟩; exact e2 e
        · simp only [reduceCtorEq, false_iff]; rintro ⟨e, _⟩; exact e1 e
        · intro n
          simp only [Action.unknown.injEq]
          constructor
          · rintro rfl; exact ⟨rfl, e2, e1, hn⟩
          · rintro ⟨e, _⟩; exact e.symm

/-- Specification: the text of a read. -/
def textOf : Read → Option (List Char)
  | .line t => some t
  | .interrupt t => some t
  | _ => none

/-- C39, sessions: the lines are handled in the order read, each once; the session goes on until an end of file, an error
or a line that means `exit`. -/
theorem C39_session (l : List Cmd) (rs : List Read) : ∃ done rest, rs = done ++ rest ∧
    done.map textOf = (readLoop l rs).map some ∧
    (rest = [] ∨ (∃ r post, rest = r :: post ∧ textOf r = none) ∨
      ∃ t, (readLoop l rs).getLast? = some t ∧ handleLine l t = .exit) ∧
    (∀ t ∈ (readLoop l rs).dropLast, handleLine l t ≠ .exit) := by
  induction rs with
  | nil => exact ⟨[], [], rfl, rfl, .inl rfl, by simp [readLoop]⟩
  | cons r rs ih =>
    obtain ⟨done, rest, e, h1, h2, h3⟩ := ih
    have step : ∀ t, textOf r = some t → handleLine l t ≠ .exit → readLoop l (r :: rs) = t :: readLoop l rs →
        ∃ done rest, r :: rs = done ++ rest ∧ done.map textOf = (readLoop l (r :: rs)).map some ∧
        (rest = [] ∨ (∃ r post, rest = r :: post ∧ textOf r = none) ∨
          ∃ t, (readLoop l (r :: rs)).getLast? = some t ∧ handleLine l t = .exit) ∧
        (∀ t ∈ (readLoop l (r :: rs)).dropLast, handleLine l t ≠ .exit) := by
      intro t ht hne hr
      refine ⟨r :: done, rest, by simp [e], by rw [hr]; simp [ht, h1], ?_, ?_⟩
      · rcases h2 with h2 | h2 | ⟨u, hu, hx⟩
        · exact .inl h2
        · exact .inr (.inl h2)
        · refine .inr (.inr ⟨u, ?_, hx⟩)
          rw [hr]
          cases hl : readLoop l rs with
          | nil => rw [hl] at hu; simp at hu
          | cons x y => rw [hl] at hu; rw [List.getLast?_cons_cons]; exact hu
      · intro u hu
        rw [hr] at hu
        cases hl : readLoop l rs with
        | nil => rw [hl] at hu; simp at hu
        | cons x y =>
          rw [hl, List.dropLast_cons_of_ne_nil (by simp)] at hu
          rcases List.mem_cons.1 hu with rfl | hu
          · exact hne
          · rw [hl] at h3; exact h3 u hu
    have stop : ∀ t, textOf r = some t → handleLine l t = .exit → readLoop l (r :: rs) = [t] →
        ∃ done rest, r :: rs = done ++ rest ∧ done.map textOf = (readLoop l (r :: rs)).map some ∧
        (rest = [] ∨ (∃ r post, rest = r :: post ∧ textOf r = none) ∨
          ∃ t, (readLoop l (r :: rs)).getLast? = some t ∧ handleLine l t = .exit) ∧
        (∀ t ∈ (readLoop l (r :: rs)).dropLast, handleLine l t ≠ .exit) := by
      intro t ht he hr
      exact ⟨[r], rs, rfl, by rw [hr]; simp [ht], .inr (.inr ⟨t, by rw [hr]; rfl, he⟩), by rw [hr]; simp⟩
    cases r with
    | eof => exact ⟨[], _, rfl, rfl, .inr (.inl ⟨_, _, rfl, rfl⟩), by simp [readLoop]⟩
    | err => exact ⟨[], _, rfl, rfl, .inr (.inl ⟨_, _, rfl, rfl⟩), by simp [readLoop]⟩
    | line t =>
      cases ha : handleLine l t with
      | exit => exact stop t rfl ha (by simp [readLoop, ha])
      | _ => exact step t rfl (by simp [ha]) (by simp [readLoop, ha])
    | interrupt t =>
      cases ha : handleLine l t with
      | exit => exact stop t rfl ha (by simp [readLoop, ha])
      | _ => exact step t rfl (by simp [ha]) (by simp [readLoop, ha])

/-- What is printed: the message on lines of its own (one newline at its end is not doubled), or the usage. -/
theorem C39_printed (c : Cmd) (msg : List Char) :
    (msg.getLast? ≠ some '\n' → printed c msg true = msg ++ ['\n']) ∧ printed c (msg ++ ['\n']) true = msg ++ ['\n'] ∧
      printed c msg false = usageText c ++ ['\n'] := by
  refine ⟨fun h => by simp [printed, h], by simp [printed], by simp [printed]⟩

/-! ## C66: interrupted lines -/

/-- C66 is false: a line that is abandoned with Ctrl-C is handled like one that is entered. -/
theorem C66_interrupted_line_runs (l : List Cmd) (t : List Char) (rs : List Read) :
    readLoop l (.interrupt t :: rs) = readLoop l (.line t :: rs) ∧ t ∈ readLoop l (.interrupt t :: rs) := by
  refine ⟨rfl, ?_⟩
  simp only [readLoop]
  split <;> simp

/-- C66, where it holds: if nothing was typed and no command has an empty name, an interrupt runs nothing. -/
theorem C66_empty_partial {cs l : List Cmd} (h : Registry cs l) (hn : ∀ c ∈ cs, c.name ≠ []) :
    handleLine l [] = .unknown [] := by
  have hp : (parse []).command = [] := by simp [parse, split_nil, trim]
  refine ((C39_dispatch h []).2.2.2.2 []).2 ⟨hp.symm, by decide, by decide, ?_⟩
  rintro ⟨c, hc, he⟩; exact hn c hc he

/-! ## C38: completion -/

theorem collect_ok {α : Type} (f : List Char → α) (l : List (List Char)) :
    collect (l.map fun x => Res.ok (f x)) = .ok (l.map f) := by
  induction l with
  | nil => rfl
  | cons x l ih => simp [collect, ih, Res.map]

theorem collect_congr {l : List (List Char)} {f : List Char → Res (List Char)} {g : List Char → List Char}
    (h : ∀ x ∈ l, f x = .ok (g x)) : collect (l.map f) = .ok (l.map g) := by
  rw [← collect_ok, List.map_congr_left h]

theorem collect_panic {l : List (List Char)} {f : List Char → Res (List Char)} {x : List Char} (hx : x ∈ l)
    (h : f x = .panic) : collect (l.map f) = .panic := by
  induction l with
  | nil => simp at hx
  | cons y l ih =>
    simp only [List.map_cons]
    rcases List.mem_cons.1 hx with rfl | hx
    · rw [h]; rfl
    · cases f y with
      | panic => rfl
      | ok a => simp [collect, ih hx, Res.map]

theorem sliceFrom_append (a b : List Char) : sliceFrom (a ++ b) a.length = .ok b := by
  simp [sliceFrom]

theorem split_last (w : List Char) (hp : Plain w) (hs : Safe w) : split (esc w) = (w, []) := by
  induction w with
  | nil => simp [esc_nil, split_nil]
  | cons c w ih =>
    have ih := ih (plain_tail hp) (fun d hd => hs d (List.mem_cons_of_mem _ hd))
    by_cases h1 : c = ' '
    · subst h1; rw [esc_space, split_esc, ih]
    · by_cases h2 : c = '\\'
      · subst h2
        obtain ⟨d, r, e, h3, h4⟩ := hp [] w rfl
        subst e
        rw [esc_other _ h1, esc_other _ h3] at *
        rw [split_lone _ h3 h4, ih]
      · rw [esc_other _ h1, split_plain _ h1 h2, ih, (C37_survives_iff c).2 (hs c (by simp))]

/-- Specification: words that the parser and Unparse treat faithfully (see C35). -/
def Good (w : List Char) : Prop := Safe w ∧ Trimmed w ∧ Plain w

/-- Specification: a line being typed, spelled in the plain way: the command, finished parameters each followed by one
space, and the beginning of the next parameter. -/
def typed (cmd : List Char) (ps : List (List Char)) (arg : List Char) : List Char :=
  esc cmd ++ ' ' :: (ps.flatMap (fun p => esc p ++ [' ']) ++ esc arg)

theorem split_typed (cmd : List Char) (ps : List (List Char)) (arg : List Char) (hc : Good cmd) (hp : ∀ p ∈ ps, Good p)
    (ha : Good arg) : split (typed cmd ps arg) = (cmd, ps ++ [arg]) := by
  have key : ∀ ps : List (List Char), (∀ p ∈ ps, Good p) →
      (split (ps.flatMap (fun p => esc p ++ [' ']) ++ esc arg)).1 :: (split (ps.flatMap (fun p => esc p ++ [' ']) ++ esc arg)).2 =
        ps ++ [arg] := by
    intro ps
    induction ps with
    | nil => intro _; simp [split_last arg ha.2.2 ha.1]
    | cons p ps ih =>
      intro h
      have ih := ih (fun q hq => h q (List.mem_cons_of_mem _ hq))
      rw [List.flatMap_cons, List.append_assoc, List.append_assoc, List.singleton_append,
        split_word p _ (h p (by simp)).2.2 (h p (by simp)).1, ih]
      rfl
  rw [typed, split_word cmd _ hc.2.2 hc.1, key ps hp]

theorem typed_last (cmd : List Char) (ps : List (List Char)) (arg : List Char) (ha : Good arg) :
    (typed cmd ps arg).getLast? = some ' ' ↔ arg = [] := by
  cases arg with
  | nil =>
    simp only [iff_true, typed, esc_nil, List.append_nil]
    cases h : ps.reverse with
    | nil => simp [List.reverse_eq_nil_iff.1 h]
    | cons p qs =>
      have : ps = qs.reverse ++ [p] := by have := congrArg List.reverse h; simpa using this
      rw [this]
      simp [List.getLast?_append, List.getLast?_cons]
  | cons c w =>
    simp only [reduceCtorEq, iff_false]
    have hl : ∀ w : List Char, w ≠ [] → (esc w).getLast? = w.getLast? := by
      intro w
      induction w with
      | nil => simp
      | cons d v ih =>
        intro _
        cases v with
        | nil => by_cases h : d = ' ' <;> simp [esc, h]
        | cons x y =>
          have ih := ih (by simp)
          have hne : esc (x :: y) ≠ [] := by
            by_cases h : x = ' '
            · subst h; simp [esc_space]
            · simp [esc_other _ h]
          rw [List.getLast?_cons_cons, ← ih]
          by_cases h : d = ' '
          · subst h
            rw [esc_space]
            simp [List.getLast?_cons, List.getLast?_eq_some_getLast hne]
          · rw [esc_other _ h]
            simp [List.getLast?_cons, List.getLast?_eq_some_getLast hne]
    intro h
    have h2 : (esc (c :: w)).getLast? = some ' ' := by
      rw [hl _ (by simp)]
      have : (typed cmd ps (c :: w)).getLast? = (esc (c :: w)).getLast? := by
        have hne : esc (c :: w) ≠ [] := by
          by_cases h : c = ' '
          · subst h; simp [esc_space]
          · simp [esc_other _ h]
        obtain ⟨z, hz⟩ := Option.isSome_iff_exists.1 (List.getLast?_isSome.2 hne)
        simp [typed, List.getLast?_append, List.getLast?_cons, hz]
      rw [← hl _ (by simp), ← this]
      exact h
    rw [hl _ (by simp)] at h2
    have := ha.2.1.2 _ h2
    simp [White] at this

theorem typed_parse (cmd : List Char) (ps : List (List Char)) (arg : List Char) (hc : Good cmd)
    (hp : ∀ p ∈ ps, Good p ∧ p ≠ []) (ha : Good arg) :
    parse (typed cmd ps arg) = ⟨cmd, ps ++ (if arg = [] then [] else [arg])⟩ := by
  rw [parse, split_typed cmd ps arg hc (fun p h => (hp p h).1) ha, List.filter_append]
  have h1 : ps.filter (fun p => !p.isEmpty) = ps :=
    List.filter_eq_self.2 (fun p h => by have := (hp p h).2; cases p <;> simp at this ⊢)
  have h2 : ps.map trim = ps := by
    rw [List.map_congr_left (g := id), List.map_id]
    intro p h; exact trim_id (hp p h).1.2.1
  rw [h1, List.map_append, h2, trim_id hc.2.1]
  cases arg with
  | nil => simp
  | cons x y => simp [trim_id ha.2.1]

theorem unparse_typed (cmd : List Char) (ps : List (List Char)) (o : List Char) :
    unparse ⟨cmd, ps ++ [o]⟩ = typed cmd ps o ++ [' '] := by
  rw [unparse_eq]
  simp [typed]

/-- C38, arguments, where it holds: with the cursor at the end of a line spelled in the plain way, completing does not
crash, and accepting the proposals yields, for each option of the command that extends the argument begun, the line with
that option. -/
theorem C38_argument_partial (l : List Cmd) (c : Cmd) (cmd : List Char) (ps : List (List Char)) (arg : List Char)
    (hc : Good cmd) (hp : ∀ p ∈ ps, Good p ∧ p ≠ []) (ha : Good arg) (hl : commandByName l cmd = some c) :
    ∃ props, complete l (typed cmd ps arg) (typed cmd ps arg).length = .ok props ∧
      props.map (accept (typed cmd ps arg) (typed cmd ps arg).length) =
        ((c.options arg ps.length).filter (fun o => arg.isPrefixOf o)).map fun o => unparse ⟨cmd, ps ++ [o]⟩ := by
  have hcmd : (if (typed cmd ps arg).getLast? = some ' ' then
      { parse (typed cmd ps arg) with parameters := (parse (typed cmd ps arg)).parameters ++ [[]] }
      else parse (typed cmd ps arg)) = ⟨cmd, ps ++ [arg]⟩ := by
    rw [typed_parse cmd ps arg hc hp ha]
    by_cases h : arg = []
    · rw [if_pos ((typed_last cmd ps arg ha).2 h)]; simp [h]
    · rw [if_neg (fun hx => h ((typed_last cmd ps arg ha).1 hx))]; simp [h]
  unfold complete
  simp only [hcmd]
  rw [if_neg (by simp)]
  simp only [argOptionsWithPrefix, hl, List.length_append, List.length_cons, List.length_nil, Nat.zero_add,
    Nat.add_sub_cancel, List.getLastD_concat, List.dropLast_concat]
  have hstep : ∀ o ∈ (c.options arg ps.length).filter (fun o => arg.isPrefixOf o),
      sliceFrom (unparse ⟨cmd, ps ++ [o]⟩) (typed cmd ps arg).length = .ok (esc (o.drop arg.length) ++ [' ']) := by
    intro o ho
    obtain ⟨r, hr⟩ := List.isPrefixOf_iff_prefix.1 (List.mem_filter.1 ho).2
    have : unparse ⟨cmd, ps ++ [o]⟩ = typed cmd ps arg ++ (esc (o.drop arg.length) ++ [' ']) := by
      rw [unparse_typed, ← hr]
      simp [typed, esc_append]
    rw [this, sliceFrom_append]
  refine ⟨_, collect_congr hstep, ?_⟩
  rw [List.map_map]
  apply List.map_congr_left
  intro o ho
  obtain ⟨r, hr⟩ := List.isPrefixOf_iff_prefix.1 (List.mem_filter.1 ho).2
  have e : accept (typed cmd ps arg) (typed cmd ps arg).length (esc r ++ [' ']) = typed cmd ps arg ++ (esc r ++ [' ']) := by
    simp only [accept, List.take_length, List.drop_length, List.append_nil]
  have e2 : o.drop arg.length = r := by rw [← hr]; simp
  simp only [Function.comp, e2]
  rw [e, unparse_typed, ← hr]
  simp [typed, esc_append]

/-- ... and the completed line parses to the same command with the completed argument, for options that are good words. -/
theorem C38_argument_meaning_partial (cmd : List Char) (ps : List (List Char)) (o : List Char) (hc : Good cmd)
    (hp : ∀ p ∈ ps, Good p ∧ p ≠ []) (ho : Good o ∧ o ≠ []) : parse (unparse ⟨cmd, ps ++ [o]⟩) = ⟨cmd, ps ++ [o]⟩ := by
  apply C35_round_trip_partial
  · intro w hw
    simp at hw
    rcases hw with rfl | hw | rfl
    · exact hc
    · exact (hp w hw).1
    · exact ho.1
  · intro p h
    simp at h
    rcases h with h | rfl
    · exact (hp p h).2
    · exact ho.2

/-- C38, command names, where it holds: with the cursor at the end of a plainly spelled beginning of a command name, the
accepted proposals are the names with that beginning. -/
theorem C38_command_partial (l : List Cmd) (w : List Char) (hw : Good w) (hsp : ' ' ∉ w) :
    ∃ props, complete l w w.length = .ok props ∧
      props.map (accept w w.length) = (("clear".toList :: "exit".toList :: l.map Cmd.name).filter (fun n => w.isPrefixOf n)).map (· ++ [' ']) := by
  show ∃ props, complete l w w.length = .ok props ∧
      props.map (accept w w.length) = ((commandNames l).filter (fun n => w.isPrefixOf n)).map (· ++ [' '])
  have hesc : esc w = w := by
    clear hw
    induction w with
    | nil => rfl
    | cons c w ih =>
      simp at hsp
      rw [esc_other _ (by intro h; exact hsp.1 h.symm), ih hsp.2]
  have hp : parse w = ⟨w, []⟩ := by
    have := split_last w hw.2.2 hw.1
    rw [hesc] at this
    simp [parse, this, trim_id hw.2.1]
  have hlast : w.getLast? ≠ some ' ' := by
    intro h; exact hsp (List.mem_of_getLast? h)
  unfold complete
  simp only [hlast, if_false, hp, List.length_nil, true_and, not_false_eq_true, if_true, ne_eq]
  have hstep : ∀ n ∈ (commandNames l).filter (fun n => w.isPrefixOf n),
      sliceFrom (n ++ [' ']) w.length = .ok (n.drop w.length ++ [' ']) := by
    intro n hn
    obtain ⟨r, hr⟩ := List.isPrefixOf_iff_prefix.1 (List.mem_filter.1 hn).2
    rw [← hr, List.append_assoc, sliceFrom_append]
    simp
  refine ⟨_, collect_congr hstep, ?_⟩
  rw [List.map_map]
  apply List.map_congr_left
  intro n hn
  obtain ⟨r, hr⟩ := List.isPrefixOf_iff_prefix.1 (List.mem_filter.1 hn).2
  rw [← hr]
  simp [accept]

/-- C38 is false: completing after typing `à` six times crashes the server, whatever commands are registered (`à` is
mangled to a no-break space, which is trimmed, and the six characters typed are more than "exit " has). -/
theorem C38_crash_accents (l : List Cmd) : complete l (List.replicate 6 'à') 6 = .panic := by
  have hp : parse (List.replicate 6 'à') = ⟨[], []⟩ := by
    have hc : ∀ c ∈ List.replicate 6 'à', c ≠ ' ' ∧ c ≠ '\\' := by
      intro c h; rw [List.eq_of_mem_replicate h]; decide
    simp only [parse, split_one_word _ hc]
    have hl : lastByte 'à' = '\u00a0' := by decide
    simp only [List.map_replicate, hl]
    decide
  unfold complete
  have hlast : (List.replicate 6 'à').getLast? ≠ some ' ' := by decide
  simp only [hlast, if_false, hp, List.length_nil, true_and, not_false_eq_true, if_true, ne_eq]
  exact collect_panic (x := exitName) (by simp [commandNames]) (by decide)

/-- C38 is false: so does completing after `exit`-prefixes preceded by escaped spaces: `\ \ \ e`. -/
theorem C38_crash_escapes (l : List Cmd) : complete l ['\\', ' ', '\\', ' ', '\\', ' ', 'e'] 7 = .panic := by
  have hp : parse ['\\', ' ', '\\', ' ', '\\', ' ', 'e'] = ⟨['e'], []⟩ := by
    simp only [parse]
    rw [split_esc, split_esc, split_esc, split_plain _ (by decide) (by decide), split_nil]
    decide
  unfold complete
  have hlast : ['\\', ' ', '\\', ' ', '\\', ' ', 'e'].getLast? ≠ some ' ' := by decide
  simp only [hlast, if_false, hp, List.length_nil, true_and, not_false_eq_true, if_true, ne_eq]
  exact collect_panic (x := exitName) (by simp [commandNames]; decide) (by decide)

theorem split_spaces (n : Nat) : split (List.replicate n ' ') = ([], List.replicate n []) := by
  induction n with
  | zero => simp [split_nil]
  | succ n ih => rw [List.replicate_succ, split_sep, ih]; rfl

/-- C38 is false: so does completing after a command name with an option `o`, followed by more spaces than `o` is long. -/
theorem C38_crash_spaces (l : List Cmd) (c : Cmd) (cmd o : List Char) (hc : Good cmd) (hl : commandByName l cmd = some c)
    (ho : o ∈ c.options [] 0) (n : Nat) (hn : (esc o).length + 2 < n) :
    complete l (esc cmd ++ List.replicate n ' ') (esc cmd ++ List.replicate n ' ').length = .panic := by
  obtain ⟨m, rfl⟩ : ∃ m, n = m + 1 := ⟨n - 1, by omega⟩
  have hlast : (esc cmd ++ List.replicate (m + 1) ' ').getLast? = some ' ' := by
    rw [List.replicate_succ', ← List.append_assoc]; simp
  have hp : parse (esc cmd ++ List.replicate (m + 1) ' ') = ⟨cmd, []⟩ := by
    rw [List.replicate_succ]
    simp only [parse]
    rw [split_word cmd _ hc.2.2 hc.1, split_spaces]
    simp [trim_id hc.2.1]
  unfold complete
  simp only [hlast, hp, if_true]
  rw [if_neg (by simp)]
  simp only [argOptionsWithPrefix, hl, List.nil_append, List.length_cons, List.length_nil, Nat.zero_add, Nat.sub_self,
    List.getLastD_cons, List.getLastD_nil, List.dropLast_singleton]
  refine collect_panic (x := o) (by simp [ho]) ?_
  have hu := unparse_typed cmd [] o
  rw [List.nil_append] at hu
  rw [hu, sliceFrom, if_neg]
  simp [typed]
  omega

/-- Specification: the whole lines completion has in mind for a line. While the first word is typed: the names of the
commands that begin with it, and a space. Afterwards: the line spelled anew, with its last parameter (an empty one after a
space) replaced by each option that begins with it. -/
def candidates (l : List Cmd) (line : List Char) : List (List Char) :=
  let words := (parse line).parameters ++ (if line.getLast? = some ' ' then [[]] else [])
  if words.length = 0 then
    (("clear".toList :: "exit".toList :: l.map Cmd.name).filter fun n => (parse line).command.isPrefixOf n).map (· ++ [' '])
  else
    match commandByName l (parse line).command with
    | none => []
    | some c =>
      ((c.options (words.getLastD []) (words.length - 1)).filter fun o => (words.getLastD []).isPrefixOf o).map fun o =>
        unparse ⟨(parse line).command, words.dropLast ++ [o]⟩

theorem collect_slices (pos : Nat) (f : List Char → List Char) : ∀ (os : List (List Char)),
    collect (os.map fun o => sliceFrom (f o) pos) =
      if (os.map f).any (fun c => decide (c.length < pos)) then .panic else .ok ((os.map f).map (·.drop pos)) := by
  intro os
  induction os with
  | nil => simp [collect]
  | cons o os ih =>
    simp only [List.map_cons, sliceFrom]
    by_cases h : pos ≤ (f o).length
    · simp only [if_pos h, collect]
      have := ih
      simp only [sliceFrom] at this
      rw [this]
      have h2 : decide ((f o).length < pos) = false := by simp; omega
      rw [List.any_cons, h2, Bool.false_or]
      split <;> rfl
    · simp only [if_neg h, collect]
      rw [if_pos (by simp; exact Or.inl (by omega))]

/-- C38, exactly what completion does for every registry, line and cursor: it crashes the server iff some candidate is
shorter than the cursor's position, and otherwise proposes each candidate without as many characters as stand before the
cursor. -/
theorem C38_exact (l : List Cmd) (line : List Char) (pos : Nat) :
    complete l line pos =
      if (candidates l line).any (fun c => decide (c.length < pos)) then .panic else .ok ((candidates l line).map (·.drop pos)) := by
  have harg : ∀ (ws : List (List Char)), argOptionsWithPrefix l ⟨(parse line).command, ws⟩ pos =
      let cs := match commandByName l (parse line).command with
        | none => []
        | some c =>
          ((c.options (ws.getLastD []) (ws.length - 1)).filter fun o => (ws.getLastD []).isPrefixOf o).map fun o =>
            unparse ⟨(parse line).command, ws.dropLast ++ [o]⟩
      if cs.any (fun c => decide (c.length < pos)) then .panic else .ok (cs.map (·.drop pos)) := by
    intro ws
    simp only [argOptionsWithPrefix]
    cases commandByName l (parse line).command with
    | none => rfl
    | some c => exact collect_slices pos (fun o => unparse ⟨(parse line).command, ws.dropLast ++ [o]⟩) _
  by_cases hl : line.getLast? = some ' '
  · have h1 : ((parse line).parameters ++ [[]]).length ≠ 0 := by simp
    simp only [complete, candidates, hl, if_true, if_neg h1, ne_eq, not_true_eq_false, and_false, if_false]
    exact harg _
  · simp only [complete, candidates, hl, if_false, List.append_nil, ne_eq, not_false_eq_true, and_true]
    by_cases h0 : (parse line).parameters.length = 0
    · simp only [if_pos h0]
      exact collect_slices pos (· ++ [' ']) _
    · simp only [if_neg h0]
      exact harg _

/-- C38, when completing at the end of a line is right: choosing a proposal gives its candidate for all candidates iff the
line typed is the beginning of each of them. -/
theorem C38_right_iff (l : List Cmd) (line : List Char) :
    (∃ props, complete l line line.length = .ok props ∧ props.map (accept line line.length) = candidates l line) ↔
      ∀ c ∈ candidates l line, line <+: c := by
  rw [C38_exact]
  constructor
  · rintro ⟨props, h, e⟩
    split at h
    · simp at h
    · simp only [Res.ok.injEq] at h
      subst h
      intro c hc
      rw [← e] at hc
      simp only [List.mem_map] at hc
      obtain ⟨p, -, rfl⟩ := hc
      simp [accept]
  · intro h
    rw [if_neg]
    · refine ⟨_, rfl, ?_⟩
      rw [List.map_map]
      conv => rhs; rw [← List.map_id (candidates l line)]
      apply List.map_congr_left
      intro c hc
      obtain ⟨t, rfl⟩ := h c hc
      simp [accept]
    · simp only [List.any_eq_true, decide_eq_true_eq, not_exists, not_and]
      intro c hc hl
      have := (h c hc).length_le
      omega

section examples
/-- The registry of a server that has only `help` with its options, and `ls`. -/
def helpCmd : Cmd := ⟨0, ['h', 'e', 'l', 'p'], [], [], fun _ n => if n = 0 then [clearName, exitName] else []⟩
def lsCmd : Cmd := ⟨1, ['l', 's'], [], [], fun _ _ => []⟩

theorem reg0 : Registry [helpCmd, lsCmd] [helpCmd, lsCmd] := by
  have h1 : Registry [helpCmd] [helpCmd] := Registry.snoc .nil ⟨.refl _, by simp [Sorted]⟩
  exact Registry.snoc h1 ⟨.refl _, by simp [Sorted, helpCmd, lsCmd]; decide⟩
example : Distinct [helpCmd, lsCmd] := by simp [Distinct, helpCmd, lsCmd]
theorem good_help : Good ['h', 'e', 'l', 'p'] := by
  refine ⟨by simp [Safe], by simp [Trimmed, White], ?_⟩
  intro pre post e
  have : '\\' ∈ ['h', 'e', 'l', 'p'] := by rw [e]; simp
  simp at this
theorem good_nil : Good [] := ⟨by simp [Safe], by simp [Trimmed], fun pre post e => by simp at e⟩
/-- Completing `help ` proposes both options. -/
example : ∃ props, complete [helpCmd, lsCmd] (typed ['h', 'e', 'l', 'p'] [] []) 5 = .ok props ∧
    props.map (accept (typed ['h', 'e', 'l', 'p'] [] []) 5) =
      [unparse ⟨['h', 'e', 'l', 'p'], [clearName]⟩, unparse ⟨['h', 'e', 'l', 'p'], [exitName]⟩] :=
  C38_argument_partial [helpCmd, lsCmd] helpCmd ['h', 'e', 'l', 'p'] [] [] good_help (by simp) good_nil rfl
/-- `help` and ten spaces crash the server. -/
example : complete [helpCmd, lsCmd] (esc ['h', 'e', 'l', 'p'] ++ List.replicate 10 ' ') 14 = .panic :=
  C38_crash_spaces [helpCmd, lsCmd] helpCmd ['h', 'e', 'l', 'p'] clearName good_help rfl (by simp [helpCmd]) 10 (by decide)
/-- C38 is false for a cursor inside the line: with the cursor after `he` in `help`, the proposal for `help` yields
`help lp`. -/
example : ∃ p, complete [helpCmd, lsCmd] ['h', 'e', 'l', 'p'] 2 = .ok [p] ∧
    accept ['h', 'e', 'l', 'p'] 2 p = ['h', 'e', 'l', 'p', ' ', 'l', 'p'] := by
  refine ⟨['l', 'p', ' '], ?_, by decide⟩
  have hp : parse ['h', 'e', 'l', 'p'] = ⟨['h', 'e', 'l', 'p'], []⟩ := by
    have := split_last ['h', 'e', 'l', 'p'] good_help.2.2 good_help.1
    rw [show esc ['h', 'e', 'l', 'p'] = ['h', 'e', 'l', 'p'] by decide] at this
    simp only [parse, this]
    decide
  simp only [complete, hp]
  decide
/-- The registry with two commands of one name: `help` may describe the other one. -/
example : ∃ l, Registry [helpCmd, { helpCmd with id := 2 }] l ∧ commandByName l ['h', 'e', 'l', 'p'] ≠ helpTarget l ['h', 'e', 'l', 'p'] := by
  refine ⟨[helpCmd, { helpCmd with id := 2 }], ?_, ?_⟩
  · have h1 : Registry [helpCmd] [helpCmd] := Registry.snoc .nil ⟨.refl _, by simp [Sorted]⟩
    exact Registry.snoc h1 ⟨.refl _, by simp [Sorted, helpCmd]; decide⟩
  · intro h
    have := congrArg (Option.map Cmd.id) h
    revert this
    decide
end examples

end MS.Session
