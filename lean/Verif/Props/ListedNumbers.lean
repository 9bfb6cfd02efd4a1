import Verif.Props.Console
import Verif.Props.Numbers
/-!
# Property C140: a number of the listing names that song

The numbers that `playlist` prints, typed after `remove` or `jump`. Nothing is modelled here: this composes the listing
(C62), the reading of lines (C38, C92), the reading of numbers (C117) and the commands.
-/
namespace MS.ListedNumbers
open MS.Console MS.Session MS.Shell MS.Spec.Shell MS.Commands

/-! ## Specification -/

/-- `text` contains `line` as a line of its own. -/
def HasLine (text line : List Char) : Prop := ∃ pre post, text = pre ++ '\n' :: (line ++ '\n' :: post)

/-! ## Lemmas -/

theorem line_of (lines : List (List Char)) (rest : List Char) : ∀ (i : Nat) (x : List Char), lines[i]? = some x →
    HasLine ('\n' :: (unlines lines ++ '\n' :: rest)) x := by
  induction lines with
  | nil => intro i x h; simp at h
  | cons a ls ih =>
    intro i x h
    cases ls with
    | nil =>
      cases i with
      | zero => simp at h; subst h; exact ⟨[], rest, rfl⟩
      | succ i => simp at h
    | cons b r =>
      cases i with
      | zero =>
        simp at h; subst h
        exact ⟨[], unlines (b :: r) ++ '\n' :: rest, by simp [unlines]⟩
      | succ i =>
        obtain ⟨pre, post, e⟩ := ih i x (by simpa using h)
        exact ⟨'\n' :: a ++ pre, post, by simp only [unlines, List.cons_append, List.append_assoc, e]⟩

theorem hasLine_pre {text line : List Char} (a : List Char) (h : HasLine text line) : HasLine (a ++ text) line := by
  obtain ⟨p, q, e⟩ := h
  exact ⟨a ++ p, q, by rw [e, List.append_assoc]⟩

theorem hasLine_post {text line : List Char} (a : List Char) (h : HasLine text line) : HasLine (text ++ a) line := by
  obtain ⟨p, q, e⟩ := h
  exact ⟨p, q ++ a, by simp [e]⟩

theorem last_ne (a : List Char) {b : List Char} {q : Char} (h : b.getLast? = some q) (hq : q ≠ '\n') :
    (a ++ b).getLast? ≠ some '\n' := by
  rw [List.getLast?_append, h]
  simpa using hq

theorem shown_plain (n u t : List Char) (h : t.getLast? ≠ some '\n') : shown n u (.text t) = t ++ ['\n'] := by
  simp only [shown, if_neg h]

theorem shown_hasLine (n u : List Char) {a b line : List Char} (key : ∀ r, HasLine (a ++ r) line) (hb : b ≠ []) :
    HasLine (shown n u (.text (a ++ b))) line := by
  simp only [shown]
  split
  · rw [List.dropLast_append_of_ne_nil hb]
    exact hasLine_post _ (key _)
  · exact hasLine_post _ (key _)

theorem good_digits {num : List Char} (h : ∀ d ∈ num, 48 ≤ d.toNat ∧ d.toNat ≤ 57) : Good num := by
  have nw : ∀ c ∈ num, ¬ White c := by
    intro c hc hw
    have h1 := h c hc
    simp only [White, List.mem_cons, List.not_mem_nil, or_false] at hw
    rcases hw with rfl | rfl | rfl | rfl | rfl | rfl | rfl | rfl <;> simp at h1
  refine good_of ?_ ?_ ?_ ?_
  · rw [List.all_eq_true]
    intro c hc
    have := h c hc
    simp; omega
  · intro hc
    have := h _ hc
    simp at this
  · intro c hc; exact nw c (List.mem_of_head? hc)
  · intro c hc; exact nw c (List.mem_of_getLast? hc)

theorem digits_no_space {num : List Char} (h : ∀ d ∈ num, 48 ≤ d.toNat ∧ d.toNat ≤ 57) : ' ' ∉ num := by
  intro hc; have := h _ hc; simp at this

theorem parse_word (w : Which) : parse (nameOf w) = ⟨nameOf w, []⟩ := by
  have := split_last (nameOf w) (good_name w).2.2 (good_name w).1
  rw [esc_name] at this
  rw [parse, this, trim_id (good_name w).2.1]
  rfl

theorem parse_number (w : Which) {num : List Char} (h : ∀ d ∈ num, 48 ≤ d.toNat ∧ d.toNat ≤ 57) (hne : num ≠ []) :
    parse (nameOf w ++ ' ' :: num) = ⟨nameOf w, [num]⟩ := by
  have hg := good_digits h
  have := split_typed (nameOf w) [] num (good_name w) (by simp) hg
  rw [typed_first, esc_no_space (digits_no_space h)] at this
  rw [parse, this]
  simp [trim_id (good_name w).2.1, trim_id hg.2.1, hne]

/-! ## C140 -/

variable {glob : String → Except (List Char) (List String)} {sendError : Option (List Char)}

set_option maxHeartbeats 1000000 in
/-- C140: `playlist` changes nothing and shows a line with a number and the song for each song; entering `remove` and this
number removes that song and names it, entering `jump` and this number makes it the next one. -/
theorem C140_listed {env : Env} {l : List Cmd} (h : Console env l) (he : env.ext = Numbers.ext glob sendError) (c : Ctl)
    (hl : c.songs.length < 2 ^ 63) :
    ∃ (text : List Char) (number : Nat → List Char), enter env l "playlist".toList c = .done c text true ∧
      ∀ i (hi : i < c.songs.length),
        HasLine text ("  [".toList ++ number i ++ "] ".toList ++ (c.songs[i]).toList) ∧
        (∃ t, enter env l ("remove ".toList ++ number i) c = .done { c with songs := c.songs.eraseIdx i }
          ("removed song ".toList ++ (c.songs[i]).toList ++ " at position ".toList ++ t ++ " from playlist\n".toList) true ∧
          Denotes t i) ∧
        (c.tokens < 2 → ∃ c' t, enter env l ("jump ".toList ++ number i) c =
          .done c' ("jumped to ".toList ++ t ++ ['\n']) true ∧ c'.position = i ∧ Denotes t i) := by
  obtain ⟨lines, numbers, hx, hlen, hlen', hall, -⟩ := C62_listing env.ext [] c
  have ep : nameOf (.ctl .playlist) = "playlist".toList := by decide
  have er : nameOf (.ctl .remove) = "remove".toList := by decide
  have ej : nameOf (.ctl .jump) = "jump".toList := by decide
  generalize hT : ((if c.playing then "Current Playlist (Playing): ".toList else "Current Playlist (Paused): ".toList) ++
      (if c.songs = [] then "Empty".toList else '\n' :: unlines lines) ++ "\nCurrent Song: ".toList ++
      (if c.current = "" then "None".toList else c.current.toList)) = T at hx
  have hent : enter env l "playlist".toList c = .done c (shown "playlist".toList (usageOf (.ctl .playlist)) (.text T)) true := by
    have hp := parse_word (.ctl .playlist)
    rw [ep] at hp
    rw [C92_commands h "playlist" (.ctl .playlist) (by decide) _ (by rw [hp]) c, hp]
    simp only [execute, List.map_nil, hx]
  refine ⟨_, fun i => (numbers[i]?).getD [], hent, ?_⟩
  · intro i hi
    obtain ⟨num, h1, h2, h3, h4, h5⟩ := hall i hi
    have hne : num ≠ [] := by
      intro e
      rw [e] at h5
      exact Fmt.dec_ne_nil _ (List.length_eq_zero_iff.1 h5.symm)
    have hint : Numbers.Integer (String.ofList num).toList i := by
      rw [String.toList_ofList]
      refine ⟨num, hne, ?_, .inl ⟨rfl, by rw [h3]⟩⟩
      intro d hd
      exact h4 d hd
    simp only [h1, Option.getD_some]
    refine ⟨?_, ?_, ?_⟩
    · have hs : c.songs ≠ [] := by intro e; rw [e] at hi; simp at hi
      have key : ∀ (a r : List Char), HasLine (a ++ '\n' :: unlines lines ++ "\nCurrent Song: ".toList ++ r)
          ("  [".toList ++ num ++ "] ".toList ++ (c.songs[i]).toList) := by
        intro a r
        have := hasLine_pre a (line_of lines ("Current Song: ".toList ++ r) i _ h2)
        have e2 : "\nCurrent Song: ".toList = '\n' :: "Current Song: ".toList := by decide
        rw [e2]
        simpa only [List.append_assoc, List.cons_append, List.nil_append] using this
      rw [if_neg hs] at hT
      subst hT
      refine shown_hasLine _ _ (fun r => key _ r) ?_
      split
      · decide
      · rename_i hcur
        intro e; exact hcur (by rw [← String.ofList_toList (s := c.current), e])
    · have hp := parse_number (.ctl .remove) h4 hne
      rw [er] at hp
      have el : "remove ".toList ++ num = "remove".toList ++ ' ' :: num := by
        rw [show "remove ".toList = "remove".toList ++ [' '] by decide, List.append_assoc, List.cons_append, List.nil_append]
      obtain ⟨t, ht, hd⟩ := (Numbers.C117_remove glob sendError (String.ofList num) [] c).1 i hi hint (by omega)
      refine ⟨t, ?_, hd⟩
      rw [el, C92_commands h "remove" (.ctl .remove) (by decide) _ (by rw [hp]) c, hp]
      simp only [execute, List.map_cons, List.map_nil, he, ht]
      rw [shown_plain _ _ _ (last_ne _ (q := 't') (by decide) (by decide)),
        show " from playlist\n".toList = " from playlist".toList ++ ['\n'] by decide, ← List.append_assoc]
    · intro ht
      have hp := parse_number (.ctl .jump) h4 hne
      rw [ej] at hp
      have el : "jump ".toList ++ num = "jump".toList ++ ' ' :: num := by
        rw [show "jump ".toList = "jump".toList ++ [' '] by decide, List.append_assoc, List.cons_append, List.nil_append]
      obtain ⟨c', t, hx', hd, hpos⟩ := (Numbers.C117_jump glob sendError (String.ofList num) [] c).1 i hint (by omega) (by omega) ht
      refine ⟨c', t, ?_, hpos, hd⟩
      rw [el, C92_commands h "jump" (.ctl .jump) (by decide) _ (by rw [hp]) c, hp]
      simp only [execute, List.map_cons, List.map_nil, he, hx']
      rw [shown_plain _ _ _ ?_]
      obtain ⟨ds, e, h0, hd', -⟩ := hd
      rw [if_neg (by omega), List.nil_append] at e
      subst e
      have hq := List.getLast?_eq_some_getLast h0
      refine last_ne _ hq ?_
      intro e
      have := hd' _ (List.getLast_mem h0)
      rw [e] at this
      exact absurd this (by decide)

/-- Surroundings in which numbers are read as the program reads them. -/
def plainEnv : Env := { sample [] with ext := Numbers.ext (fun _ => .ok []) none }

/-- A playlist of two songs: both are listed, and the second number removes the second song. -/
theorem ex_listed : ∃ (l : List Cmd) (text : List Char) (number : Nat → List Char), Console plainEnv l ∧
    enter plainEnv l "playlist".toList ⟨["a", "b"], 0, 0, true, "", 0, []⟩ =
      .done ⟨["a", "b"], 0, 0, true, "", 0, []⟩ text true ∧
    HasLine text ("  [".toList ++ number 0 ++ "] ".toList ++ "a".toList) ∧
    HasLine text ("  [".toList ++ number 1 ++ "] ".toList ++ "b".toList) ∧
    ∃ t, enter plainEnv l ("remove ".toList ++ number 1) ⟨["a", "b"], 0, 0, true, "", 0, []⟩ =
      .done ⟨["a"], 0, 0, true, "", 0, []⟩ t true := by
  obtain ⟨l, h⟩ := console_exists plainEnv
  obtain ⟨text, number, h1, h2⟩ := C140_listed h rfl ⟨["a", "b"], 0, 0, true, "", 0, []⟩ (by decide)
  obtain ⟨-, ⟨t, ht, -⟩, -⟩ := h2 1 (by decide)
  exact ⟨l, text, number, h, h1, (h2 0 (by decide)).1, (h2 1 (by decide)).1, _, ht⟩

end MS.ListedNumbers
