import Verif.Model.SshSession
import Verif.Props.Session
import Verif.Props.Console
/-!
# Property C114: a control session answers every line once, in order, until it ends
-/
set_option linter.unusedSimpArgs false
set_option linter.unusedVariables false
namespace MS.SshSession
open MS.Session MS.Shell

/-! ## Specification -/

/-- The line in an input, entered or abandoned with Ctrl-C. -/
def lineOf : Input → Option (List Char)
  | .line t => some t
  | .interrupt t => some t
  | _ => none

/-- A line with its command, if it has one, and what the command returned, once it has. -/
structure Turn where
  line : List Char
  back : Option (List Char × Bool)

/-- The call a line makes: the command with that name, with the parameters of the line. -/
def callOf (l : List Cmd) (t : Turn) : Option (Cmd × List (List Char)) :=
  (l.find? fun c => c.name = (parse t.line).command).map fun c => (c, (parse t.line).parameters)

/-- The answer to a line. -/
def answer (l : List Cmd) (t : Turn) : List Char :=
  match l.find? fun c => c.name = (parse t.line).command with
  | some c =>
    match t.back with
    | none => []
    | some (msg, true) => (if msg.getLast? = some '\n' then msg else msg ++ ['\n'])
    | some (_, false) => usageText c ++ ['\n']
  | none =>
    if (parse t.line).command = "clear".toList then "\x1b[H".toList
    else if (parse t.line).command = "exit".toList then []
    else "Unknown command '".toList ++ (parse t.line).command ++ "'. Type 'help' for help.\n".toList

/-- A line that ends the session. -/
def Exits (l : List Cmd) (t : List Char) : Prop := (parse t).command = "exit".toList ∧ ∀ c ∈ l, c.name ≠ "exit".toList

/-- The command of the line has not returned yet. -/
def Open (l : List Cmd) (t : Turn) : Prop := (callOf l t).isSome ∧ t.back = none

/-! ## The invariant -/

/-- What holds of every state with a terminal: the turns so far. -/
structure Talk (l : List Cmd) (who : List Char) (ins : List Input) (s : St) (turns : List Turn) : Prop where
  who_eq : s.who = who
  consumed : ∃ rest, ins = rest ++ s.pending ∧ (rest.filterMap lineOf) = turns.map Turn.line ∧
    (s.phase ≠ .closed → ∀ i ∈ rest, (lineOf i).isSome)
  calls : s.calls = turns.filterMap (callOf l)
  written : s.written = turns.flatMap (answer l)
  settled : ∀ t ∈ turns.dropLast, ¬ Open l t ∧ ¬ Exits l t.line
  last : (∀ c, s.phase = .running c → ∃ t args, turns.getLast? = some t ∧ callOf l t = some (c, args) ∧ t.back = none) ∧
    (s.phase = .reading → ∀ t ∈ turns.getLast?, ¬ Open l t ∧ ¬ Exits l t.line)

theorem find_none_exit {l : List Cmd} {n : List Char} : l.find? (fun c => c.name = n) = none ↔ ∀ c ∈ l, c.name ≠ n := by
  simp [List.find?_eq_none]

theorem printed_eq (c : Cmd) (msg : List Char) : printed c msg true = if msg.getLast? = some '\n' then msg else msg ++ ['\n'] := by
  unfold printed
  simp only [if_true]
  by_cases h : msg.getLast? = some '\n'
  · rw [if_pos h, if_pos h]
    obtain ⟨x, rfl⟩ := List.getLast?_eq_some_iff.1 h
    simp
  · rw [if_neg h, if_neg h]

/-- A line is handled. -/
theorem talk_line {l : List Cmd} {who : List Char} {ins : List Input} {s : St} {turns : List Turn} (h : Talk l who ins s turns)
    (hp : s.phase = .reading) {i : Input} {is : List Input} (hi : s.pending = i :: is) {t : List Char} (ht : lineOf i = some t) :
    Talk l who ins (onLine l { s with pending := is } t) (turns ++ [⟨t, none⟩]) := by
  obtain ⟨rest, c1, c2, c3⟩ := h.consumed
  have c1' : ins = (rest ++ [i]) ++ is := by rw [c1, hi]; simp
  have c2' : (rest ++ [i]).filterMap lineOf = (turns ++ [(⟨t, none⟩ : Turn)]).map Turn.line := by
    rw [List.filterMap_append, c2]; simp [ht]
  have c3' : ∀ j ∈ rest ++ [i], (lineOf j).isSome := by
    intro j hj
    rcases List.mem_append.1 hj with hj | hj
    · exact c3 (by rw [hp]; simp) j hj
    · rw [List.mem_singleton.1 hj, ht]; rfl
  have hset : ∀ t' ∈ (turns ++ [(⟨t, none⟩ : Turn)]).dropLast, ¬ Open l t' ∧ ¬ Exits l t'.line := by
    intro t' ht'
    rw [List.dropLast_concat] at ht'
    rcases List.eq_nil_or_concat turns with e | ⟨init, last, e⟩
    · rw [e] at ht'; simp at ht'
    · rw [e] at ht'
      rw [List.concat_eq_append] at e ht'
      rcases List.mem_append.1 ht' with hm | hm
      · exact h.settled t' (by rw [e, List.dropLast_concat]; exact hm)
      · exact h.last.2 hp t' (by rw [e, List.mem_singleton.1 hm]; simp)
  unfold onLine
  simp only [handleLine, commandByName]
  cases hf : l.find? (fun c => c.name = (parse t).command) with
  | some c =>
    have hcall : callOf l ⟨t, none⟩ = some (c, (parse t).parameters) := by simp [callOf, hf]
    simp only [hf]
    refine ⟨h.who_eq, ⟨_, c1', c2', fun _ => c3'⟩, ?_, ?_, hset, ?_, by simp⟩
    · simp [h.calls, hcall]
    · simp [h.written, answer, hf]
    · intro c' e
      injection e with e
      subst e
      exact ⟨_, _, by simp, hcall, rfl⟩
  | none =>
    have hcall : callOf l ⟨t, none⟩ = none := by simp [callOf, hf]
    have hno : ¬ Open l ⟨t, none⟩ := by simp [Open, hcall]
    simp only [hf]
    by_cases h1 : (parse t).command = clearName
    · rw [if_pos h1]
      have h1' : (parse t).command = "clear".toList := h1.trans (by decide)
      refine ⟨h.who_eq, ⟨_, c1', c2', fun _ => c3'⟩, ?_, ?_, hset, ?_, ?_⟩
      · simp [h.calls, hcall]
      · have ea : answer l ⟨t, none⟩ = ['\x1b', '[', 'H'] := by
          simp only [answer, hf]
          rw [if_pos h1']
          rfl
        rw [List.flatMap_append, List.flatMap_singleton, ea, h.written]
      · intro c e; rw [hp] at e; simp at e
      · intro _ t' e
        simp at e
        subst e
        refine ⟨hno, fun hx => ?_⟩
        have := hx.1
        rw [h1'] at this
        exact absurd this (by decide)
    · rw [if_neg h1]
      have h1' : (parse t).command ≠ "clear".toList := fun e => h1 (e.trans (by decide))
      by_cases h2 : (parse t).command = exitName
      · rw [if_pos h2]
        have h2' : (parse t).command = "exit".toList := h2.trans (by decide)
        refine ⟨h.who_eq, ⟨_, c1', c2', fun e => absurd rfl e⟩, ?_, ?_, hset, by simp, by simp⟩
        · simp [h.calls, hcall]
        · have ea : answer l ⟨t, none⟩ = [] := by
            simp only [answer, hf]
            rw [if_neg h1', if_pos h2']
          rw [List.flatMap_append, List.flatMap_singleton, ea, h.written, List.append_nil]
      · rw [if_neg h2]
        have h2' : (parse t).command ≠ "exit".toList := fun e => h2 (e.trans (by decide))
        refine ⟨h.who_eq, ⟨_, c1', c2', fun _ => c3'⟩, ?_, ?_, hset, ?_, ?_⟩
        · simp [h.calls, hcall]
        · have ea : answer l ⟨t, none⟩ = "Unknown command '".toList ++ (parse t).command ++ "'. Type 'help' for help.\n".toList := by
            simp only [answer, hf]
            rw [if_neg h1', if_neg h2']
          rw [List.flatMap_append, List.flatMap_singleton, ea, h.written]
        · intro c e; rw [hp] at e; simp at e
        · intro _ t' e
          simp at e
          subst e
          exact ⟨hno, fun hx => h2' hx.1⟩

/-- The last turn's command returns. -/
theorem talk_result {l : List Cmd} {who : List Char} {ins : List Input} {s : St} {turns : List Turn} (h : Talk l who ins s turns)
    {c : Cmd} (hp : s.phase = .running c) (msg : List Char) (ok : Bool) :
    ∃ turns', turns'.map Turn.line = turns.map Turn.line ∧
      Talk l who ins { s with phase := .reading, written := s.written ++ printed c msg ok } turns' := by
  obtain ⟨t, args, e1, e2, e3⟩ := h.last.1 c hp
  obtain ⟨pre, rfl⟩ := List.getLast?_eq_some_iff.1 e1
  obtain ⟨rest, c1, c2, c3⟩ := h.consumed
  have hc' : ∀ b, callOf l ⟨t.line, b⟩ = some (c, args) := fun b => by rw [← e2]; rfl
  have hf : l.find? (fun c => c.name = (parse t.line).command) = some c := by
    unfold callOf at e2
    cases hx : l.find? (fun c => c.name = (parse t.line).command) with
    | none => rw [hx] at e2; simp at e2
    | some c' => rw [hx] at e2; simp at e2; rw [e2.1]
  have a0 : answer l t = [] := by simp only [answer, hf, e3]
  have a1 : answer l ⟨t.line, some (msg, ok)⟩ = printed c msg ok := by
    simp only [answer, hf]
    cases ok
    · simp [printed]
    · rw [printed_eq]
  refine ⟨pre ++ [⟨t.line, some (msg, ok)⟩], by simp, h.who_eq, ⟨rest, c1, by simpa using c2, fun _ => c3 (by rw [hp]; simp)⟩, ?_, ?_, ?_, by simp, ?_⟩
  · simp only [h.calls, List.filterMap_append, List.filterMap_cons, List.filterMap_nil, e2, hc']
  · simp only [h.written, List.flatMap_append, List.flatMap_singleton, a0, a1, List.append_nil]
  · have := h.settled
    rw [List.dropLast_concat] at this ⊢
    exact this
  · intro _ t' e
    simp at e
    subst e
    refine ⟨by simp [Open], fun hx => ?_⟩
    have hm := List.find?_some hf
    have := List.mem_of_find?_eq_some hf
    exact hx.2 c this (by rw [← hx.1]; simpa using hm)

/-- The input ends. -/
theorem talk_end {l : List Cmd} {who : List Char} {ins : List Input} {s : St} {turns : List Turn} (h : Talk l who ins s turns)
    (hp : s.phase = .reading) {i : Input} {is : List Input} (hi : s.pending = i :: is) (ht : lineOf i = none) (lg : List (List Char)) :
    Talk l who ins { s with pending := is, phase := .closed, log := lg } turns := by
  obtain ⟨rest, c1, c2, c3⟩ := h.consumed
  refine ⟨h.who_eq, ⟨rest ++ [i], by rw [c1, hi]; simp, by rw [List.filterMap_append, c2]; simp [ht], fun e => absurd rfl e⟩, h.calls,
    h.written, h.settled, by simp, by simp⟩

/-- An input after which the session goes on. -/
def GoesOn (l : List Cmd) (i : Input) : Prop := ∃ t, lineOf i = some t ∧ ¬ Exits l t

/-- An input that ends the session, and what the log says then. -/
inductive Ends (l : List Cmd) (who : List Char) : Input → List Char → Prop
  | exit (i : Input) (t : List Char) (ht : lineOf i = some t) (he : Exits l t) : Ends l who i ("connection ".toList ++ who ++ " closed".toList)
  | eof : Ends l who .eof ("connection ".toList ++ who ++ " closed".toList)
  | err (e : List Char) : Ends l who (.err e) ("connection error from ".toList ++ who ++ ": ".toList ++ e)

/-- What was read and what is in the log of an open session, and of a closed one. -/
structure Logged (l : List Cmd) (who : List Char) (ins : List Input) (s : St) : Prop where
  open_ : s.phase ≠ .closed → s.log = ["new ssh connection from ".toList ++ who] ∧ ∃ pre, ins = pre ++ s.pending ∧ ∀ i ∈ pre, GoesOn l i
  closed : s.phase = .closed → ∃ pre i e, ins = pre ++ i :: s.pending ∧ (∀ i ∈ pre, GoesOn l i) ∧ Ends l who i e ∧
    s.log = ["new ssh connection from ".toList ++ who, e]

theorem handle_exits {l : List Cmd} {t : List Char} : Exits l t ↔ handleLine l t = .exit := by
  unfold handleLine commandByName
  simp only
  cases hf : l.find? (fun c => c.name = (parse t).command) with
  | some c =>
    simp only [hf]
    refine ⟨fun h => ?_, by simp⟩
    have hm := List.find?_some hf
    exact absurd (by rw [← h.1]; simpa using hm) (h.2 c (List.mem_of_find?_eq_some hf))
  | none =>
    simp only [hf]
    have hn := find_none_exit.1 hf
    have e1 : exitName = "exit".toList := by decide
    have e2 : clearName = "clear".toList := by decide
    rw [e1, e2]
    by_cases h1 : (parse t).command = "clear".toList
    · rw [if_pos h1]
      refine ⟨fun h => ?_, by simp⟩
      have := h.1
      rw [h1] at this
      exact absurd this (by decide)
    · rw [if_neg h1]
      by_cases h2 : (parse t).command = "exit".toList
      · rw [if_pos h2]
        exact ⟨fun _ => rfl, fun _ => ⟨h2, by rw [← h2]; exact hn⟩⟩
      · rw [if_neg h2]
        exact ⟨fun h => absurd h.1 h2, by simp⟩

/-- A step after the start. -/
theorem talk_step {l : List Cmd} {who : List Char} {ins : List Input} {s : St} {turns : List Turn} (h : Talk l who ins s turns)
    (hs : s.phase ≠ .fresh) (hl : Logged l who ins s) (a : Act) :
    (∃ turns', (turns.map Turn.line).IsPrefix (turns'.map Turn.line) ∧ Talk l who ins (step l s a) turns') ∧
      (step l s a).phase ≠ .fresh ∧ Logged l who ins (step l s a) := by
  obtain ⟨w, pend, ph, wr, ca, lo⟩ := s
  have same : (∃ turns', (turns.map Turn.line).IsPrefix (turns'.map Turn.line) ∧ Talk l who ins ⟨w, pend, ph, wr, ca, lo⟩ turns') ∧
      (⟨w, pend, ph, wr, ca, lo⟩ : St).phase ≠ .fresh ∧ Logged l who ins ⟨w, pend, ph, wr, ca, lo⟩ := ⟨⟨turns, List.prefix_rfl, h⟩, hs, hl⟩
  cases a with
  | start pty exErr => cases ph with
    | fresh => exact absurd rfl hs
    | _ => exact same
  | read =>
    cases ph with
    | fresh => exact absurd rfl hs
    | running c => exact same
    | closed => exact same
    | reading =>
      cases pend with
      | nil => exact same
      | cons i is =>
        obtain ⟨hlog, pre, hpre, hgo⟩ := hl.open_ (by simp)
        simp only at hlog hpre
        have hwho : w = who := h.who_eq
        have more : ∀ i', i = i' → GoesOn l i' → ∃ pre, ins = pre ++ is ∧ ∀ i ∈ pre, GoesOn l i := by
          intro i' e hi
          subst e
          refine ⟨pre ++ [i], by rw [hpre]; simp, fun j hj => ?_⟩
          rcases List.mem_append.1 hj with hj | hj
          · exact hgo j hj
          · rw [List.mem_singleton.1 hj]; exact hi
        have online : ∀ t, lineOf i = some t → (onLine l ⟨w, is, .reading, wr, ca, lo⟩ t).phase ≠ .fresh ∧
            Logged l who ins (onLine l ⟨w, is, .reading, wr, ca, lo⟩ t) := by
          intro t ht
          unfold onLine
          have goes : handleLine l t ≠ .exit → GoesOn l i := fun hn => ⟨t, ht, fun hx => hn (handle_exits.1 hx)⟩
          cases hh : handleLine l t with
          | exec c args => exact ⟨by simp, fun _ => ⟨hlog, more i rfl (goes (by rw [hh]; simp))⟩, by simp⟩
          | clear => exact ⟨by simp, fun _ => ⟨hlog, more i rfl (goes (by rw [hh]; simp))⟩, by simp⟩
          | exit =>
            exact ⟨by simp, by simp, fun _ => ⟨pre, i, _, hpre, hgo, .exit i t ht (handle_exits.2 hh), by simp only [hlog, hwho]; rfl⟩⟩
          | unknown n => exact ⟨by simp, fun _ => ⟨hlog, more i rfl (goes (by rw [hh]; simp))⟩, by simp⟩
        cases i with
        | line t => exact ⟨⟨_, by simp, talk_line h rfl rfl rfl⟩, online t rfl⟩
        | interrupt t => exact ⟨⟨_, by simp, talk_line h rfl rfl rfl⟩, online t rfl⟩
        | eof => exact ⟨⟨turns, List.prefix_rfl, talk_end h rfl rfl rfl _⟩, by simp [step], by simp [step],
            fun _ => ⟨pre, _, _, hpre, hgo, .eof, by simp only [step, hlog, hwho]; rfl⟩⟩
        | err e =>
          exact ⟨⟨turns, List.prefix_rfl, talk_end h rfl rfl rfl _⟩, by simp [step], by simp [step],
            fun _ => ⟨pre, _, _, hpre, hgo, .err e, by simp only [step, hlog, hwho]; rfl⟩⟩
  | result msg ok =>
    cases ph with
    | fresh => exact absurd rfl hs
    | reading => exact same
    | closed => exact same
    | running c =>
      obtain ⟨turns', e, h'⟩ := talk_result h rfl msg ok
      exact ⟨⟨turns', by rw [e]; exact List.prefix_rfl, h'⟩, by simp [step], fun _ => hl.open_ (by simp), by simp [step]⟩

/-- The state at the beginning of the conversation. -/
def opened (who : List Char) (ins : List Input) : St := ⟨who, ins, .reading, [], [], ["new ssh connection from ".toList ++ who]⟩

theorem start_eq (l : List Cmd) (who : List Char) (ins : List Input) : step l (init who ins) (.start true none) = opened who ins := rfl

theorem talk_run {l : List Cmd} {who : List Char} {ins : List Input} (acts : List Act) :
    ∃ turns, Talk l who ins (run l (opened who ins) acts) turns ∧ (run l (opened who ins) acts).phase ≠ .fresh ∧
      Logged l who ins (run l (opened who ins) acts) := by
  suffices H : ∀ (acts : List Act) (s : St) (turns : List Turn), Talk l who ins s turns → s.phase ≠ .fresh → Logged l who ins s →
      ∃ turns, Talk l who ins (run l s acts) turns ∧ (run l s acts).phase ≠ .fresh ∧ Logged l who ins (run l s acts) by
    refine H acts (opened who ins) [] ?_ (by simp [opened]) ⟨fun _ => ⟨rfl, [], rfl, by simp⟩, by simp [opened]⟩
    exact ⟨rfl, ⟨[], rfl, rfl, by simp⟩, rfl, rfl, by simp, by simp [opened], by simp⟩
  intro acts
  induction acts with
  | nil => exact fun s turns h hs hl => ⟨turns, h, hs, hl⟩
  | cons a acts ih =>
    intro s turns h hs hl
    obtain ⟨⟨t', _, h'⟩, hs', hl'⟩ := talk_step h hs hl a
    exact ih _ t' h' hs' hl'

/-! ## C114 -/

/-- **C114.** In every history of a session with a terminal, the lines read so far — those of a beginning of what was
typed, each once, in order — were handled one after the other: the calls made are those of the lines with a command, in
order, and what stands on the terminal is the answers, in order; only the last line can still await its command or be an
`exit`. -/
theorem C114_transcript (l : List Cmd) (who : List Char) (ins : List Input) (acts : List Act) :
    ∃ (turns : List Turn) (rest : List Input), let s := run l (init who ins) (.start true none :: acts)
      ins = rest ++ s.pending ∧ rest.filterMap lineOf = turns.map Turn.line ∧ s.calls = turns.filterMap (callOf l) ∧
      s.written = turns.flatMap (answer l) ∧ ∀ t ∈ turns.dropLast, ¬ Open l t ∧ ¬ Exits l t.line := by
  obtain ⟨turns, h, _, _⟩ := talk_run (l := l) (who := who) (ins := ins) acts
  obtain ⟨rest, c1, c2, _⟩ := h.consumed
  exact ⟨turns, rest, c1, c2, h.calls, h.written, h.settled⟩

/-- **C114.** While the session is open, every input read was a line other than `exit` and the log has the one entry of
the connection; it is closed by an `exit`, the end of the input or an error, which is the last input it reads, and says so
in one more entry. -/
theorem C114_end (l : List Cmd) (who : List Char) (ins : List Input) (acts : List Act) :
    let s := run l (init who ins) (.start true none :: acts)
    (s.phase ≠ .closed ∧ s.log = ["new ssh connection from ".toList ++ who] ∧ ∃ pre, ins = pre ++ s.pending ∧ ∀ i ∈ pre, GoesOn l i) ∨
    (s.phase = .closed ∧ ∃ pre i e, ins = pre ++ i :: s.pending ∧ (∀ i ∈ pre, GoesOn l i) ∧ Ends l who i e ∧
      s.log = ["new ssh connection from ".toList ++ who, e]) := by
  obtain ⟨turns, h, _, hl⟩ := talk_run (l := l) (who := who) (ins := ins) acts
  show _ ∨ _
  by_cases hc : (run l (opened who ins) acts).phase = .closed
  · exact Or.inr ⟨hc, hl.closed hc⟩
  · exact Or.inl ⟨hc, hl.open_ hc⟩

/-- **C114.** Once it is closed nothing happens in it any more. -/
theorem C114_over (l : List Cmd) (s : St) (hc : s.phase = .closed) (acts : List Act) : run l s acts = s := by
  induction acts with
  | nil => rfl
  | cons a acts ih =>
    have : step l s a = s := by
      cases a <;> simp [step, hc]
    show run l (step l s a) acts = s
    rw [this, ih]

/-- **C114.** A connection that asks for no terminal is refused: nothing is read, run or written, whatever happens. -/
theorem C114_no_terminal (l : List Cmd) (who : List Char) (ins : List Input) (x : Option (List Char)) (acts : List Act) :
    run l (init who ins) (.start false x :: acts) =
      ⟨who, ins, .closed, [], [], ["new ssh connection from ".toList ++ who, "no pty req from ".toList ++ who]⟩ :=
  C114_over l _ rfl acts

/-- **C114.** Likewise if the line editor cannot be set up, with the reason on the terminal and in the log. -/
theorem C114_no_editor (l : List Cmd) (who : List Char) (ins : List Input) (e : List Char) (acts : List Act) :
    run l (init who ins) (.start true (some e) :: acts) =
      ⟨who, ins, .closed, "failed to create ex: ".toList ++ e ++ ['\n'], [],
        ["new ssh connection from ".toList ++ who, "failed to create ex: ".toList ++ e]⟩ :=
  C114_over l _ rfl acts

/-- **C114.** No line stays unanswered while commands return: from any open state a line that waits is read and, if it
is a command, its answer appears with the result. -/
theorem C114_answered (l : List Cmd) (s : St) (hp : s.phase = .reading) (i : Input) (is : List Input) (hi : s.pending = i :: is)
    (t : List Char) (ht : lineOf i = some t) (msg : List Char) (ok : Bool) :
    (run l s [.read, .result msg ok]).pending = is ∧
    (run l s [.read, .result msg ok]).written = s.written ++ answer l ⟨t, some (msg, ok)⟩ ∧
    (run l s [.read, .result msg ok]).calls = s.calls ++ (callOf l ⟨t, some (msg, ok)⟩).toList := by
  obtain ⟨w, pend, ph, wr, ca, lo⟩ := s
  simp only at hp hi
  subst hp hi
  have hstep : step l ⟨w, i :: is, .reading, wr, ca, lo⟩ .read = onLine l ⟨w, is, .reading, wr, ca, lo⟩ t := by
    cases i with
    | line u => injection ht with ht; subst ht; rfl
    | interrupt u => injection ht with ht; subst ht; rfl
    | eof => cases ht
    | err e => cases ht
  simp only [run, List.foldl_cons, List.foldl_nil]
  rw [hstep]
  unfold onLine
  simp only [handleLine, commandByName]
  cases hf : l.find? (fun c => c.name = (parse t).command) with
  | some c =>
    have a1 : answer l ⟨t, some (msg, ok)⟩ = printed c msg ok := by
      simp only [answer, hf]
      cases ok
      · simp [printed]
      · rw [printed_eq]
    rw [a1]
    simp [hf, step, callOf]
  | none =>
    have a1 : answer l ⟨t, some (msg, ok)⟩ = answer l ⟨t, none⟩ := by simp only [answer, hf]
    have a2 : callOf l ⟨t, some (msg, ok)⟩ = none := by simp [callOf, hf]
    rw [a1, a2]
    have e1 : exitName = "exit".toList := by decide
    have e2 : clearName = "clear".toList := by decide
    simp only [hf, e1, e2, answer]
    by_cases h1 : (parse t).command = "clear".toList
    · rw [if_pos h1, if_pos h1]; exact ⟨rfl, rfl, (List.append_nil _).symm⟩
    · rw [if_neg h1, if_neg h1]
      by_cases h2 : (parse t).command = "exit".toList
      · rw [if_pos h2, if_pos h2]; exact ⟨rfl, (List.append_nil _).symm, (List.append_nil _).symm⟩
      · rw [if_neg h2, if_neg h2]; exact ⟨rfl, rfl, (List.append_nil _).symm⟩

/-- A registry with one command. -/
def demo : Cmd := ⟨0, "volume".toList, "<v>".toList, [], fun _ _ => []⟩

/-- A session in which something is said. -/
def demoEnd : St :=
  SshSession.run [demo] (SshSession.init "a as b".toList
      [.line "volume 2".toList, .line "what".toList, .line "volume".toList, .line "exit".toList, .line "volume 3".toList])
    [.start true none, .read, .read, .result "set\n".toList true, .read, .read, .result [] false, .read, .read]

example : demoEnd.written = "set\nUnknown command 'what'. Type 'help' for help.\nUsage: volume <v>\n".toList := by decide +kernel

example : demoEnd.pending = [.line "volume 3".toList] ∧ demoEnd.calls.map (·.2) = [["2".toList], []] ∧
    demoEnd.log = ["new ssh connection from a as b".toList, "connection a as b closed".toList] := by decide +kernel

end MS.SshSession
