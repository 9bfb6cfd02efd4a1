import Verif.Model.Console
import Verif.Props.Session
import Verif.Props.Commands
import Verif.Props.Files
import Verif.Props.Glob
/-!
# Properties C92-C94: the control console

C92: what entering a line does, for all the commands of the server. C93: what completing a line offers. C94: choosing an
offered song and pressing Enter.
-/
set_option linter.unusedSimpArgs false
namespace MS.Console
open MS.Session MS.Shell MS.Spec.Shell

/-! ## C92 -/

/-- Specification: the commands of the server by their names, in the order of the alphabet. -/
def table : List (String × Which) :=
  [("help", .help), ("jump", .ctl .jump), ("ls", .ls), ("pause", .ctl .pause), ("playlist", .ctl .playlist),
    ("queue", .ctl .queue), ("remove", .ctl .remove), ("resume", .ctl .resume), ("volume", .ctl .volume)]

/-- Specification: `l` is the registry after the commands of the server have been registered. -/
def Console (env : Env) (l : List Cmd) : Prop := Registry (cmds env (l.map Cmd.name)) l

def sortedCmds (env : Env) (names : List (List Char)) : List Cmd := (table.map Prod.snd).map (cmdOf env names)

theorem table_names (env : Env) (names : List (List Char)) :
    (sortedCmds env names).map Cmd.name = table.map fun p => p.1.toList := by
  have : (sortedCmds env names).map Cmd.name = (table.map Prod.snd).map nameOf := by
    simp only [sortedCmds, List.map_map]; rfl
  rw [this]; decide

theorem order_perm : order.Perm (table.map Prod.snd) := by decide

theorem distinct_sorted (env : Env) (names : List (List Char)) : Distinct (sortedCmds env names) := by
  have h : ((sortedCmds env names).map Cmd.name).Pairwise (· ≠ ·) := by rw [table_names]; decide
  exact List.pairwise_map.1 h

theorem sorted_sorted (env : Env) (names : List (List Char)) : Sorted (sortedCmds env names) := by
  have h : ((sortedCmds env names).map Cmd.name).Pairwise (fun a b => less b a = false) := by rw [table_names]; decide
  exact List.pairwise_map.1 h

/-- The registry of the server: sorted by name. -/
theorem console_eq {env : Env} {l : List Cmd} (h : Console env l) :
    l = sortedCmds env (table.map fun p => p.1.toList) := by
  have key : ∀ names, Registry (cmds env names) l → l = sortedCmds env names := by
    intro names h
    obtain ⟨p, s⟩ := C40_registry h
    have hp : l.Perm (sortedCmds env names) := p.trans (order_perm.map _)
    exact sorted_unique l _ hp (distinct_perm hp.symm (distinct_sorted env names)) s (sorted_sorted env names)
  have h1 := key _ h
  have h2 : l.map Cmd.name = table.map fun p => p.1.toList := by
    have := congrArg (List.map Cmd.name) h1
    rwa [table_names] at this
  rw [h2] at h1
  exact h1

/-- There is such a registry. -/
theorem console_exists (env : Env) : ∃ l, Console env l := by
  have key : ∀ cs : List Cmd, ∃ l, Registry cs l := by
    have rev : ∀ cs : List Cmd, ∃ l, Registry cs.reverse l := by
      intro cs
      induction cs with
      | nil => exact ⟨[], .nil⟩
      | cons c cs ih =>
        obtain ⟨l, h⟩ := ih
        rw [List.reverse_cons]
        exact C40_registers _ l h c
    intro cs
    have := rev cs.reverse
    rwa [List.reverse_reverse] at this
  obtain ⟨l, h⟩ := key (cmds env (table.map fun p => p.1.toList))
  refine ⟨l, ?_⟩
  obtain ⟨p, s⟩ := C40_registry h
  have hp : l.Perm (sortedCmds env (table.map fun p => p.1.toList)) := p.trans (order_perm.map _)
  have e := sorted_unique l (sortedCmds env (table.map fun p => p.1.toList)) hp
    (distinct_perm hp.symm (distinct_sorted env _)) s (sorted_sorted env _)
  have : l.map Cmd.name = table.map fun p => p.1.toList := by rw [e, table_names]
  unfold Console
  rw [this]
  exact h

theorem id_of (w : Which) : order[idOf w]? = some w := by
  cases w with
  | help => rfl
  | ls => rfl
  | ctl n => cases n <;> rfl

theorem lookup {env : Env} {l : List Cmd} (h : Console env l) (w : Which) :
    commandByName l (nameOf w) = some (cmdOf env (table.map fun p => p.1.toList) w) := by
  rw [console_eq h]
  cases w with
  | help => rfl
  | ls => rfl
  | ctl n => cases n <;> rfl

theorem lookup_none {env : Env} {l : List Cmd} (h : Console env l) (n : List Char) (hn : ∀ p ∈ table, n ≠ p.1.toList) :
    commandByName l n = none := by
  rw [console_eq h, commandByName, List.find?_eq_none]
  intro c hc e
  have : c.name ∈ (sortedCmds env (table.map fun p => p.1.toList)).map Cmd.name := List.mem_map.2 ⟨c, hc, rfl⟩
  rw [table_names] at this
  obtain ⟨p, hp, e'⟩ := List.mem_map.1 this
  have e2 : c.name = n := by simpa using e
  exact hn p hp (by rw [← e2, e'])

theorem table_nameOf {p : String × Which} (hp : p ∈ table) : p.1.toList = nameOf p.2 := by
  revert p; decide

/-- Specification: what the session shows for the result of a command. -/
def shown (name usage : List Char) : Commands.Out → List Char
  | .text t => (if t.getLast? = some '\n' then t.dropLast else t) ++ ['\n']
  | .usage =>
    if usage = [] then "No usage information for command '".toList ++ name ++ "'\n".toList
    else "Usage: ".toList ++ name ++ ' ' :: usage ++ ['\n']

/-- C92: a line whose first word is the name of a command runs this command with the other words, and shows its text or its
usage; the session goes on. -/
theorem C92_commands {env : Env} {l : List Cmd} (h : Console env l) (name : String) (w : Which) (hw : (name, w) ∈ table)
    (line : List Char) (hl : (parse line).command = name.toList) (c : Commands.Ctl) :
    enter env l line c = match execute env l w (parse line).parameters c with
      | .done c' o => .done c' (shown name.toList (usageOf w) o) true
      | .panic => .panic
      | .blocked c' => .blocked c' := by
  have e := table_nameOf hw
  simp only at e
  have hh : handleLine l line = .exec (cmdOf env (table.map fun p => p.1.toList) w) (parse line).parameters := by
    simp only [handleLine, hl, e, lookup h w]
  simp only [enter, hh]
  rw [show (cmdOf env (table.map fun p => p.1.toList) w).id = idOf w from rfl, id_of w]
  simp only
  rw [e]
  cases hx : execute env l w (parse line).parameters c with
  | panic => rfl
  | blocked c' => rfl
  | done c' o =>
    cases o with
    | text t => simp [printed, shown]
    | usage =>
      simp only [printed, shown, usageText, cmdOf]
      by_cases hu : usageOf w = []
      · simp [hu]
      · simp [hu]

/-- C92: any other line changes nothing. `exit` ends the session, and nothing else does. -/
theorem C92_other {env : Env} {l : List Cmd} (h : Console env l) (line : List Char)
    (hl : ∀ p ∈ table, (parse line).command ≠ p.1.toList) (c : Commands.Ctl) :
    enter env l line c =
      if (parse line).command = "clear".toList then .done c "\x1b[H".toList true
      else if (parse line).command = "exit".toList then .done c [] false
      else .done c ("Unknown command '".toList ++ (parse line).command ++ "'. Type 'help' for help.\n".toList) true := by
  have hn := lookup_none h _ hl
  have e1 : clearName = "clear".toList := by decide
  have e2 : exitName = "exit".toList := by decide
  simp only [enter, handleLine, hn, e1, e2]
  by_cases h1 : (parse line).command = "clear".toList
  · simp only [h1, if_true]; rfl
  · by_cases h2 : (parse line).command = "exit".toList
    · simp only [if_neg h1, if_pos h2]
    · simp only [if_neg h1, if_neg h2]

set_option maxRecDepth 20000 in
/-- C92: `help` prints these lines. -/
theorem C92_help {env : Env} {l : List Cmd} (h : Console env l) (line : List Char)
    (hl : parse line = ⟨"help".toList, []⟩) (c : Commands.Ctl) :
    enter env l line c = .done c (([
      "help            retrieves help for a command\n",
      "jump            jumps in the playlist\n",
      "ls              lists all songs in the music (sub) directory\n",
      "pause           pauses playback\n",
      "playlist        prints the current playlist\n",
      "queue           adds a song to the playlist\n",
      "remove          removes a song from the playlist\n",
      "resume          resumes playback\n",
      "volume          set the playback volume\n",
      "clear           Clears the terminal\n",
      "exit            Closes the connection\n"].map String.toList).flatten) true := by
  rw [C92_commands h "help" .help (by decide) line (by rw [hl]) c, hl]
  simp only [execute]
  rw [console_eq h]
  rfl

/-- Specification: what `help` prints about each command. -/
def manual : List (String × String) :=
  [("help", "help: retrieves help for a command\nUsage: help [command name]\n"),
    ("ls", "ls: lists all songs in the music (sub) directory\nUsage: ls [sub directory]\n"),
    ("queue", "queue: adds a song to the playlist\nUsage: queue filename [position in playlist]\n"),
    ("playlist", "playlist: prints the current playlist\nNo usage information for command 'playlist'\n"),
    ("remove", "remove: removes a song from the playlist\nUsage: remove position\n"),
    ("jump", "jump: jumps in the playlist\nUsage: jump position\n"),
    ("volume", "volume: set the playback volume\nUsage: volume volume\n"),
    ("pause", "pause: pauses playback\nNo usage information for command 'pause'\n"),
    ("resume", "resume: resumes playback\nNo usage information for command 'resume'\n"),
    ("clear", "clear: Clears the terminal\nclear\n"),
    ("exit", "exit: Closes the connection\nexit\n")]

theorem helpTarget_none {env : Env} {l : List Cmd} (h : Console env l) (n : List Char) (hn : ∀ p ∈ table, n ≠ p.1.toList) :
    helpTarget l n = none := by
  have hm := helpTarget_mem n l none (by simp)
  cases ht : helpTarget l n with
  | none => rfl
  | some c =>
    obtain ⟨h1, h2⟩ := hm c ht
    have h1 : c ∈ l := by simpa using h1
    have := lookup_none h n hn
    rw [commandByName, List.find?_eq_none] at this
    exact absurd h2 (by simpa using this c h1)

set_option maxRecDepth 20000 in
theorem manual_eq (env : Env) : ∀ p ∈ manual,
    shown "help".toList (usageOf .help) (.text (helpText (sortedCmds env (table.map fun p => p.1.toList)) [p.1.toList])) =
      p.2.toList := by
  intro p hp
  simp only [manual, List.mem_cons, List.not_mem_nil, or_false] at hp
  rcases hp with rfl | rfl | rfl | rfl | rfl | rfl | rfl | rfl | rfl | rfl | rfl <;> rfl

/-- C92: `help NAME` prints the entry for this command; further words are ignored. -/
theorem C92_help_entry {env : Env} {l : List Cmd} (h : Console env l) (name text : String) (hm : (name, text) ∈ manual)
    (line : List Char) (rest : List (List Char)) (hl : parse line = ⟨"help".toList, name.toList :: rest⟩) (c : Commands.Ctl) :
    enter env l line c = .done c text.toList true := by
  rw [C92_commands h "help" .help (by decide) line (by rw [hl]) c, hl]
  simp only [execute]
  rw [console_eq h]
  exact congrArg (Entered.done c · true) (manual_eq env (name, text) hm)

/-- C92: `help` about something that is no command says so. -/
theorem C92_help_unknown {env : Env} {l : List Cmd} (h : Console env l) (line name : List Char) (rest : List (List Char))
    (hl : parse line = ⟨"help".toList, name :: rest⟩) (hn : ∀ p ∈ manual, name ≠ p.1.toList) (c : Commands.Ctl) :
    enter env l line c = .done c ("Command '".toList ++ name ++ "' does not exist.\n".toList) true := by
  rw [C92_commands h "help" .help (by decide) line (by rw [hl]) c, hl]
  have ht : helpTarget l name = none := helpTarget_none h name (by
    intro p hp
    have : ∀ p ∈ table, ∃ t, (p.1, t) ∈ manual := by
      intro p hp
      simp only [table, List.mem_cons, List.not_mem_nil, or_false] at hp
      rcases hp with rfl | rfl | rfl | rfl | rfl | rfl | rfl | rfl | rfl <;> exact ⟨_, by simp [manual]; rfl⟩
    obtain ⟨t, ht⟩ := this p hp
    exact hn _ ht)
  have h1 : name ≠ clearName := by
    have := hn ("clear", "clear: Clears the terminal\nclear\n") (by simp [manual])
    intro e; exact this (by rw [e]; decide)
  have h2 : name ≠ exitName := by
    have := hn ("exit", "exit: Closes the connection\nexit\n") (by simp [manual])
    intro e; exact this (by rw [e]; decide)
  simp only [execute, helpText, ht, if_neg h1, if_neg h2, shown]
  rw [if_neg]
  · simp
  · rw [List.getLast?_append, show "' does not exist.".toList.getLast? = some '.' by decide]; simp

/-- C92: a control command that is called wrongly (C33) prints its usage. -/
theorem C92_usage {env : Env} {l : List Cmd} (h : Console env l) (n : Commands.Name) (name text : String)
    (hm : (n, name, text) ∈ [(Commands.Name.queue, "queue", "Usage: queue filename [position in playlist]\n"),
      (.remove, "remove", "Usage: remove position\n"), (.jump, "jump", "Usage: jump position\n"),
      (.volume, "volume", "Usage: volume volume\n")])
    (line : List Char) (hl : (parse line).command = name.toList) (c : Commands.Ctl)
    (hr : Commands.Rejects env.ext n ((parse line).parameters.map String.ofList)) :
    ∃ c', enter env l line c = .done c' text.toList true ∧ (n ≠ .volume → c' = c) := by
  obtain ⟨c', hc⟩ := (Commands.C33_rejected_iff env.ext n _ c).2 hr
  refine ⟨c', ?_, fun hn => (Commands.C33_rejected_unchanged_partial env.ext n _ c c' hn hc)⟩
  have hw : (name, Which.ctl n) ∈ table := by
    simp only [List.mem_cons, Prod.mk.injEq, List.not_mem_nil, or_false] at hm
    rcases hm with ⟨rfl, rfl, rfl⟩ | ⟨rfl, rfl, rfl⟩ | ⟨rfl, rfl, rfl⟩ | ⟨rfl, rfl, rfl⟩ <;> simp [table]
  rw [C92_commands h name (.ctl n) hw line hl c]
  simp only [execute, hc]
  refine congrArg (Entered.done c' · true) ?_
  simp only [List.mem_cons, Prod.mk.injEq, List.not_mem_nil, or_false] at hm
  rcases hm with ⟨rfl, rfl, rfl⟩ | ⟨rfl, rfl, rfl⟩ | ⟨rfl, rfl, rfl⟩ | ⟨rfl, rfl, rfl⟩ <;> rfl

/-! ## C93 -/

theorem good_of {w : List Char} (h1 : w.all (fun c => decide (c.toNat < 0xC0)) = true) (h2 : '\\' ∉ w)
    (h3 : ∀ c, w.head? = some c → ¬ White c) (h4 : ∀ c, w.getLast? = some c → ¬ White c) : Good w := by
  refine ⟨?_, ⟨h3, h4⟩, ?_⟩
  · intro c hc; simpa using List.all_eq_true.1 h1 c hc
  · intro pre post e; exact absurd (by rw [e]; simp) h2

theorem good_name (w : Which) : Good (nameOf w) := by
  cases w with
  | help => exact good_of (by decide) (by decide) (by simp [nameOf, White]) (by simp [nameOf, White])
  | ls => exact good_of (by decide) (by decide) (by simp [nameOf, White]) (by simp [nameOf, White])
  | ctl n => cases n <;> exact good_of (by decide) (by decide) (by simp [nameOf, White]) (by simp [nameOf, White])

theorem esc_no_space {w : List Char} (h : ' ' ∉ w) : esc w = w := by
  induction w with
  | nil => rfl
  | cons c w ih =>
    simp at h
    rw [esc_other _ (fun e => h.1 e.symm), ih h.2]

theorem esc_name (w : Which) : esc (nameOf w) = nameOf w := by
  cases w with
  | help => exact esc_no_space (by decide)
  | ls => exact esc_no_space (by decide)
  | ctl n => cases n <;> exact esc_no_space (by decide)

/-- Specification: completing the line that has been typed, with the cursor at its end, offers exactly these lines (in this
order). -/
def Offers (l : List Cmd) (line : List Char) (lines : List (List Char)) : Prop :=
  ∃ props, complete l line line.length = .ok props ∧ props.map (accept line line.length) = lines

/-- The offers for the next argument of a command. -/
theorem offers_arg {env : Env} {l : List Cmd} (h : Console env l) (w : Which) (ps : List (List Char)) (arg : List Char)
    (hp : ∀ p ∈ ps, Good p ∧ p ≠ []) (ha : Good arg) :
    Offers l (typed (nameOf w) ps arg)
      (((optionsOf env (table.map fun p => p.1.toList) w arg ps.length).filter (fun o => arg.isPrefixOf o)).map
        fun o => typed (nameOf w) ps o ++ [' ']) := by
  obtain ⟨props, h1, h2⟩ := C38_argument_partial l _ (nameOf w) ps arg (good_name w) hp ha (lookup h w)
  refine ⟨props, h1, h2.trans ?_⟩
  apply List.map_congr_left
  intro o _
  exact unparse_typed (nameOf w) ps o

theorem typed_first (w : Which) (arg : List Char) : typed (nameOf w) [] arg = nameOf w ++ ' ' :: esc arg := by
  simp [typed, esc_name]

/-- C93: after `help` the names that begin with the text typed are offered. -/
theorem C93_help_partial {env : Env} {l : List Cmd} (h : Console env l) (arg : List Char) (ha : Good arg) :
    Offers l ("help ".toList ++ esc arg)
      (((["clear", "exit", "help", "jump", "ls", "pause", "playlist", "queue", "remove", "resume", "volume"].map
        String.toList).filter (fun n => arg.isPrefixOf n)).map fun n => "help ".toList ++ n ++ [' ']) := by
  have := offers_arg h .help [] arg (by simp) ha
  rw [typed_first] at this
  refine cast (congrArg (Offers l _) ?_) this
  simp only [optionsOf, helpOptions, List.length_nil, ne_eq, not_true_eq_false, if_false, typed_first]
  have hnames : (clearName :: exitName :: table.map fun p => p.1.toList) =
    ["clear", "exit", "help", "jump", "ls", "pause", "playlist", "queue", "remove", "resume", "volume"].map String.toList := by
    decide
  rw [← hnames]
  have hf : ((clearName :: exitName :: (table.map fun p => p.1.toList).filter (fun n => arg.isPrefixOf n)).filter
      fun o => arg.isPrefixOf o) = (clearName :: exitName :: table.map fun p => p.1.toList).filter fun o => arg.isPrefixOf o := by
    rw [List.filter_cons, List.filter_cons, List.filter_cons, List.filter_cons, List.filter_filter]
    simp only [Bool.and_self]
  rw [hf]
  apply List.map_congr_left
  intro n hn
  have : ∀ n ∈ (clearName :: exitName :: table.map fun p => p.1.toList), ' ' ∉ n := by decide
  rw [esc_no_space (this n (List.mem_filter.1 hn).1)]
  simp [nameOf]

/-- C93: nothing is offered for further arguments, nor for the arguments of the other commands. -/
theorem C93_nothing_partial {env : Env} {l : List Cmd} (h : Console env l) (name : String) (w : Which) (hw : (name, w) ∈ table)
    (ps : List (List Char)) (arg : List Char) (hp : ∀ p ∈ ps, Good p ∧ p ≠ []) (ha : Good arg)
    (hn : ps ≠ [] ∨ name ∉ ["help", "ls", "queue"]) :
    Offers l (name.toList ++ ' ' :: (ps.flatMap (fun p => esc p ++ [' ']) ++ esc arg)) [] := by
  have := offers_arg h w ps arg hp ha
  have e := table_nameOf hw
  simp only at e
  rw [typed, esc_name, ← e] at this
  refine cast (congrArg (Offers l _) ?_) this
  have ho : optionsOf env (table.map fun p => p.1.toList) w arg ps.length = [] := by
    rcases hn with hn | hn
    · have hl : ps.length ≠ 0 := by simpa using hn
      cases w with
      | help => simp [optionsOf, helpOptions, hn]
      | ls => simp [optionsOf, lsOptions, hn]
      | ctl n => cases n <;> simp [optionsOf, queueOptions, hn]
    · simp only [table, List.mem_cons, Prod.mk.injEq, List.not_mem_nil, or_false] at hw hn
      rcases hw with ⟨rfl, rfl⟩ | ⟨rfl, rfl⟩ | ⟨rfl, rfl⟩ | ⟨rfl, rfl⟩ | ⟨rfl, rfl⟩ | ⟨rfl, rfl⟩ | ⟨rfl, rfl⟩ | ⟨rfl, rfl⟩ | ⟨rfl, rfl⟩ <;>
        first | rfl | simp at hn
  rw [ho]
  rfl

open MS.Files (Path joinSlash CleanDir below Name)

/-- Specification: the music directory is spelled in the shortest way, is not the root and its path has no pattern
characters; the entries below it are `es`: the names that lead there, and whether it is a directory. -/
structure Music (env : Env) (es : List (List Path × Bool)) : Prop where
  clean : CleanDir env.dir
  notRoot : env.dir ≠ ['/']
  plain : Glob.hasMeta env.dir = false
  tree : Glob.Proper es
  walked : env.fs env.dir = some ⟨true, es⟩
  globbed : ∀ p : String, env.ext.glob p = match Glob.select (Glob.ofList env.dir es) env.dir p.toList with
    | some ss => .ok (ss.map String.ofList)
    | none => .error "syntax error in pattern".toList

/-- Specification: the paths of the songs, in the order of the directory tree. -/
def songPaths (es : List (List Path × Bool)) : List Path :=
  ((es.filter fun e => e.2 = false).map fun e => joinSlash e.1).filter fun p => ".mp3".toList.isSuffixOf p

/-- Specification: the paths of the directories, in the order of the directory tree. -/
def dirPaths (es : List (List Path × Bool)) : List Path := (es.filter fun e => e.2 = true).map fun e => joinSlash e.1

def onlyAt (fs : Files.FS) (root : Path) : Files.FS := fun p => if p = root then fs root else none

/-- What walking through a directory below the music directory finds. -/
theorem walk_at {fs : Files.FS} {d : Path} (hc : CleanDir d) (hd : d ≠ ['/']) {xs : List Path} (hx : ∀ n ∈ xs, Name n)
    {sub : List (List Path × Bool)} (hs : fs (below d xs) = some ⟨true, sub⟩)
    (hn : ∀ e ∈ sub, e.1 ≠ [] ∧ ∀ n ∈ e.1, Name n) (dirs : Bool) (hr : dirs = true → xs = []) :
    Files.walker fs (below d xs) (fun p => Files.removeDirPrefix p d) dirs =
      (sub.filter fun e => e.2 = dirs).map fun e => joinSlash (xs ++ e.1) := by
  have hp : Files.Proper (onlyAt fs (below d xs)) := by
    intro p f hf e he
    unfold onlyAt at hf
    split at hf
    · rw [hs] at hf; injection hf with hf; subst hf; exact hn e he
    · cases hf
  have hv : Files.visited fs (below d xs) = (below d xs, true) :: sub.map fun e => (below d (xs ++ e.1), e.2) := by
    have h1 : Files.visited fs (below d xs) = Files.visited (onlyAt fs (below d xs)) (below d xs) := by
      simp [Files.visited, onlyAt]
    rw [h1, Files.visited_below hc _ hp xs hx]
    simp [onlyAt, hs]
  have r0 := Files.remove_below hc hx (fun e => absurd e hd)
  have hroot : ¬ ((decide (joinSlash xs ≠ []) && decide (true = dirs)) = true) := by
    cases dirs with
    | false => simp
    | true => rw [hr rfl]; simp [joinSlash, List.intercalate]
  have names : ∀ e ∈ sub, ∀ n ∈ xs ++ e.1, Name n := by
    intro e he n h
    rcases List.mem_append.1 h with h | h
    · exact hx n h
    · exact (hn e he).2 n h
  unfold Files.walker
  rw [hv, List.map_cons, List.filter_cons, if_neg (by simpa only [r0] using hroot), List.map_map]
  rw [List.map_congr_left (g := fun e => (joinSlash (xs ++ e.1), e.2))
    (by intro e he; simp [Files.remove_below hc (names e he) (fun e => absurd e hd)])]
  rw [List.filter_map, List.map_map, List.filter_congr (q := fun e => decide (e.2 = dirs))]
  · rfl
  · intro e he
    simp [Files.joinSlash_ne (names e he) (by simp [(hn e he).1])]

theorem walk_eq {env : Env} {es : List (List Path × Bool)} (h : Music env es) (dirs : Bool) :
    Files.walker env.fs env.dir (fun p => Files.removeDirPrefix p env.dir) dirs =
      (es.filter fun e => e.2 = dirs).map fun e => joinSlash e.1 := by
  have hb : below env.dir [] = env.dir := by simp [below]
  have := walk_at (xs := []) h.clean h.notRoot (by simp) (by rw [hb]; exact h.walked) h.tree.names dirs (fun _ => rfl)
  rw [hb] at this
  exact this

theorem songs_eq {env : Env} {es : List (List Path × Bool)} (h : Music env es) :
    Files.filterSongs (Files.listAllFiles env.fs env.dir []) = songPaths es := by
  have : Files.listAllFiles env.fs env.dir [] = Files.walker env.fs env.dir (fun p => Files.removeDirPrefix p env.dir) false := by
    simp [Files.listAllFiles]
  rw [this, walk_eq h]
  rfl

theorem dirs_eq {env : Env} {es : List (List Path × Bool)} (h : Music env es) :
    Files.listAllSubDirs env.fs env.dir = dirPaths es := walk_eq h true

/-- C93: after `queue` the songs are offered whose paths begin with the text typed. -/
theorem C93_queue_partial {env : Env} {l : List Cmd} (h : Console env l) {es : List (List Path × Bool)} (hm : Music env es)
    (arg : List Char) (ha : Good arg) :
    Offers l ("queue ".toList ++ esc arg)
      (((songPaths es).filter fun p => arg.isPrefixOf p).map fun p => "queue ".toList ++ esc p ++ [' ']) := by
  have := offers_arg h (.ctl .queue) [] arg (by simp) ha
  rw [typed_first] at this
  refine cast (congrArg (Offers l _) ?_) this
  simp only [optionsOf, queueOptions, List.length_nil, ne_eq, not_true_eq_false, if_false, songs_eq hm, List.filter_filter,
    Bool.and_self, typed_first]
  apply List.map_congr_left
  intro p _
  simp [nameOf]

/-- No directory in it: a name. -/
theorem split_iff (p : Path) : (Glob.dirPart p = [] ∧ Glob.filePart p = p) ↔ '/' ∉ p := by
  have key : ∀ q : Path, (q.dropWhile (fun c => decide (c ≠ '/'))) = [] ↔ '/' ∉ q := by
    intro q
    induction q with
    | nil => simp
    | cons c q ih =>
      by_cases hc : c = '/'
      · subst hc; simp
      · rw [List.dropWhile_cons_of_pos (by simpa using hc), ih]
        simp [Ne.symm hc]
  have h1 : Glob.dirPart p = [] ↔ '/' ∉ p := by
    unfold Glob.dirPart
    rw [List.reverse_eq_nil_iff, key]
    simp
  refine ⟨fun h => h1.1 h.1, fun h => ⟨h1.2 h, ?_⟩⟩
  have hall : ∀ q : Path, '/' ∉ q → q.takeWhile (fun c => decide (c ≠ '/')) = q := by
    intro q hq
    induction q with
    | nil => rfl
    | cons c q ih =>
      simp at hq
      rw [List.takeWhile_cons_of_pos (by simpa using Ne.symm hq.1), ih hq.2]
  unfold Glob.filePart
  rw [hall _ (by simpa using h), List.reverse_reverse]

/-- C93: after `ls` the directories are offered whose paths begin with the text typed, without descending further. -/
theorem C93_ls_partial {env : Env} {l : List Cmd} (h : Console env l) {es : List (List Path × Bool)} (hm : Music env es)
    (arg : List Char) (ha : Good arg) :
    Offers l ("ls ".toList ++ esc arg)
      (((dirPaths es).filter fun p => arg.isPrefixOf p ∧ '/' ∉ p.drop arg.length).map fun p =>
        "ls ".toList ++ esc p ++ "/ ".toList) := by
  have := offers_arg h .ls [] arg (by simp) ha
  rw [typed_first] at this
  refine cast (congrArg (Offers l _) ?_) this
  simp only [optionsOf, lsOptions, List.length_nil, ne_eq, not_true_eq_false, if_false, dirs_eq hm, typed_first]
  rw [List.filter_map, List.map_map, List.filter_filter]
  rw [List.filter_congr (q := fun p => decide (arg.isPrefixOf p ∧ '/' ∉ p.drop arg.length))]
  · apply List.map_congr_left
    intro p _
    have hs : esc ['/'] = ['/'] := esc_no_space (by decide)
    simp [nameOf, esc_append, hs]
  · intro p _
    have hsp := split_iff (p.drop arg.length)
    simp only [Function.comp]
    by_cases hp : arg.isPrefixOf p = true
    · obtain ⟨r, rfl⟩ := List.isPrefixOf_iff_prefix.1 hp
      have : arg.isPrefixOf (arg ++ r ++ ['/']) = true := by
        rw [List.isPrefixOf_iff_prefix]; exact ⟨r ++ ['/'], by simp⟩
      rw [this, hp]
      simp only [List.drop_left, Bool.true_and, Bool.and_self, true_and] at hsp ⊢
      by_cases hr : '/' ∉ r
      · simp [hr, (hsp.2 hr).1, (hsp.2 hr).2]
      · have : ¬ (Glob.dirPart r = [] ∧ Glob.filePart r = r) := fun x => hr (hsp.1 x)
        simp only [hr, decide_false, Bool.and_eq_false_iff, decide_eq_false_iff_not]
        by_cases hd : Glob.dirPart r = []
        · exact .inr fun x => this ⟨hd, x⟩
        · exact .inl hd
    · simp [Bool.not_eq_true _ ▸ hp]

/-! ## C94 -/

theorem parse_offer (w : Which) (p : Path) (hg : Good p) (hne : p ≠ []) :
    parse (nameOf w ++ ' ' :: esc p ++ [' ']) = ⟨nameOf w, [p]⟩ := by
  have := C38_argument_meaning_partial (nameOf w) [] p (good_name w) (by simp) ⟨hg, hne⟩
  rwa [unparse_typed, typed_first] at this

/-- What entering `queue SONG` does if the pattern is found to select exactly this song. -/
theorem queue_single {env : Env} {l : List Cmd} (h : Console env l) (line : List Char) (p q : Path)
    (hl : parse line = ⟨nameOf (.ctl .queue), [p]⟩) (hg : env.ext.glob (String.ofList p) = .ok [String.ofList q])
    (hq : q.getLast? ≠ some '\n') (hq' : q ≠ []) (c : Commands.Ctl) :
    enter env l line c = .done { c with songs := c.songs ++ [String.ofList q] }
      ("1 song(s) added to playlist: ".toList ++ q ++ ['\n']) true := by
  have e : nameOf (.ctl .queue) = "queue".toList := by decide
  rw [C92_commands h "queue" (.ctl .queue) (by decide) line (by rw [hl, e]) c, hl]
  simp only [execute, Commands.exec, Commands.queue, Commands.parseStringParam, List.map_cons, List.map_nil,
    List.getElem?_cons_zero, hg, List.length_cons, List.length_nil, Nat.zero_add]
  rw [if_neg (by decide)]
  have hpos : Commands.parseIntParam env.ext [String.ofList p] 1 = (0, false) := rfl
  simp only [hpos, Commands.insertAll, Res.bind, Playlist.addSong]
  refine congrArg (Entered.done _ · true) ?_
  have ht : Fmt.dec 1 ++ " song(s) added to playlist: ".toList ++ ", ".toList.intercalate [q] =
      "1 song(s) added to playlist: ".toList ++ q := by
    have h1 : Fmt.dec 1 = ['1'] := by unfold Fmt.dec; simp; decide
    rw [h1]
    have h2 : ", ".toList.intercalate [q] = q := by simp [List.intercalate]
    rw [h2]
    rfl
  simp only [shown, String.toList_ofList, ht]
  rw [if_neg]
  rw [List.getLast?_append]
  cases hx : q.getLast? with
  | none => exact absurd (List.getLast?_eq_none_iff.1 hx) hq'
  | some x => rw [hx] at hq; simpa using hq

theorem mp3_last {p : Path} (h : ".mp3".toList.isSuffixOf p = true) : p.getLast? = some '3' ∧ p ≠ [] := by
  obtain ⟨b, rfl⟩ := List.isSuffixOf_iff_suffix.1 h
  have : ".mp3".toList = ['.', 'm', 'p', '3'] := by decide
  rw [this]
  simp

/-- C94, for songs with plain names: with the beginning of its path typed after `queue`, a song is offered, and choosing it and
pressing Enter appends exactly this song to the playlist. -/
theorem C94_choose_song_partial {env : Env} {l : List Cmd} (h : Console env l) {es : List (List Path × Bool)}
    (hm : Music env es) (r : List Path) (hr : (r, false) ∈ es) (hs : ".mp3".toList.isSuffixOf (joinSlash r) = true)
    (hmeta : ∀ n ∈ r, Glob.hasMeta n = false) (hg : Good (joinSlash r)) (arg : List Char) (ha : Good arg)
    (hpre : arg <+: joinSlash r) (c : Commands.Ctl) :
    ∃ lines line, Offers l ("queue ".toList ++ esc arg) lines ∧ line ∈ lines ∧
      enter env l line c = .done { c with songs := c.songs ++ [String.ofList (joinSlash r)] }
        ("1 song(s) added to playlist: ".toList ++ joinSlash r ++ ['\n']) true := by
  refine ⟨_, "queue ".toList ++ esc (joinSlash r) ++ [' '], C93_queue_partial h hm arg ha, ?_, ?_⟩
  · refine List.mem_map.2 ⟨joinSlash r, List.mem_filter.2 ⟨List.mem_filter.2 ⟨List.mem_map.2 ⟨(r, false), ?_, rfl⟩, hs⟩, ?_⟩, rfl⟩
    · exact List.mem_filter.2 ⟨hr, by simp⟩
    · exact List.isPrefixOf_iff_prefix.2 hpre
  · obtain ⟨hl, hne⟩ := mp3_last hs
    have e : "queue ".toList ++ esc (joinSlash r) ++ [' '] = nameOf (.ctl .queue) ++ ' ' :: esc (joinSlash r) ++ [' '] := by
      have : "queue ".toList = nameOf (.ctl .queue) ++ [' '] := by decide
      rw [this]; simp
    refine queue_single h _ _ (joinSlash r) (by rw [e]; exact parse_offer _ _ hg hne) ?_ (by rw [hl]; decide) hne c
    rw [hm.globbed]
    have hsong : Glob.Song (Glob.ofList env.dir es) env.dir r := by
      refine ⟨(hm.tree.names _ hr).1, (hm.tree.names _ hr).2,
        Glob.ofList_isFile hm.notRoot hm.tree (hm.tree.names _ hr).2 hr, ?_⟩
      obtain ⟨b, hb⟩ := List.isSuffixOf_iff_suffix.1 hs
      exact ⟨b, hb.symm⟩
    rw [String.toList_ofList, Glob.C79_plain_partial hm.clean hm.notRoot hm.plain (Glob.tree_ofList hm.notRoot hm.tree) r hsong hmeta]
    rfl

/-- C94 is false for songs with a bracket or a backslash in the name: they are offered, but choosing one and pressing Enter does not add
it. -/
theorem C94_brackets {env : Env} {l : List Cmd} (h : Console env l) {es : List (List Path × Bool)}
    (hm : Music env es) (r : List Path) (hr : (r, false) ∈ es) (hs : ".mp3".toList.isSuffixOf (joinSlash r) = true)
    (n : Path) (hn : n ∈ r) (hb : '[' ∈ n ∨ '\\' ∈ n) (hst : '*' ∉ n) (hg : Good (joinSlash r)) (c : Commands.Ctl) :
    ∃ lines line, Offers l "queue ".toList lines ∧ line ∈ lines ∧ ∃ c' t, enter env l line c = .done c' t true ∧
      ∃ added, c'.songs = c.songs ++ added ∧ String.ofList (joinSlash r) ∉ added := by
  refine ⟨_, "queue ".toList ++ esc (joinSlash r) ++ [' '], C93_queue_partial h hm [] good_nil, ?_, ?_⟩
  · refine List.mem_map.2 ⟨joinSlash r, List.mem_filter.2 ⟨List.mem_filter.2 ⟨List.mem_map.2 ⟨(r, false), ?_, rfl⟩, hs⟩, ?_⟩, rfl⟩
    · exact List.mem_filter.2 ⟨hr, by simp⟩
    · simp
  obtain ⟨hl, hne⟩ := mp3_last hs
  have e : "queue ".toList ++ esc (joinSlash r) ++ [' '] = nameOf (.ctl .queue) ++ ' ' :: esc (joinSlash r) ++ [' '] := by
    have : "queue ".toList = nameOf (.ctl .queue) ++ [' '] := by decide
    rw [this]; simp
  have hp := parse_offer (.ctl .queue) (joinSlash r) hg hne
  have en : nameOf (.ctl .queue) = "queue".toList := by decide
  rw [e, C92_commands h "queue" (.ctl .queue) (by decide) _ (by rw [hp, en]) c, hp]
  have hsong : Glob.Song (Glob.ofList env.dir es) env.dir r := by
    refine ⟨(hm.tree.names _ hr).1, (hm.tree.names _ hr).2,
      Glob.ofList_isFile hm.notRoot hm.tree (hm.tree.names _ hr).2 hr, ?_⟩
    obtain ⟨b, hb⟩ := List.isSuffixOf_iff_suffix.1 hs
    exact ⟨b, hb.symm⟩
  have never := Glob.C79_bracket_never hm.clean hm.notRoot hm.plain (Glob.tree_ofList hm.notRoot hm.tree) r hsong n hn hb hst
  have hglob := hm.globbed (String.ofList (joinSlash r))
  rw [String.toList_ofList] at hglob
  simp only [execute, List.map_cons, List.map_nil, Commands.exec]
  cases hsel : Glob.select (Glob.ofList env.dir es) env.dir (joinSlash r) with
  | none =>
    rw [hsel] at hglob
    obtain ⟨t, ht⟩ := Commands.C34_no_match env.ext (String.ofList (joinSlash r)) [] c (.inr ⟨_, hglob⟩)
    simp only [Commands.exec] at ht
    rw [ht]
    exact ⟨c, _, rfl, [], by simp, by simp⟩
  | some ss =>
    rw [hsel] at hglob
    by_cases h0 : ss = []
    · subst h0
      obtain ⟨t, ht⟩ := Commands.C34_no_match env.ext (String.ofList (joinSlash r)) [] c (.inl (by simpa using hglob))
      simp only [Commands.exec] at ht
      rw [ht]
      exact ⟨c, _, rfl, [], by simp, by simp⟩
    · obtain ⟨t, ht⟩ := Commands.C34_append env.ext (String.ofList (joinSlash r)) [] (ss.map String.ofList) c rfl hglob (by simpa using h0)
      simp only [Commands.exec] at ht
      rw [ht]
      refine ⟨_, _, rfl, ss.map String.ofList, rfl, ?_⟩
      intro hx
      obtain ⟨s, hs1, hs2⟩ := List.mem_map.1 hx
      have := congrArg String.toList hs2
      simp only [String.toList_ofList] at this
      exact never ss hsel (this ▸ hs1)

/-- C94: choosing a directory offered after `ls` and pressing Enter prints the songs below this directory, one per line. -/
theorem C94_choose_dir_partial {env : Env} {l : List Cmd} (h : Console env l) {es : List (List Path × Bool)}
    (hm : Music env es) (r : List Path) (hr : (r, true) ∈ es) (sub : List (List Path × Bool))
    (hsub : env.fs (below env.dir r) = some ⟨true, sub⟩) (hin : ∀ e ∈ sub, e.1 ≠ [] ∧ (r ++ e.1, e.2) ∈ es)
    (hg : Good (joinSlash r ++ ['/'])) (c : Commands.Ctl) :
    ∃ text, enter env l ("ls ".toList ++ esc (joinSlash r) ++ "/ ".toList) c = .done c (text ++ ['\n']) true ∧
      text = ['\n'].intercalate (songPaths (sub.map fun e => (r ++ e.1, e.2))) := by
  have hx := (hm.tree.names _ hr).2
  have e : "ls ".toList ++ esc (joinSlash r) ++ "/ ".toList = nameOf .ls ++ ' ' :: esc (joinSlash r ++ ['/']) ++ [' '] := by
    have h1 : "ls ".toList = nameOf .ls ++ [' '] := by decide
    have h2 : "/ ".toList = ['/', ' '] := by decide
    have h3 : esc ['/'] = ['/'] := esc_no_space (by decide)
    rw [h1, h2, esc_append, h3]; simp
  have hp := parse_offer .ls (joinSlash r ++ ['/']) hg (by simp)
  have en : nameOf .ls = "ls".toList := by decide
  refine ⟨_, ?_, rfl⟩
  rw [e, C92_commands h "ls" .ls (by decide) _ (by rw [hp, en]) c, hp]
  simp only [execute, lsText, List.head?_cons, Option.getD_some]
  have hgood : Files.good (joinSlash r ++ ['/']) = r := by
    have : joinSlash r ++ ['/'] = joinSlash r ++ '/' :: [] := rfl
    have h1 : Files.good (joinSlash r ++ ['/']) = Files.good (joinSlash r) := by
      unfold Files.good
      rw [this, Files.split_append]
      simp [Files.split]
    rw [h1, Files.good_join hx]
  have hup : Files.NoUp (joinSlash r ++ ['/']) := by
    have h0 := Files.noUp_join hx
    unfold Files.NoUp at h0 ⊢
    rw [show joinSlash r ++ ['/'] = joinSlash r ++ '/' :: [] from rfl, Files.split_append]
    simp [Files.split] at h0 ⊢
    exact h0
  have hlist : Files.listAllFiles env.fs env.dir (joinSlash r ++ ['/']) =
      (sub.filter fun e => e.2 = false).map fun e => joinSlash (r ++ e.1) := by
    unfold Files.listAllFiles
    simp only [ne_eq, List.append_eq_nil_iff, List.cons_ne_self, and_false, not_false_eq_true, if_true]
    rw [Files.join_below hm.clean _ hup, hgood]
    refine walk_at hm.clean hm.notRoot hx hsub ?_ false (by simp)
    intro e he
    obtain ⟨h1, h2⟩ := hin e he
    exact ⟨h1, fun n hn => (hm.tree.names _ h2).2 n (by simp [hn])⟩
  rw [hlist]
  have hsongs : Files.filterSongs ((sub.filter fun e => e.2 = false).map fun e => joinSlash (r ++ e.1)) =
      songPaths (sub.map fun e => (r ++ e.1, e.2)) := by
    unfold songPaths Files.filterSongs
    rw [List.filter_map (f := fun e : List Path × Bool => (r ++ e.1, e.2)), List.map_map]
    rfl
  rw [hsongs]
  refine congrArg (Entered.done c · true) ?_
  simp only [shown]
  rw [if_neg]
  have key : ∀ ps : List Path, (∀ p ∈ ps, p.getLast? = some '3') → (['\n'].intercalate ps).getLast? ≠ some '\n' := by
    intro ps
    induction ps with
    | nil => intro _; simp [List.intercalate]
    | cons p ps ih =>
      intro hp
      have ih := ih fun q hq => hp q (by simp [hq])
      cases ps with
      | nil => simp [List.intercalate, hp p (by simp)]
      | cons q qs =>
        have e : ['\n'].intercalate (p :: q :: qs) = p ++ ['\n'] ++ ['\n'].intercalate (q :: qs) := by
          simp [List.intercalate, List.intersperse]
        rw [e, List.getLast?_append]
        cases hy : (['\n'].intercalate (q :: qs)).getLast? with
        | some y => rw [hy] at ih; simpa using ih
        | none =>
          have h1 := List.getLast?_eq_none_iff.1 hy
          have hq := hp q (by simp)
          cases qs with
          | nil => simp [List.intercalate] at h1; subst h1; simp at hq
          | cons z zs => simp [List.intercalate, List.intersperse] at h1
  exact key _ fun p hp => (mp3_last (List.mem_filter.1 hp).2).1

/-- The surroundings of a music directory `m` with the entries `es`. -/
def sample (es : List (List Path × Bool)) : Env where
  ext := { atoi := fun _ => none, parseFloat := fun _ => none, fmtFloat := fun _ => [], sendError := none
           glob := fun p => match Glob.select (Glob.ofList ['m'] es) ['m'] p.toList with
             | some ss => .ok (ss.map String.ofList)
             | none => .error "syntax error in pattern".toList }
  fs := fun p =>
    if p = ['m'] then some ⟨true, es⟩
    else if p = ['m', '/', 's'] then some ⟨true, es.filterMap fun e => if e.1.head? = some ['s'] ∧ e.1.tail ≠ [] then some (e.1.tail, e.2) else none⟩
    else none
  dir := ['m']

theorem music_sample {es : List (List Path × Bool)} (h : Glob.Proper es) : Music (sample es) es where
  clean := show CleanDir ['m'] by unfold CleanDir; decide
  notRoot := by simp [sample]
  plain := by simp only [sample]; decide
  tree := h
  walked := by simp [sample]
  globbed := fun p => rfl

/-- Two songs: `é.mp3` and `©.mp3`. -/
def accents : List (List Path × Bool) := [([['é', '.', 'm', 'p', '3']], false), ([['©', '.', 'm', 'p', '3']], false)]

theorem accents_proper : Glob.Proper accents where
  names := by decide
  parent := by decide
  once := by decide

/-- C94 is false for songs with letters from U+00C0 on in their names: choosing `é.mp3` and pressing Enter queues `©.mp3`. -/
theorem C94_accents {l : List Cmd} (h : Console (sample accents) l) (c : Commands.Ctl) :
    ∃ lines, Offers l "queue ".toList lines ∧ "queue é.mp3 ".toList ∈ lines ∧
      ∃ t, enter (sample accents) l "queue é.mp3 ".toList c = .done { c with songs := c.songs ++ ["©.mp3"] } t true := by
  have hm := music_sample accents_proper
  refine ⟨_, C93_queue_partial h hm [] good_nil, by decide, ?_⟩
  have hp : parse "queue é.mp3 ".toList = ⟨nameOf (.ctl .queue), [['©', '.', 'm', 'p', '3']]⟩ := by
    have e : "queue é.mp3 ".toList = ['q', 'u', 'e', 'u', 'e', ' ', 'é', '.', 'm', 'p', '3', ' '] := by decide
    have e2 : split "queue é.mp3 ".toList = (['q', 'u', 'e', 'u', 'e'], [['©', '.', 'm', 'p', '3'], []]) := by
      rw [e]
      rw [split_plain _ (by decide) (by decide), split_plain _ (by decide) (by decide), split_plain _ (by decide) (by decide),
        split_plain _ (by decide) (by decide), split_plain _ (by decide) (by decide), split_sep,
        split_plain _ (by decide) (by decide), split_plain _ (by decide) (by decide), split_plain _ (by decide) (by decide),
        split_plain _ (by decide) (by decide), split_plain _ (by decide) (by decide), split_sep, split_nil]
      decide
    rw [parse, e2]
    have t1 : trim ['q', 'u', 'e', 'u', 'e'] = ['q', 'u', 'e', 'u', 'e'] := trim_id (by simp [Trimmed, White])
    have t2 : trim ['©', '.', 'm', 'p', '3'] = ['©', '.', 'm', 'p', '3'] := trim_id (by simp [Trimmed, White])
    simp [t1, t2, nameOf]
  refine ⟨_, queue_single h _ _ ['©', '.', 'm', 'p', '3'] hp ?_ (by decide) (by decide) c⟩
  rw [hm.globbed]
  have hs : Glob.select (Glob.ofList ['m'] accents) ['m'] (joinSlash [['©', '.', 'm', 'p', '3']]) =
      some [joinSlash [['©', '.', 'm', 'p', '3']]] :=
    Glob.C79_plain_partial (by unfold CleanDir; decide) (by decide) (by decide) (Glob.tree_ofList (by decide) accents_proper)
      [['©', '.', 'm', 'p', '3']] ⟨by simp, by decide, Glob.ofList_isFile (by decide) accents_proper (by decide) (by decide),
        ['©'], by decide⟩ (by decide)
  have e1 : joinSlash [['©', '.', 'm', 'p', '3']] = ['©', '.', 'm', 'p', '3'] := by decide
  rw [e1] at hs
  rw [String.toList_ofList]
  show (match Glob.select (Glob.ofList ['m'] accents) ['m'] ['©', '.', 'm', 'p', '3'] with
    | some ss => Except.ok (ss.map String.ofList) | none => _) = _
  rw [hs]
  rfl

section examples
open Glob (music music_proper)

/-- With the songs of `Verif.Props.Glob`: after `queue ` all three songs are offered. -/
example {l : List Cmd} (h : Console (sample music) l) :
    Offers l "queue ".toList ["queue s/b.mp3 ".toList, "queue [x].mp3 ".toList, "queue a.mp3 ".toList] :=
  cast (congrArg (Offers l _) (by decide)) (C93_queue_partial h (music_sample music_proper) [] good_nil)
/-- After `ls ` the directory `s` is offered. -/
example {l : List Cmd} (h : Console (sample music) l) : Offers l "ls ".toList ["ls s/ ".toList] :=
  cast (congrArg (Offers l _) (by decide)) (C93_ls_partial h (music_sample music_proper) [] good_nil)
/-- After `help re` the commands `remove` and `resume` are offered. -/
example {l : List Cmd} (h : Console (sample music) l) :
    Offers l ("help ".toList ++ esc ['r', 'e']) ["help remove ".toList, "help resume ".toList] :=
  cast (congrArg (Offers l _) (by decide))
    (C93_help_partial h ['r', 'e'] (good_of (by decide) (by decide) (by simp [White]) (by simp [White])))
/-- Choosing `s/b.mp3`. -/
example {l : List Cmd} (h : Console (sample music) l) (c : Commands.Ctl) :
    ∃ lines line, Offers l ("queue ".toList ++ esc ['s']) lines ∧ line ∈ lines ∧
      enter (sample music) l line c = .done { c with songs := c.songs ++ [String.ofList (joinSlash [['s'], "b.mp3".toList])] }
        ("1 song(s) added to playlist: ".toList ++ joinSlash [['s'], "b.mp3".toList] ++ ['\n']) true :=
  C94_choose_song_partial h (music_sample music_proper) [['s'], "b.mp3".toList] (by decide) (by decide) (by decide)
    (good_of (by decide) (by decide) (by simp [joinSlash, List.intercalate, White]) (by simp [joinSlash, List.intercalate, White])) ['s']
    (good_of (by decide) (by decide) (by simp [White]) (by simp [White])) (by exact ⟨"/b.mp3".toList, by decide⟩) c
/-- Choosing the directory `s` prints `s/b.mp3`. -/
example {l : List Cmd} (h : Console (sample music) l) (c : Commands.Ctl) :
    enter (sample music) l "ls s/ ".toList c = .done c "s/b.mp3\n".toList true := by
  obtain ⟨t, h1, h2⟩ := C94_choose_dir_partial h (music_sample music_proper) [['s']] (by decide) [(["b.mp3".toList], false)]
    rfl (by decide) (good_of (by decide) (by decide) (by simp [joinSlash, List.intercalate, White])
      (by simp [joinSlash, List.intercalate, White])) c
  have e : "ls ".toList ++ esc (joinSlash [['s']]) ++ "/ ".toList = "ls s/ ".toList := by decide
  rw [e] at h1
  rw [h1, h2]
  exact congrArg (Entered.done c · true) (by decide)
/-- There is a registry as assumed everywhere. -/
example : ∃ l, Console (sample music) l := console_exists _
example : parse "help".toList = ⟨"help".toList, []⟩ := by
  have e : "help".toList = nameOf .help := by decide
  have := split_last (nameOf .help) (good_name .help).2.2 (good_name .help).1
  rw [esc_name] at this
  rw [e, parse, this, trim_id (good_name .help).2.1]
  rfl
end examples
end MS.Console
