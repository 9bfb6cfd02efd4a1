import Verif.Model.Session
import Verif.Model.Commands
import Verif.Model.Glob
/-!
# The control console: the commands that are registered, and what entering a line does

ssh/command.go (`help`, `ls`), schedule/server.go:33-39 (the registrations), schedule/server_state_commands.go (names, texts
and completion options of the control commands), ssh/session_handler.go:80-109 (what is printed). `Verif.Model.Session` has
the registry and the completer for arbitrary commands, `Verif.Model.Commands` what the control commands do. Terminal
escapes, the prompt and the log are left out.
-/
set_option linter.unusedVariables false
namespace MS.Console
open MS.Session

/-- What surrounds the console: what the control commands call, and the file system with the music directory
(playback.AudioDir; ssh/command.go:134, 141) -/
structure Env where
  ext : Commands.Ext
  fs : Files.FS
  dir : Files.Path

/-- The commands of the server: ssh/command.go:155-158 and schedule/server.go:33-39 -/
inductive Which where
  | help
  | ls
  | ctl (n : Commands.Name)
  deriving DecidableEq

/-- The commands in the order of their registration: package initialisation first (ssh/command.go:155-158), then
schedule/server.go:33-39 -/
def order : List Which := [.help, .ls, .ctl .queue, .ctl .playlist, .ctl .remove, .ctl .jump, .ctl .volume, .ctl .pause, .ctl .resume]

/-- ssh/command.go:111-122: OptionsFunc of `help`; `names` are the names in the registry -/
def helpOptions (names : List (List Char)) (pre : List Char) (arg : Nat) : List (List Char) :=
  if arg ≠ 0 then [] else clearName :: exitName :: names.filter (fun n => pre.isPrefixOf n)

/-- ssh/command.go:137-152: OptionsFunc of `ls`; `filepath.Split` as in `Verif.Model.Glob` -/
def lsOptions (env : Env) (pre : List Char) (arg : Nat) : List (List Char) :=
  if arg ≠ 0 then []
  else
    ((Files.listAllSubDirs env.fs env.dir).filter fun s =>
      pre.isPrefixOf s && (Glob.dirPart (s.drop pre.length) = [] && Glob.filePart (s.drop pre.length) = s.drop pre.length)).map
      (· ++ ['/'])

/-- schedule/server_state_commands.go:76-88: OptionsFunc of `queue` -/
def queueOptions (env : Env) (pre : List Char) (arg : Nat) : List (List Char) :=
  if arg ≠ 0 then []
  else (Files.filterSongs (Files.listAllFiles env.fs env.dir [])).filter fun s => pre.isPrefixOf s

/-- ssh/command.go:75, 126, schedule/server_state_commands.go:72, 120, 129, 145, 161, 187-194 -/
def nameOf : Which → List Char
  | .help => ['h', 'e', 'l', 'p']
  | .ls => ['l', 's']
  | .ctl .queue => ['q', 'u', 'e', 'u', 'e']
  | .ctl .playlist => ['p', 'l', 'a', 'y', 'l', 'i', 's', 't']
  | .ctl .remove => ['r', 'e', 'm', 'o', 'v', 'e']
  | .ctl .jump => ['j', 'u', 'm', 'p']
  | .ctl .volume => ['v', 'o', 'l', 'u', 'm', 'e']
  | .ctl .pause => ['p', 'a', 'u', 's', 'e']
  | .ctl .resume => ['r', 'e', 's', 'u', 'm', 'e']

/-- ssh/command.go:76, 127, schedule/server_state_commands.go:73, 121, 130, 146, 162, 195 -/
def usageOf : Which → List Char
  | .help => "[command name]".toList
  | .ls => "[sub directory]".toList
  | .ctl .queue => "filename [position in playlist]".toList
  | .ctl .remove => "position".toList
  | .ctl .jump => "position".toList
  | .ctl .volume => "volume".toList
  | .ctl .playlist => []
  | .ctl .pause => []
  | .ctl .resume => []

/-- ssh/command.go:77, 128, schedule/server_state_commands.go:74, 122, 131, 147, 163, 196 -/
def infoOf : Which → List Char
  | .help => "retrieves help for a command".toList
  | .ls => "lists all songs in the music (sub) directory".toList
  | .ctl .queue => "adds a song to the playlist".toList
  | .ctl .playlist => "prints the current playlist".toList
  | .ctl .remove => "removes a song from the playlist".toList
  | .ctl .jump => "jumps in the playlist".toList
  | .ctl .volume => "set the playback volume".toList
  | .ctl .pause => "pauses playback".toList
  | .ctl .resume => "resumes playback".toList

/-- The OptionsFuncs: ssh/command.go:111, 137, schedule/server_state_commands.go:76; the other commands have none -/
def optionsOf (env : Env) (names : List (List Char)) : Which → List Char → Nat → List (List Char)
  | .help => helpOptions names
  | .ls => lsOptions env
  | .ctl .queue => queueOptions env
  | _ => fun _ _ => []

/-- `id` of a command: its number in `order` (ssh/command.go:28-38) -/
def idOf (w : Which) : Nat := order.idxOf w

/-- A command as it is registered; `names` are the names in the registry when the options are asked for.
(ssh/command.go:28-38) -/
def cmdOf (env : Env) (names : List (List Char)) (w : Which) : Cmd :=
  ⟨idOf w, nameOf w, usageOf w, infoOf w, optionsOf env names w⟩

/-- All the commands registered: ssh/command.go:155-158, schedule/server.go:33-39 -/
def cmds (env : Env) (names : List (List Char)) : List Cmd := order.map (cmdOf env names)

/-- ssh/command.go:78-110: ExecFunc of `help` -/
def helpText (l : List Cmd) : List (List Char) → List Char
  | [] => ['\n'].intercalate (helpLines l)
  | a :: _ =>
    match helpTarget l a with
    | some c => c.name ++ ": ".toList ++ c.info ++ ['\n'] ++ usageText c
    | none =>
      if a = clearName then "clear: Clears the terminal\nclear".toList
      else if a = exitName then "exit: Closes the connection\nexit".toList
      else "Command '".toList ++ a ++ "' does not exist.".toList

/-- ssh/command.go:129-136: ExecFunc of `ls` -/
def lsText (env : Env) (args : List (List Char)) : List Char :=
  ['\n'].intercalate (Files.filterSongs (Files.listAllFiles env.fs env.dir (args.head?.getD [])))

/-- `Exec` of a command (ssh/command.go:41-43) -/
def execute (env : Env) (l : List Cmd) (w : Which) (args : List (List Char)) (c : Commands.Ctl) : Commands.Run :=
  match w with
  | .help => .done c (.text (helpText l args))
  | .ls => .done c (.text (lsText env args))
  | .ctl n => Commands.exec env.ext n (args.map String.ofList) c

/-- What entering a line leads to: a new state, what is printed and whether the session goes on; or a crash of the server,
or a session that hangs. (ssh/session_handler.go:80-109) -/
inductive Entered where
  | done (c : Commands.Ctl) (output : List Char) (goesOn : Bool)
  | panic
  | blocked (c : Commands.Ctl)
  deriving DecidableEq

/-- ssh/session_handler.go:80-109: a line is entered when the registry is `l`; the command found is run and its result is
printed -/
def enter (env : Env) (l : List Cmd) (line : List Char) (c : Commands.Ctl) : Entered :=
  match handleLine l line with
  | .exec cmd args =>
    match order[cmd.id]? with
    | none => .panic
    | some w =>
      match execute env l w args c with
      | .done c' (.text t) => .done c' (printed cmd t true) true
      | .done c' .usage => .done c' (printed cmd [] false) true
      | .panic => .panic
      | .blocked c' => .blocked c'
  | .clear => .done c ['\x1b', '[', 'H'] true
  | .exit => .done c [] false
  | .unknown n => .done c ("Unknown command '".toList ++ n ++ "'. Type 'help' for help.\n".toList) true

end MS.Console
