import Verif.Model.Parser
import Verif.Model.GoBase
/-!
# ssh/command.go, ssh/session_handler.go, ssh/auto_completer.go: registry, dispatch and completion

A command's ExecFunc and OptionsFunc are arbitrary; what a session does with a line is described by the `Action` it
takes. Names of commands are ASCII, so that bytes and characters of a name coincide (auto_completer.go:44 slices bytes).
-/
set_option linter.unusedVariables false
namespace MS.Session
open MS.Shell

/-- ssh/command.go:28-38. `id` tells apart commands with equal fields. `options` is OptionsFunc, constantly empty if it
is nil (47-52). -/
structure Cmd where
  id : Nat
  name : List Char
  usage : List Char
  info : List Char
  options : List Char → Nat → List (List Char)

/-- `strings.Compare(a, b) < 0`: byte-wise, which for UTF-8 is the order of the code points (ssh/command.go:18) -/
def less : List Char → List Char → Bool
  | [], [] => false
  | [], _ :: _ => true
  | _ :: _, [] => false
  | a :: l, b :: m => if a.toNat < b.toNat then true else if b.toNat < a.toNat then false else less l m

/-- ssh/command.go:15-19: the order of the registry -/
def Sorted (l : List Cmd) : Prop := l.Pairwise fun a b => less b.name a.name = false

/-- ssh/command.go:22-25 `RegisterCommand`: `sort.Sort` is not stable: any sorted permutation -/
def Register (l : List Cmd) (c : Cmd) (l' : List Cmd) : Prop := l'.Perm (l ++ [c]) ∧ Sorted l'

/-- Registering one command after the other, from the empty registry (command.go:13) on. -/
inductive Registry : List Cmd → List Cmd → Prop
  | nil : Registry [] []
  | snoc {cs l l' : List Cmd} {c : Cmd} (h : Registry cs l) (hr : Register l c l') : Registry (cs ++ [c]) l'

/-- ssh/command.go:65-72 -/
def commandByName (l : List Cmd) (name : List Char) : Option Cmd := l.find? (fun c => c.name = name)

/-- ssh/command.go:58-63 -/
def usageText (c : Cmd) : List Char :=
  if c.usage = [] then "No usage information for command '".toList ++ c.name ++ "'".toList
  else "Usage: ".toList ++ c.name ++ " ".toList ++ c.usage

/-- `%-15s %s` (ssh/command.go:82) -/
def helpLine (name info : List Char) : List Char := name ++ List.replicate (15 - name.length) ' ' ++ ' ' :: info

/-- ssh/session_handler.go:87 -/
def clearName : List Char := ['c', 'l', 'e', 'a', 'r']
/-- ssh/session_handler.go:89 -/
def exitName : List Char := ['e', 'x', 'i', 't']

/-- ssh/command.go:78-89: the lines of `help` without arguments -/
def helpLines (l : List Cmd) : List (List Char) :=
  l.map (fun c => helpLine c.name c.info) ++
    [helpLine clearName "Clears the terminal".toList, helpLine exitName "Closes the connection".toList]

/-- ssh/command.go:92-98: the target of `help name`, the last match -/
def helpTarget (l : List Cmd) (name : List Char) : Option Cmd :=
  l.foldl (fun t c => if c.name = name then some c else t) none

/-- What a line makes the session do. (ssh/session_handler.go:80-97) -/
inductive Action where
  | exec (c : Cmd) (args : List (List Char))
  | clear
  | exit
  | unknown (name : List Char)

/-- ssh/session_handler.go:80-97 `handleLine` -/
def handleLine (l : List Cmd) (line : List Char) : Action :=
  let cmd := parse line
  match commandByName l cmd.command with
  | some c => .exec c cmd.parameters
  | none =>
    if cmd.command = clearName then .clear
    else if cmd.command = exitName then .exit
    else .unknown cmd.command

/-- ssh/session_handler.go:99-109: what is printed after a command returned `msg, ok` -/
def printed (c : Cmd) (msg : List Char) (ok : Bool) : List Char :=
  if ok then (if msg.getLast? = some '\n' then msg.dropLast else msg) ++ ['\n']
  else usageText c ++ ['\n']

/-- What `Readline` returns: the text typed, with or without an error. With an interrupt (Ctrl-C) the text typed so far
is returned too (chzyer/readline). (ssh/session_handler.go:113) -/
inductive Read where
  | line (l : List Char)
  | interrupt (l : List Char)
  | eof
  | err

/-- ssh/session_handler.go:111-127 `readLoop`: the lines handled before the session ends -/
def readLoop (l : List Cmd) : List Read → List (List Char)
  | [] => []
  | .eof :: _ => []
  | .err :: _ => []
  | .line t :: rs => match handleLine l t with
    | .exit => [t]
    | _ => t :: readLoop l rs
  | .interrupt t :: rs => match handleLine l t with
    | .exit => [t]
    | _ => t :: readLoop l rs

/-! ## Completion -/

/-- Go `s[pos:]` (ssh/auto_completer.go:44, 57) -/
def sliceFrom (l : List Char) (pos : Nat) : Res (List Char) := if pos ≤ l.length then .ok (l.drop pos) else .panic

/-- the loops at ssh/auto_completer.go:42-46, 55-58: a panic anywhere is a panic -/
def collect {α : Type} : List (Res α) → Res (List α)
  | [] => .ok []
  | .panic :: _ => .panic
  | .ok a :: rs => (collect rs).map (a :: ·)

/-- ssh/auto_completer.go:33-39 -/
def commandNames (l : List Cmd) : List (List Char) := clearName :: exitName :: l.map Cmd.name

/-- ssh/auto_completer.go:41-48 -/
def commandsWithPrefix (l : List Cmd) (command : List Char) (pos : Nat) : Res (List (List Char)) :=
  collect (((commandNames l).filter (fun c => command.isPrefixOf c)).map fun c => sliceFrom (c ++ [' ']) pos)

/-- ssh/auto_completer.go:50-62. The parameters are not empty here (see `complete`). -/
def argOptionsWithPrefix (l : List Cmd) (cmd : Parsed) (pos : Nat) : Res (List (List Char)) :=
  match commandByName l cmd.command with
  | none => .ok []
  | some c =>
    let argNum := cmd.parameters.length - 1
    let arg := cmd.parameters.getLastD []
    collect (((c.options arg argNum).filter (fun o => arg.isPrefixOf o)).map fun o =>
      sliceFrom (unparse ⟨cmd.command, cmd.parameters.dropLast ++ [o]⟩) pos)

/-- ssh/auto_completer.go:10-31 `Do` -/
def complete (l : List Cmd) (line : List Char) (pos : Nat) : Res (List (List Char)) :=
  let cmd := parse line
  let cmd := if line.getLast? = some ' ' then { cmd with parameters := cmd.parameters ++ [[]] } else cmd
  if cmd.parameters.length = 0 ∧ line.getLast? ≠ some ' ' then commandsWithPrefix l cmd.command pos
  else argOptionsWithPrefix l cmd pos

/-- The line after accepting a proposal: readline inserts it at the cursor.
(ssh/session_handler.go:62 with chzyer/readline, whose behaviour is assumed) -/
def accept (line : List Char) (pos : Nat) (proposal : List Char) : List Char := line.take pos ++ proposal ++ line.drop pos

end MS.Session
