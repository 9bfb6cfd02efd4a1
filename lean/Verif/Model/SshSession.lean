import Verif.Model.Session
/-!
# ssh/session_handler.go: a control session from its beginning to its end

One session (each is handled by its own goroutine and shares with others only the commands). What a command returns is
arbitrary. Simplifications: the prompt, the escapes of `ex.Clean` and the echo of readline are left out; what the user types
waits until it is read; the width of the window (:26-31), which only readline uses, is left out.
-/
namespace MS.SshSession
open MS.Session

/-- What `Readline` returns, with the text of an error. (ssh/session_handler.go:113) -/
inductive Input where
  | line (t : List Char)
  | interrupt (t : List Char)
  | eof
  | err (reason : List Char)
  deriving DecidableEq

/-- Where the goroutine of the session is. (ssh/session_handler.go:129-143) -/
inductive Phase where
  | fresh
  | reading
  | running (c : Cmd)
  | closed

/-- A session: address and user for the log, what is typed and not yet read, what was written to the terminal, the calls of
commands made, and the entries of the log. (ssh/session_handler.go:12-18) -/
structure St where
  who : List Char
  pending : List Input
  phase : Phase
  written : List Char
  calls : List (Cmd × List (List Char))
  log : List (List Char)

/-- What happens next. (ssh/session_handler.go:20-54, 99-127) -/
inductive Act where
  | start (pty : Bool) (exErr : Option (List Char))   -- the request for a terminal, the result of readline.NewEx
  | read                                              -- Readline returns
  | result (msg : List Char) (ok : Bool)              -- the command returns

/-- ssh/session_handler.go:90, 117 -/
def closedText (who : List Char) : List Char := "connection ".toList ++ who ++ " closed".toList

/-- ssh/session_handler.go:80-97, for a line that was read -/
def onLine (l : List Cmd) (s : St) (t : List Char) : St :=
  match handleLine l t with
  | .exec c args => { s with phase := .running c, calls := s.calls ++ [(c, args)] }
  | .clear => { s with written := s.written ++ ['\x1b', '[', 'H'] }
  | .exit => { s with phase := .closed, log := s.log ++ [closedText s.who] }
  | .unknown n => { s with written := s.written ++ ("Unknown command '".toList ++ n ++ "'. Type 'help' for help.\n".toList) }

/-- One step; nothing happens if it is not possible. (ssh/session_handler.go:20-54, 80-143) -/
def step (l : List Cmd) (s : St) : Act → St
  | .start pty exErr =>
    match s.phase with
    | .fresh =>
      let s := { s with log := s.log ++ ["new ssh connection from ".toList ++ s.who] }
      if !pty then { s with phase := .closed, log := s.log ++ ["no pty req from ".toList ++ s.who] }
      else
        match exErr with
        | some e => { s with phase := .closed, log := s.log ++ ["failed to create ex: ".toList ++ e],
                             written := s.written ++ ("failed to create ex: ".toList ++ e ++ ['\n']) }
        | none => { s with phase := .reading }
    | _ => s
  | .read =>
    match s.phase, s.pending with
    | .reading, i :: is =>
      let s := { s with pending := is }
      match i with
      | .line t => onLine l s t
      | .interrupt t => onLine l s t
      | .eof => { s with phase := .closed, log := s.log ++ [closedText s.who] }
      | .err e => { s with phase := .closed, log := s.log ++ ["connection error from ".toList ++ s.who ++ ": ".toList ++ e] }
    | _, _ => s
  | .result msg ok =>
    match s.phase with
    | .running c => { s with phase := .reading, written := s.written ++ printed c msg ok }
    | _ => s

/-- A connection from `who` ("address as user") on which `ins` will be typed. (ssh/session_handler.go:129-131) -/
def init (who : List Char) (ins : List Input) : St := ⟨who, ins, .fresh, [], [], []⟩

/-- A history of the session. (ssh/session_handler.go:129-143) -/
def run (l : List Cmd) (s : St) (acts : List Act) : St := acts.foldl (step l) s

end MS.SshSession
