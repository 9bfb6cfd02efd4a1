import Verif.Model.Wire
import Verif.Model.Sender
import Verif.Model.Logging
/-!
# How a player or an infoer ends

The goroutine that reads the connection (comm/conn_handler.go:77-81), the goroutines it starts for the messages, and the
main goroutine, of a client that is connected. Simplifications: a handler takes effect in one step; the goroutines of
schedule.Player and schedule.Infoer, which only send, are left out; the texts of read errors are arbitrary.
-/
namespace MS.ClientEnd
open MS.Proto MS.Wire MS.Sender

/-- The two clients. (cmd/music-sync-player/main.go, cmd/music-sync-infoer/main.go) -/
inductive Prog where
  | player
  | infoer
  deriving DecidableEq, Repr

/-- Where the main goroutine is. (cmd/util.go:9-17, cmd/music-sync-infoer/main.go:91-109) -/
inductive Main where
  | waiting
  | told     -- infoer: the event loop has returned, `running` is false
  | left     -- the main function returns
  deriving DecidableEq, Repr

/-- A client with its connection: what is still to be read and how reading ends, handlers started and finished, whether
handleConnection has returned, what has been written to the terminal by the logger, whether the terminal is taken over by
tcell, and the status the process ended with. (comm/conn_handler.go:68-82) -/
structure St where
  incoming : List Msg
  fin : End
  started : List Call
  ran : List Call
  closing : Bool
  printed : List (Logging.Writer × List Char)
  screen : Bool
  main : Main
  exit : Option Nat

/-- What the scheduler lets happen. (comm/conn_handler.go:77-81, cmd/util.go:9-17, cmd/music-sync-infoer/main.go:91-109) -/
inductive Act where
  | reader (reason date : List Char)  -- a step of the reading goroutine
  | handler (i : Nat)                 -- the `i`th of the started handlers runs
  | user                              -- the user presses Ctrl-C
  | tick                              -- the infoer's 200 ms tick
  | main                              -- the main function returns

/-- The settings of the logger: cmd/music-sync-player/main.go:35 and cmd/music-sync-infoer/main.go:40. -/
def cutoffs (byName : List Char → Int) (flags : List Char → List Char) : Prog → Logging.Cutoffs
  | .player => Logging.handleFlags byName flags Logging.init
  | .infoer => { Logging.init with dflt := Logging.off }

/-- A step of the reading goroutine: comm/conn_handler.go:17-24, then :79, then :80. A panic ends a Go program with
status 2. -/
def reader (cut : Logging.Cutoffs) (conn : Conn) (reason date : List Char) (s : St) : St :=
  match s.incoming with
  | m :: ms => { s with incoming := ms, started := s.started ++ (handle m conn).toList }
  | [] =>
    if s.closing then { s with exit := some 1 }
    else
      match s.fin with
      | .crashed => { s with exit := some 2 }
      | .closed =>
        { s with closing := true, printed := s.printed ++ Logging.log cut "comm".toList reason date Logging.info ++
                   Logging.log cut "comm".toList "connection to master closed".toList date Logging.fatal }

/-- One step; nothing happens if it is not possible or the process has ended. (comm/conn_handler.go:77-81, cmd/util.go:9-17,
cmd/music-sync-player/main.go:53-54, cmd/music-sync-infoer/main.go:61-63, 91-109) -/
def step (p : Prog) (cut : Logging.Cutoffs) (conn : Conn) (s : St) (a : Act) : St :=
  if s.exit.isSome then s
  else
    match a with
    | .reader reason date => reader cut conn reason date s
    | .handler i =>
      match s.started[i]? with
      | some c => { s with started := s.started.eraseIdx i, ran := s.ran ++ [c] }
      | none => s
    | .user =>
      match s.main, p with
      | .waiting, .player => { s with main := .left }
      | .waiting, .infoer => { s with main := .told }
      | _, _ => s
    | .tick => if s.main = .told then { s with main := .left, screen := false } else s
    | .main => if s.main = .left then { s with exit := some 0 } else s

/-- A schedule. (comm/conn_handler.go:77-81) -/
def run (p : Prog) (cut : Logging.Cutoffs) (conn : Conn) (s : St) (acts : List Act) : St := acts.foldl (step p cut conn) s

/-- A connected client; `segs` are the pieces in which the server's data arrive before the connection ends.
(comm/conn_handler.go:68-82, cmd/music-sync-infoer/main.go:51) -/
def start (p : Prog) (z : Zlib) (maxAlloc : Nat) (segs : List Bytes) : St :=
  { incoming := (handleConnection z maxAlloc segs).1, fin := (handleConnection z maxAlloc segs).2, started := [], ran := [],
    closing := false, printed := [], screen := decide (p = .infoer), main := .waiting, exit := none }

end MS.ClientEnd
