import Verif.Model.StreamMusic
/-!
# The main functions: starting the server, a player and an infoer; the infoer's event loop

What the operating system and the network answer is arbitrary: every operation that can fail comes with its error text
or with success. Simplification: what happens is a list of events in the order in which it happens; the ssh server and
`schedule.Server` run in goroutines of their own, their events are listed in one fixed order.
-/
namespace MS.Startup

/-- What can be seen from outside. (cmd/music-sync-server/main.go:71-109) -/
inductive Ev where
  | exit (status : Nat) (message : List Char)  -- the process prints the message and ends
  | panic                                      -- the process ends with a stack trace
  | listening                                  -- clients can connect
  | control                                    -- the ssh control interface accepts connections
  | streaming                                  -- chunks are sent regularly
  | connected                                  -- a client has its connection
  | screenOn | screenOff                       -- the infoer has taken over / given back the terminal
  | running                                    -- the client goes on until it is interrupted
  deriving DecidableEq, Repr

/-- The settings of the server and what the operations of its start answer (`none`: success).
(cmd/music-sync-server/main.go:47-57, 73-81) -/
structure Server where
  rate : Int                      -- --sample-rate
  size : Int                      -- --stream-chunk-size
  musicDir : Option (List Char)   -- util.CheckDir
  listen : Option (List Char)     -- net.Listen
  users : Option (List Char)      -- ssh.ReadUsersFile
  ssh : Option (List Char)        -- ssh.ListenAndServe
  deriving DecidableEq, Repr

/-- cmd/music-sync-server/main.go:63, with 64 bit arithmetic; `none`: division by zero. -/
def chunkTime (size rate : Int) : Option Int :=
  if rate = 0 then none else some (wrap64 ((wrap64 (size * 1000000000)).tdiv rate))

/-- schedule/server.go:12-40 `Server` and schedule/server_state.go:145-151: `make(chan, n)` and `make([]float64, n)`
panic for negative `n`, `time.Tick` returns nil for a period that is not positive, and then the loop never runs. -/
def scheduleServer (size rate time : Int) : List Ev :=
  if rate < 0 then [.panic]
  else if time ≤ 0 then []
  else if size < 0 then [.panic]
  else [.streaming]

/-- ssh/ssh.go:39-46 `StartSSH`: an error is logged, nothing else. -/
def startSSH (err : Option (List Char)) : List Ev :=
  match err with
  | some _ => []
  | none => [.control]

/-- cmd/music-sync-server/main.go:71-109 `run`. -/
def serverRun (s : Server) : List Ev :=
  match s.musicDir with
  | some e => [.exit 1 ("invalid music dir: ".toList ++ e)]
  | none =>
    match chunkTime s.size s.rate with
    | none => [.panic]
    | some time =>
      match s.listen with
      | some e => [.exit 1 e]
      | none =>
        .listening ::
        match s.users with
        | some e => [.exit 1 e]
        | none => startSSH s.ssh ++ scheduleServer s.size s.rate time

/-- cmd/music-sync-player/main.go:34-55 `run`: `connect` is the answer of comm.ConnectToServer. -/
def playerRun (connect : Option (List Char)) : List Ev :=
  match connect with
  | some e => [.exit 1 e]
  | none => [.connected, .running]

/-- schedule/infoer.go:11-25 `Infoer`: both goroutines call a method of the sender; with the nil sender returned by a
failed ConnectToServer that is a nil dereference. -/
def infoer (connect : Option (List Char)) : List Ev :=
  match connect with
  | some _ => [.panic]
  | none => [.connected, .running]

/-- cmd/music-sync-infoer/main.go:38-64 `run`: the error of ConnectToServer is wrapped and dropped, :54-57.
`quitFirst`: the user ends the program before the goroutines of `Infoer` have run. -/
def infoerRun (screen connect : Option (List Char)) (quitFirst : Bool) : List Ev :=
  match screen with
  | some e => [.exit 1 e]
  | none => .screenOn :: (if quitFirst then [.screenOff] else infoer connect)

/-! ## cmd/music-sync-infoer/drawing.go:14-29, the event loop -/

/-- What tcell's PollEvent returns. (cmd/music-sync-infoer/drawing.go:16-28) -/
inductive TEv where
  | key (ctrlC : Bool)
  | resize (w h : Int)
  | other
  deriving DecidableEq, Repr

/-- Where the event loop is. (cmd/music-sync-infoer/drawing.go:14-29) -/
inductive Loop where
  | running (w h : Int)   -- the size the next drawing uses
  | quit
  | crashed
  deriving DecidableEq, Repr

/-- cmd/music-sync-infoer/drawing.go:16-28, the event has the size `d.Size()` returns after it. -/
def event : Loop → TEv → Loop
  | .running _ _, .key true => .quit
  | .running w h, .key false => .running w h
  | .running _ _, .resize w h => .running w h
  | .running _ _, .other => .crashed
  | .quit, _ => .quit
  | .crashed, _ => .crashed

/-- cmd/music-sync-infoer/drawing.go:14-29 `eventLoop`, started with the size of the screen. -/
def eventLoop (w h : Int) (evs : List TEv) : Loop := evs.foldl event (.running w h)

end MS.Startup
