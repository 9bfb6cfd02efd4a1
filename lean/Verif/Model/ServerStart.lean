import Verif.Model.StreamLoop
/-!
# schedule/server.go: starting the server while sessions and the stream run

`Verif.Model.StreamLoop` assumes that both handlers are set before the first song. Here `Server` is a goroutine of its own:
each of its statements is a step, in any order with the steps of `StreamLoop` (once it is started) and of the ssh sessions (which
are served before `Server` runs, cmd/music-sync-server/main.go:103-104). A session can only use commands that are registered, and
what changes the playlist are these commands.

Simplifications: memory is sequentially consistent; a command can be used once `RegisterCommand` has been called
(`Verif.Model.Registry` looks into that).
-/
namespace MS.ServerStart
open MS.StreamLoop

/-- The statements of `Server` that others can notice. (schedule/server.go:12-40) -/
inductive Stmt where
  | startLoop
  | setNewSong
  | setPauseToggle
  | register (name : String)
  deriving DecidableEq, Repr

/-- schedule/server.go:26-39, in this order -/
def server : List Stmt :=
  [.startLoop, .setNewSong, .setPauseToggle, .register "queue", .register "playlist", .register "remove", .register "jump",
    .register "volume", .register "pause", .register "resume"]

/-- `todo`: what `Server` still has to do; `begun`: the songs whose streaming has begun, with the index in the stream (not in the
program, to state the properties), as `missed`: how often pausing or resuming was noticed without a handler. (schedule/server.go:12-40, playback/playlist.go:16-35, 74-78) -/
structure St (α : Type) where
  todo : List Stmt
  running : Bool
  newSong : Bool
  pauseToggle : Bool
  commands : List String
  pl : StreamLoop.St α
  begun : List (Nat × String × Nat)
  missed : Nat

/-- schedule/server.go:12-21: `Server` up to line 24; the playlist is empty -/
def init {α : Type} : St α :=
  { todo := server, running := false, newSong := false, pauseToggle := false, commands := [], pl := StreamLoop.init [], begun := [],
    missed := 0 }

/-- Who goes on: `Server`, the stream, or a session with a command. (schedule/server.go:12-40,
schedule/server_state_commands.go:41-68, 122-162, 180-206) -/
inductive Act where
  | boot
  | loop
  | queue (song : String) (index : Option Int)  -- one song of a queue command
  | remove (index : Int)
  | jump (p : Int)                              -- first statement of SetPos
  | jumpToken                                   -- second statement of SetPos
  | pause
  | resume

/-- A statement of `Server`. (schedule/server.go:26-39) -/
def boot {α : Type} (s : St α) : Stmt → St α
  | .startLoop => { s with running := true }
  | .setNewSong => { s with newSong := true }
  | .setPauseToggle => { s with pauseToggle := true }
  | .register name => { s with commands := s.commands ++ [name] }

/-- A step of the stream, with handlers that may not be set: without the handler for new songs nothing is announced
(playback/playlist.go:76-78); without the one for pauses `callPauseToggleHandler` does nothing, in particular it does not store
`playingLast` (133). Otherwise as in `StreamLoop.loopStep`. (playback/playlist.go:41-137) -/
def loop {α : Type} (c : Cfg α) (s : St α) : Option (St α) :=
  match s.pl.pc with
  | .opening song =>
    match c.dec song with
    | none => some { s with pl := { s.pl with current := song, pc := .incR true } }
    | some l =>
      let e := (s.pl.out.length, song, l.length)
      some { s with
        pl := { s.pl with current := song, pc := .h1 l, news := if s.newSong then s.pl.news ++ [e] else s.pl.news }
        begun := s.begun ++ [e] }
  | .h1 rem =>
    if s.pl.playing ≠ s.pl.playingLast then
      if s.pauseToggle then some { s with pl := { s.pl with pc := .h2 rem } }
      else some { s with pl := { s.pl with pc := .body rem }, missed := s.missed + 1 }
    else some { s with pl := { s.pl with pc := .body rem } }
  | _ => (loopStep c s.pl).map fun pl => { s with pl := pl }

/-- An action of a session on the playlist, if the command is registered. (schedule/server_state_commands.go:41-68, 122-162,
180-206) -/
def session {α : Type} (c : Cfg α) (s : St α) (name : String) (a : StreamLoop.Act) : Option (St α) :=
  if name ∈ s.commands then (StreamLoop.step c s.pl a).map fun pl => { s with pl := pl } else none

/-- One step; `none` if it cannot be done now (or crashes: C05, C77). (schedule/server.go:12-40, playback/playlist.go:41-211,
schedule/server_state_commands.go:41-68, 122-162, 180-206) -/
def step {α : Type} (c : Cfg α) (s : St α) : Act → Option (St α)
  | .boot =>
    match s.todo with
    | [] => none
    | t :: ts => some (boot { s with todo := ts } t)
  | .loop => if s.running then loop c s else none
  | .queue song none => session c s "queue" (.edit (Playlist.addSong s.pl.songs song))
  | .queue song (some i) =>
    match Playlist.insertSong s.pl.songs song i with
    | .ok l => session c s "queue" (.edit l)
    | .panic => none
  | .remove i =>
    match Playlist.removeSong s.pl.songs i with
    | .ok r => session c s "remove" (.edit r.2)
    | .panic => none
  | .jump p => session c s "jump" (.jumpWrite p)
  | .jumpToken => session c s "jump" .jumpToken
  | .pause => session c s "pause" (.setPlaying false)
  | .resume => session c s "resume" (.setPlaying true)

/-- A schedule. (schedule/server.go:12-40) -/
def run {α : Type} (c : Cfg α) (s : St α) : List Act → Option (St α)
  | [] => some s
  | a :: as =>
    match step c s a with
    | some s' => run c s' as
    | none => none

end MS.ServerStart
