import Verif.Model.Sender
/-!
# The start of a player: playback.Init, the subscription and the messages of the server, all running at the same time

`schedule.Player` starts `playback.Init` and the subscription in two goroutines (schedule/player.go:12-31), while the
connection is being handled since before (cmd/music-sync-player/main.go:46-51). Simplification: a handler call takes
effect in one step, `oto.NewContext` succeeds (otherwise the process exits), writes of one variable are atomic.
-/
namespace MS.PlayerStart
open MS.Proto MS.Sender

/-- Where `playback.Init` is. (playback/playback.go:79-102) -/
inductive Pc where
  | start      -- about to execute `volume = .1`, playback/playback.go:83
  | volumeSet  -- creating the sound context, 84-93
  | ready      -- the streamer exists, 95-101
  deriving DecidableEq, Repr

/-- The player. `chunks = none`: `streamer` is nil. (playback/playback.go:21-27, schedule/player.go:11-32) -/
structure St where
  pc : Pc
  subscribed : Bool
  started : List Call
  volume : UInt64
  chunks : Option (List QueueChunkRequest)
  deriving DecidableEq, Repr

/-- `.1` as a float64. (playback/playback.go:83) -/
def initialVolume : UInt64 := 0x3FB999999999999A

/-- The process has just connected; `volume` is Go's zero value. (playback/playback.go:21-27) -/
def init : St := ⟨.start, false, [], 0, none⟩

/-- Steps: of `Init`, of the subscription being received by the server, of the connection receiving a message, of the
goroutine of a handler call. (schedule/player.go:12-31, comm/conn_handler.go:15-25) -/
inductive Act where
  | initVolume
  | initStreamer
  | subscribe
  | receive (m : Msg)
  | run (c : Call)
  deriving DecidableEq, Repr

/-- The messages a server sends to a client that has not subscribed: none of the audio channel. (Answers to requests
are sent without a subscription.) (comm/message_sender.go:91-109, schedule/server_state.go:45-56) -/
def audio : Msg → Bool
  | .queueChunkRequest _ => true
  | .setVolumeRequest _ => true
  | _ => false

/-- The effect of a handler call of the player on its volume and chunks.
(cmd/music-sync-player/main.go:66-71, playback/playback.go:50-62, 115-119) -/
def effect (s : St) (c : Call) : St :=
  match c.handler, c.message with
  | .HandleSetVolumeRequest, .setVolumeRequest r => { s with volume := r.volume }
  | .HandleQueueChunkRequest, .queueChunkRequest r =>
    match s.chunks with
    | none => s
    | some q => { s with chunks := some (q ++ [r]) }
  | _, _ => s

/-- One step, `none` if it is not possible. (playback/playback.go:79-113, schedule/player.go:12-31) -/
def step (s : St) : Act → Option St
  | .initVolume => if s.pc = .start then some { s with pc := .volumeSet, volume := initialVolume } else none
  | .initStreamer => if s.pc = .volumeSet then some { s with pc := .ready, chunks := some [] } else none
  | .subscribe => if s.subscribed then none else some { s with subscribed := true }
  | .receive m =>
    if audio m && !s.subscribed then none else some { s with started := s.started ++ (handle m 0).toList }
  | .run c => if c ∈ s.started then some (effect { s with started := s.started.erase c } c) else none

/-- A schedule. (schedule/player.go:11-32) -/
def run (s : St) : List Act → Option St
  | [] => some s
  | a :: as =>
    match step s a with
    | some s' => run s' as
    | none => none

end MS.PlayerStart
