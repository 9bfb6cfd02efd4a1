import Verif.Model.StreamMusic
import Verif.Model.Streamer
import Verif.Model.Infoer
import Verif.Model.Timing
import Verif.Model.Startup
/-!
# The arithmetic of the schedule with 64 bit machine integers

`StreamMusic`, `Streamer`, `Infoer` and `Timing` compute with unbounded integers. Here are the same functions with every
addition, subtraction, multiplication and conversion of the Go code wrapping around at 64 bits (`int` is 64 bits wide,
amd64). `Props/Machine` says when the two agree. The machine's `-2^63 / -1` wraps too.
-/
namespace MS.Machine
open MS.Streamer (TS skipNaN dropLate streamDirect)
open MS.Infoer (Chunk Song Toggle State PlaybackInfo Picss u64 songStart songLen removeOldPauses)
open MS.StreamMusic (QueueChunk ChunkInfo)

/-- `a + b` of int64 values (Go language, e.g. playback/streamer.go:38) -/
def add (a b : Int) : Int := wrap64 (a + b)
/-- `a - b` of int64 values (Go language, e.g. cmd/music-sync-infoer/state.go:157) -/
def sub (a b : Int) : Int := wrap64 (a - b)
/-- `a * b` of int64 values (Go language, e.g. cmd/music-sync-infoer/state.go:158) -/
def mul (a b : Int) : Int := wrap64 (a * b)
/-- `a / b` of int64 values, `b` not 0 (Go language, e.g. cmd/music-sync-infoer/state.go:158) -/
def div (a b : Int) : Int := wrap64 (a.tdiv b)

/-- cmd/music-sync-server/main.go:63 `StreamChunkTime` -/
def chunkTime (size rate : Int) : Int := div (mul size 1000000000) rate

/-- schedule/server_state.go:149-168, the loop body from loop counter `index` on. -/
def messagesFrom {α : Type} (start : Int) (time : Int) (size : Nat) (index : Int) :
    List (Nat × List α × List α) → List (QueueChunk α × ChunkInfo)
  | [] => []
  | (first, low, high) :: rest =>
    (⟨add start (mul index time), index, low, high, first⟩, ⟨add start (mul index time), first, size⟩) ::
      messagesFrom start time size (add index 1) rest

/-- schedule/server_state.go:145-169 `streamMusic` -/
def messages {α : Type} (now streamDelay : Int) (size rate : Nat) (fills : List (Nat × List α × List α)) :
    List (QueueChunk α × ChunkInfo) :=
  messagesFrom (add now streamDelay) (chunkTime size rate) size 0 fills

/-- timing/timing.go:38 -/
def calcOffset (clientSend serverRecv serverSend clientRecv : Int) : Int :=
  div (add (sub serverRecv clientSend) (sub serverSend clientRecv)) 2

/-- timing/timing.go:18-20 `GetSyncedTime` -/
def syncedTime (offset raw : Int) : Int := add raw offset

/-- playback/streamer.go:99-101 `samplesDuration` -/
def samplesDuration (rate : Nat) (n : Nat) : Int := div (mul 1000000000 n) rate

/-- playback/streamer.go:103-105 `samplesCount` -/
def samplesCount (rate : Nat) (d : Int) : Int := div (mul d rate) 1000000000

/-- playback/streamer.go:87: the time `ReadChunks` gives sample `i` of a chunk that starts at `start` -/
def stamp (rate : Nat) (start : Int) (i : Nat) : Int := add start (samplesDuration rate i)

/-- playback/streamer.go:59-79 `streamSync`. Simplification: where Go would panic in the middle branch (a slice bound out
of range) this goes on; the theorems exclude that branch. -/
def streamSync {α : Type} (rate len : Nat) (now : Int) (q : List (TS α)) : Option (Nat × Bool × List (TS α)) :=
  match skipNaN q with
  | none => none
  | some (s, q') =>
    if now < add s.time (samplesDuration rate len) then some (len, false, s :: q')
    else if now < s.time then some ((samplesCount rate (sub s.time now)).toNat, true, s :: q')
    else
      match dropLate now (s :: q') with
      | some r => some (0, true, r)
      | none => none

/-- playback/streamer.go:28-46 `Stream`, the loop with at most `fuel` iterations (`none` when they do not suffice; the
buffer shrinks in every second one, so `2 * buffer + 2` always do). -/
def streamN {α : Type} (rate : Nat) : (fuel : Nat) → (len : Nat) → (now : Int) → (syncing : Bool) → List (TS α) →
    Option (List (Option α) × Bool × List (TS α))
  | 0, _, _, _, _ => none
  | fuel + 1, len, now, syncing, q =>
    if len = 0 then some ([], syncing, q)
    else if syncing then
      match streamSync rate len now q with
      | none => none
      | some (n, drained, r) =>
        if drained then
          if r = [] then none
          else
            match streamN rate fuel (len - n) (add now (samplesDuration rate n)) false r with
            | none => none
            | some (out, sy, q') => some (List.replicate n none ++ out, sy, q')
        else some (List.replicate n none, true, r)
    else
      match streamDirect len q with
      | none => none
      | some (vs, drained, r) =>
        if drained then
          if r = [] then none
          else
            match streamN rate fuel (len - vs.length) (add now (samplesDuration rate vs.length)) true r with
            | none => none
            | some (out, sy, q') => some (vs.map some ++ out, sy, q')
        else some (vs.map some, false, r)

/-- playback/streamer.go:28-46 `Stream` -/
def stream {α : Type} (rate len : Nat) (now : Int) (syncing : Bool) (q : List (TS α)) :
    Option (List (Option α) × Bool × List (TS α)) :=
  streamN rate (2 * q.length + 2) len now syncing q

/-- playback/playback.go:121-132 `playLoop` -/
def playLoop {α : Type} (rate len : Nat) : List Int → (syncing : Bool) → List (TS α) → Option (List (Option α) × Bool × List (TS α))
  | [], sy, q => some ([], sy, q)
  | now :: nows, sy, q =>
    match stream rate len now sy q with
    | none => none
    | some (out, sy', q') =>
      match playLoop rate len nows sy' q' with
      | none => none
      | some (out', sy'', q'') => some (out ++ out', sy'', q'')

/-- cmd/music-sync-infoer/state.go:227-229 `length`: `time.Duration(uc.size)` is a conversion from uint64 -/
def len (rate : Nat) (c : Chunk) : Int := div (mul (wrap64 c.size) 1000000000) rate

/-- cmd/music-sync-infoer/state.go:223-225 `endTime` -/
def endTime (rate : Nat) (c : Chunk) : Int := add c.startTime (len rate c)

/-- cmd/music-sync-infoer/state.go:165-186 `removeOldChunks` -/
def removeOldChunks (rate : Nat) (now : Int) : List Chunk → List Chunk
  | [] => []
  | c :: cs => if now ≤ endTime rate c then c :: cs else removeOldChunks rate now cs

/-- cmd/music-sync-infoer/state.go:149-163 `currentSample` after the removal -/
def sampleAt (rate : Nat) (now : Int) : List Chunk → Int
  | [] => 0
  | c :: _ => add (wrap64 c.startIndex) (div (mul (sub now c.startTime) rate) 1000000000)

/-- cmd/music-sync-infoer/state.go:134-147 `currentSong` -/
def currentSong {σ : Type} (sample : Int) (songs : List (Song σ)) : Option (Song σ) :=
  songs.reverse.find? (fun s => decide (wrap64 s.startIndex < sample))

/-- cmd/music-sync-infoer/state.go:77-97 `handlePause` -/
def handlePause (sample : Int) (startIndex : Nat) (st : Picss) (p : Toggle) : Picss :=
  if u64 sample ≤ p.toggleIndex ∨ st.playing = p.playing then st
  else
    let st1 : Picss :=
      if p.playing then { st with paused := add st.paused (sub (wrap64 p.toggleIndex) st.pauseBegin) }
      else { st with pauseBegin := wrap64 p.toggleIndex }
    let st2 : Picss :=
      if p.toggleIndex < startIndex then
        if p.playing then { st1 with paused := 0 }
        else { st1 with paused := sub (wrap64 p.toggleIndex) (wrap64 startIndex) }
      else st1
    { st2 with playing := p.playing }

/-- cmd/music-sync-infoer/state.go:99-113 `pausesInCurrentSong` -/
def pausesInCurrentSong (sample : Int) (startIndex : Nat) (pauses : List Toggle) : Int × Bool :=
  let st := pauses.foldl (handlePause sample startIndex) ⟨true, 0, 0⟩
  if st.playing then (st.paused, st.playing) else (add st.paused (sub sample st.pauseBegin), st.playing)

/-- cmd/music-sync-infoer/state.go:41-69 `Info`; the pruning of pauses (115-132) does no arithmetic. -/
def info {σ : Type} (rate : Nat) (now : Int) (s : State σ) : PlaybackInfo σ × State σ :=
  let chunks := removeOldChunks rate now s.chunks
  let sample := sampleAt rate now chunks
  let song := currentSong sample s.songs
  let start := songStart song
  let pauses := removeOldPauses start s.pauses
  let (paused, playing) := pausesInCurrentSong sample start pauses
  let inSong := sub (sub sample (wrap64 start)) paused
  let len := songLen song
  let pi : PlaybackInfo σ :=
    if start ≠ 0 ∧ wrap64 start < sample then
      { song := song, sample := sample, pausesInSong := paused, playing := playing,
        songLength := div (mul len 1000000000) rate, timeInSong := div (mul inSong 1000000000) rate,
        progress := if 0 < len then some (inSong, len) else none }
    else
      { song := song, sample := sample, pausesInSong := paused, playing := playing, songLength := 0, timeInSong := 0,
        progress := none }
  (pi, { s with chunks := chunks, pauses := pauses })

end MS.Machine
