import Verif.Model.PlaylistEdit
/-!
# playback/playlist.go: StreamLoop, pushStreamer, SetPos, SetPlaying as an interleaving machine

The streaming goroutine runs `StreamLoop`; any number of other goroutines (ssh sessions) call `SetPos`, `SetPlaying`
and the playlist edits. `position`, `playing` and `forceNext` are shared without a common lock, so each access of the
loop to one of them is its own step. Pushing the samples of one block is a single step: the pushes read none of the
shared fields, so the other goroutines' actions commute with them (the channels themselves are modelled in
`Verif.Model.Fill`; `Verif.Model.PlaylistRun` has both, sample by sample, and C125 proves that this step is faithful).

Simplifications: a sample is `some a` (decoded audio, type `α`, one element per low/high pair) or `none` (the NaN
pair); `sampleIndexWrite` is the number of samples pushed so far and does not wrap at 2^64; positions do not wrap at
2^63 (C127 looks into that); the files do not change while the server runs (`Cfg.dec`); the context is never canceled; both handlers are set
before the first song can be queued (schedule/server.go:26-33; C124 proves it); handler goroutines are represented by the
announcement they were started with, in order of starting; the decoder follows the beep.Streamer contract: `Stream` fills
the buffer as long as samples remain, returns a short count only at the end, and `(0, false)` when drained.
-/
namespace MS.StreamLoop

/-- playback/playlist.go:11 `streamerBufferSize`. -/
def bufSize : Nat := 512

/-- playback/playlist.go:12 `noSongNanSampleCount`. -/
def noSongNan : Nat := 32768

/-- What does not change during an execution: `dec` is `getStreamer` (playback/playback.go:34-47), `none` when the
file cannot be opened or decoded; `brk` is `nanBreakSize` (playback/playlist.go:23). -/
structure Cfg (α : Type) where
  dec : String → Option (List α)
  brk : Nat

/-- Program counter of the streaming goroutine. `rem` are the samples of the current song not yet streamed.
(playback/playlist.go:41-137) -/
inductive Pc (α : Type) where
  | top                                     -- 42-43, 69: about to call nextSong and read `position`
  | store (pos : Int) (song : String)       -- 70: nextSong has read `position`, about to write it back
  | opening (song : String)                 -- 49-52
  | h1 (rem : List α)                       -- 82/133: about to compare `playing` with `playingLast`
  | h2 (rem : List α)                       -- 134: about to store `playingLast = playing`
  | h3 (rem : List α)                       -- 135: about to start the handler with `playing`
  | body (rem : List α)                     -- 83: about to test `playing`
  | chk (rem : List α) (n : Nat) (ok : Bool)-- 90/97: shouldBreakStreamerPushLoop
  | incR (skip : Bool)                      -- 102 (or 54 if skip): `position++`, about to read
  | incW (skip : Bool) (v : Int)            -- `position++`, about to write v + 1
  | brk                                     -- 59: pushNanBreak
  | crashed                                 -- index out of range in nextSong (71)
  deriving DecidableEq, Repr

/-- State of the playlist plus the observable history: `out` the samples pushed, `news` the new-song announcements
(sample index, name, length), `pauses` the pause announcements (playing, sample index), `blocks` the blocks pushed by
pushStreamer (first index, count), `cuts` the numbers of announcements made before each consumed jump.
(playback/playlist.go:16-35) -/
structure St (α : Type) where
  songs : List String
  position : Int
  tokens : Nat
  inflight : Nat
  playing : Bool
  playingLast : Bool
  current : String
  pc : Pc α
  out : List (Option α)
  news : List (Nat × String × Nat)
  pauses : List (Bool × Nat)
  blocks : List (Nat × Nat)
  cuts : List Nat
  deriving DecidableEq, Repr

/-- playback/playlist.go:253-266 `NewPlaylist`, when StreamLoop (41) is entered. -/
def init {α : Type} (songs : List String) : St α :=
  { songs, position := 0, tokens := 0, inflight := 0, playing := false, playingLast := true, current := "",
    pc := .top, out := [], news := [], pauses := [], blocks := [], cuts := [] }

/-- Scheduler choice: a step of the loop, or an action of another goroutine. (playback/playlist.go:41-211, 232-234) -/
inductive Act where
  | loop
  | jumpWrite (p : Int)   -- SetPos, first statement (141)
  | jumpToken             -- SetPos, second statement (142); blocks while two tokens are in the channel
  | setPlaying (b : Bool) -- 232-234
  | edit (songs : List String) -- AddSong/InsertSong/RemoveSong: any change of the list
  deriving Repr

/-- One step of the streaming goroutine. (playback/playlist.go:41-137) -/
def loopStep {α : Type} (c : Cfg α) (s : St α) : Option (St α) :=
  match s.pc with
  | .top =>
    -- playback/playlist.go:63-72 nextSong, and 43-47
    if s.songs.length = 0 then some { s with out := s.out ++ List.replicate noSongNan none }
    else
      let pos := s.position.tmod s.songs.length
      match Playlist.goGet s.songs pos with
      | .ok song => some { s with pc := .store pos song }
      | .panic => some { s with pc := .crashed }
  | .store pos song =>
    -- playback/playlist.go:70-71, then 44-47
    if song = "" then some { s with position := pos, pc := .top, out := s.out ++ List.replicate noSongNan none }
    else some { s with position := pos, pc := .opening song }
  | .opening song =>
    -- playback/playlist.go:49-58 and 74-78
    match c.dec song with
    | none => some { s with current := song, pc := .incR true }
    | some l => some { s with current := song, pc := .h1 l, news := s.news ++ [(s.out.length, song, l.length)] }
  | .h1 rem =>
    -- playback/playlist.go:133
    if s.playing ≠ s.playingLast then some { s with pc := .h2 rem } else some { s with pc := .body rem }
  | .h2 rem => some { s with playingLast := s.playing, pc := .h3 rem }
  | .h3 rem => some { s with pauses := s.pauses ++ [(s.playing, s.out.length)], pc := .body rem }
  | .body rem =>
    -- playback/playlist.go:83-88
    if s.playing then
      let n := min bufSize rem.length
      some { s with out := s.out ++ (rem.take n).map some, blocks := s.blocks ++ [(s.out.length, n)],
                    pc := .chk (rem.drop n) n (0 < n) }
    else
      some { s with out := s.out ++ List.replicate bufSize none, blocks := s.blocks ++ [(s.out.length, bufSize)],
                    pc := .chk rem bufSize true }
  | .chk rem n ok =>
    -- playback/playlist.go:96-106
    if 0 < s.tokens then some { s with tokens := s.tokens - 1, pc := .brk, cuts := s.cuts ++ [s.news.length] }
    else if ok = false ∨ n < bufSize then some { s with pc := .incR false }
    else some { s with pc := .h1 rem }
  | .incR skip => some { s with pc := .incW skip s.position }
  | .incW skip v => some { s with position := v + 1, pc := if skip then .top else .brk }
  | .brk =>
    -- playback/playlist.go:120-124
    some { s with out := s.out ++ List.replicate c.brk none, pc := .top }
  | .crashed => none

/-- One action; `none` when it is not enabled. After a crash of the process nothing is enabled.
(playback/playlist.go:41-211, 232-234) -/
def step {α : Type} (c : Cfg α) (s : St α) (a : Act) : Option (St α) :=
  match s.pc with
  | .crashed => none
  | _ =>
    match a with
    | .loop => loopStep c s
    | .jumpWrite p => some { s with position := p, inflight := s.inflight + 1 }
    | .jumpToken =>
      -- playback/playlist.go:142 with the channel capacity of 259
      if 0 < s.inflight ∧ s.tokens < 2 then
        some { s with inflight := s.inflight - 1, tokens := s.tokens + 1 }
      else none
    | .setPlaying b => some { s with playing := b }
    | .edit songs => some { s with songs := songs }

/-- A schedule. (playback/playlist.go:41-211) -/
def run {α : Type} (c : Cfg α) (s : St α) : List Act → Option (St α)
  | [] => some s
  | a :: as =>
    match step c s a with
    | some s' => run c s' as
    | none => none

/-- playback/playlist.go:146-153 `Pos` (exported; no other code in /repo calls it). -/
def pos {α : Type} (s : St α) : Int :=
  if s.songs.length = 0 then 0 else s.position.tmod s.songs.length

end MS.StreamLoop
