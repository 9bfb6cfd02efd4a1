import Verif.Model.SoundPath
/-!
# playback/playback.go: setting the volume while the player's loop converts

The loop of the player and the handler of a volume message run in different goroutines; the loop reads the global
`volume` anew for every value of every channel. Here each conversion is a step, and the volume can be set between any
two steps. Simplifications: reading and writing a float64 is atomic (true on 64 bit machines); `Stream` is one step (it
does not read the volume), and happens only if it returns; the buffer holds all samples that are or will be added to it,
as in `MS.Streamer`.
-/
namespace MS.VolumeTurn
open MS.Float64 MS.SoundPath
open MS.Pcm (put)
open MS.Streamer (TS)

/-- The player's loop and the globals it uses. `pc = none`: about to call `Stream`; `pc = some j`: `j` values of
`samples` have been converted. (playback/playback.go:21-27, 121-131; playback/streamer.go:18-26) -/
structure St where
  volume : UInt64
  syncing : Bool
  buffer : List (TS (UInt64 × UInt64))
  samples : List (UInt64 × UInt64)
  pc : Option Nat
  buf : List Int
  written : List Int

/-- Steps: the handler of a volume message; `Stream` at a time of the clock; the conversion of the next value; `Write`.
(playback/playback.go:115-119, 126-130, 133-139) -/
inductive Act where
  | setVolume (v : UInt64)
  | stream (now : Int)
  | convert
  | write
  deriving DecidableEq

/-- `samples[i][c]` for `j = 2 * i + c`. (playback/playback.go:134-136) -/
def value (samples : List (UInt64 × UInt64)) (j : Nat) : Option UInt64 :=
  match samples[j / 2]? with
  | some s => some (if j % 2 = 0 then s.1 else s.2)
  | none => none

/-- playback/playback.go:115-119 `SetVolume`, 121-131 `playLoop`, 133-139 `samplesToAudioBuf` (the bytes of value `c` of sample
`i` are at `4 * i + 2 * c`, which is `2 * j`). -/
def step (rate len : Nat) (s : St) : Act → Option St
  | .setVolume v => some { s with volume := v }
  | .stream now =>
    match s.pc, MS.Streamer.stream rate len now s.syncing s.buffer with
    | none, some (out, sy, q) => some { s with samples := out.map written, syncing := sy, buffer := q, pc := some 0 }
    | _, _ => none
  | .convert =>
    match s.pc with
    | none => none
    | some j =>
      match value s.samples j with
      | none => none
      | some x =>
        some { s with buf := put (put s.buf (2 * j) (sampleBytes s.volume x).1) (2 * j + 1) (sampleBytes s.volume x).2, pc := some (j + 1) }
  | .write =>
    match s.pc with
    | none => none
    | some j => if j = 2 * s.samples.length then some { s with written := s.written ++ s.buf, pc := none } else none

/-- Executions. (playback/playback.go:115-139) -/
def run (rate len : Nat) : St → List Act → Option St
  | s, [] => some s
  | s, a :: as =>
    match step rate len s a with
    | some s' => run rate len s' as
    | none => none

/-- The loop begins: `buf` is zeroed, `syncing` is set. (playback/playback.go:104-113, 121-124) -/
def init (len : Nat) (volume : UInt64) (buffer : List (TS (UInt64 × UInt64))) : St :=
  ⟨volume, true, buffer, List.replicate len (0, 0), none, List.replicate (4 * len) 0, []⟩

end MS.VolumeTurn
