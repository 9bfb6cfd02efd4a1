import Verif.Model.Float64
import Verif.Model.Pipeline
import Verif.Model.Wire
/-!
# The sound path in bits: from the values pushed by the server's loop to the bytes written to the sound device

The same code as `MS.Pipeline`, `MS.StreamMusic`, `MS.ReadChunks` and `MS.Streamer`, here with float64 values as the 64 bit
patterns that travel in the messages, and with the conversion to 16 bit in the player's loop.
-/
namespace MS.SoundPath
open MS.Proto MS.Float64
open MS.Streamer (TS)

/-- `math.NaN()`, pushed for a sample without sound. (playback/playlist.go:108-112, 120-124) -/
def nanBits : UInt64 := 0x7FF8000000000001

/-- playback/playlist.go:108-130: the two values pushed for one sample of the stream: the decoder's float64 values of the two
levels of the recording (`bits` is the decoder's conversion), or NaN twice. The loop does not look at the values, so the
conversion is applied here instead of in the decoder. -/
def pushedBits (bits : Int → UInt64) (o : Option (Int × Int)) : UInt64 × UInt64 :=
  match o with
  | some (l, h) => (bits l, bits h)
  | none => (nanBits, nanBits)

/-- schedule/server_state.go:155-161: the message sent for a chunk. `int64` and `uint64` values wrap. -/
def chunkRequest (q : MS.StreamMusic.QueueChunk UInt64) : QueueChunkRequest :=
  { startTime := Int64.ofInt q.startTime, chunkId := Int64.ofInt q.chunkId, sampleLow := q.low, sampleHigh := q.high,
    firstSampleIndex := UInt64.ofNat q.firstSampleIndex }

/-- `math.IsNaN` (playback/streamer.go:51, 61) -/
def isNaN (b : UInt64) : Bool :=
  match ofBits b with
  | .nan => true
  | _ => false

/-- cmd/music-sync-player/main.go:66-68 `HandleQueueChunkRequest` with playback/playback.go:50-64: the chunk queued for a message.
A sample whose first value is NaN is a marker. -/
def queued (m : QueueChunkRequest) : MS.ReadChunks.Chunk (UInt64 × UInt64) :=
  ⟨m.startTime.toInt, (MS.ReadChunks.combineSamples m.sampleLow m.sampleHigh).map (fun s => if isNaN s.1 then none else some s)⟩

/-- comm/package_handler.go:68-69: the audio chunks among the messages received. -/
def asChunk : Msg → Option QueueChunkRequest
  | .queueChunkRequest m => some m
  | _ => none

/-- `beep.Silence(-1)` writes zeros. (playback/streamer.go:66, 70; playback/playback.go:108) -/
def written (o : Option (UInt64 × UInt64)) : UInt64 × UInt64 :=
  match o with
  | some s => s
  | none => (0, 0)

/-- playback/playback.go:121-131 `playLoop`: each turn streams `len` samples at clock time `now`, converts them into the same
buffer `buf`, and writes it to the sound device. `volumes k` are the volumes read while the `k`-th buffer is converted. The
result are all bytes written. -/
def device (rate len : Nat) (volumes : Nat → Nat → UInt64) : Nat → List Int → (syncing : Bool) → List (TS (UInt64 × UInt64)) →
    List Int → Option (List Int)
  | _, [], _, _, _ => some []
  | k, now :: nows, sy, q, buf =>
    match MS.Streamer.stream rate len now sy q with
    | none => none
    | some (out, sy', q') =>
      let buf' := audioBufFrom (volumes k) 0 (out.map written) buf
      match device rate len volumes (k + 1) nows sy' q' buf' with
      | none => none
      | some more => some (buf' ++ more)

end MS.SoundPath
