import Verif.Model.StreamMusic
import Verif.Model.ReadChunks
/-!
# From the server's sample channels to the player's chunk list

The glue between `MS.StreamLoop` (what the server streams), `MS.Fill` and `MS.StreamMusic` (chunks), and `MS.ReadChunks` (the
player). A float64 is `Option β`, `none` is NaN. The audio messages arrive as they were sent (C23, C24, C55).
-/
namespace MS.Pipeline

variable {β : Type}

/-- playback/playlist.go:108-130 `pushNanSamples`, `pushBuffer`, `pushSample`: the two values pushed for one sample of the stream
(`none` is the marker). -/
def pushed (o : Option (β × β)) : Option β × Option β :=
  match o with
  | some (l, h) => (some l, some h)
  | none => (none, none)

/-- playback/streamer.go:51 and 61: `math.IsNaN(s[0])` makes a sample a marker. -/
def heard (s : Option β × Option β) : Option (β × Option β) :=
  match s with
  | (some l, h) => some (l, h)
  | (none, _) => none

/-- cmd/music-sync-player/main.go:66-68 `HandleQueueChunkRequest` with playback/playback.go:50-64 `QueueChunk`: the chunk that is
appended for a message. -/
def received (q : MS.StreamMusic.QueueChunk (Option β)) : MS.ReadChunks.Chunk (β × Option β) :=
  ⟨q.startTime, (MS.ReadChunks.combineSamples q.low q.high).map heard⟩

end MS.Pipeline
