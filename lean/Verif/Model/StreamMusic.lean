import Verif.Model.Fill
/-!
# schedule/server_state.go: streamMusic, and the schedule variables set by the server's main

Simplification: 64 bit arithmetic does not wrap (chunk sizes below 9*10^9 samples). Both messages are handed to the
sender in goroutines of their own; the model gives the messages, not their order on the wire.
-/
namespace MS.StreamMusic

/-- cmd/music-sync-server/main.go:63 `StreamChunkTime` in nanoseconds. -/
def chunkTime (chunkSize sampleRate : Int) : Int := (chunkSize * 1000000000).tdiv sampleRate

/-- The fields of comm.QueueChunkRequest set at schedule/server_state.go:155-161. -/
structure QueueChunk (α : Type) where
  startTime : Int
  chunkId : Int
  low : List α
  high : List α
  firstSampleIndex : Nat
  deriving DecidableEq, Repr

/-- The fields of comm.ChunkInfo set at schedule/server_state.go:162-166. -/
structure ChunkInfo where
  startTime : Int
  firstSampleIndex : Nat
  chunkSize : Nat
  deriving DecidableEq, Repr

/-- schedule/server_state.go:149-168, the loop body from loop counter `index` on; the list holds the results of the
successive `Fill` calls. -/
def messagesFrom {α : Type} (start : Int) (time : Int) (size : Nat) (index : Int) :
    List (Nat × List α × List α) → List (QueueChunk α × ChunkInfo)
  | [] => []
  | (first, low, high) :: rest =>
    (⟨start + index * time, index, low, high, first⟩, ⟨start + index * time, first, size⟩) ::
      messagesFrom start time size (index + 1) rest

/-- schedule/server_state.go:145-169 `streamMusic`: `now` is the synced time after the start delay. -/
def messages {α : Type} (now streamDelay : Int) (size rate : Nat) (fills : List (Nat × List α × List α)) :
    List (QueueChunk α × ChunkInfo) :=
  messagesFrom (now + streamDelay) (chunkTime size rate) size 0 fills

end MS.StreamMusic
