import Verif.Model.Streamer
/-!
# playback: QueueChunk, ReadChunks, CombineSamples

The goroutine running `ReadChunks` and any number of goroutines calling `QueueChunk`. Simplification: `Add` (a blocking
operation of the sample queue, property C01) is one step; the unlocked test `0 < len(tms.chunks)` is one step, chunks
are removed by this goroutine only; the streamer exists (before `Init`, chunks are dropped, playback/playback.go:51-54).
-/
namespace MS.ReadChunks
open MS.Streamer

/-- playback/streamer.go:109-114 `queuedChunk` (start time and samples; `none` is NaN). -/
structure Chunk (α : Type) where
  start : Int
  samples : List (Option α)
  deriving DecidableEq, Repr

/-- Where the `ReadChunks` goroutine is. (playback/streamer.go:81-97) -/
inductive Pc where
  | test            -- about to test `0 < len(tms.chunks)`, playback/streamer.go:83
  | lock            -- about to RLock, 84
  | adding (i : Nat) -- holding the read lock, about to Add sample i of the first chunk, 86-88
  | pop             -- read lock released, about to Lock and drop the first chunk, 90-92
  deriving DecidableEq, Repr

/-- The fields of timedMultiStreamer that ReadChunks and QueueChunk use, playback/streamer.go:18-26, 81-97 -/
structure St (α : Type) where
  rate : Nat
  chunks : List (Chunk α)
  pc : Pc
  adds : List (TS α)        -- the Add calls made, in order
  deriving DecidableEq, Repr

/-- The steps of the goroutines at playback/streamer.go:81-97, playback/playback.go:50-62 -/
inductive Act (α : Type) where
  | queue (c : Chunk α)     -- a whole QueueChunk call (its append is under the write lock), playback/playback.go:57-60
  | reader                  -- one step of ReadChunks
  deriving DecidableEq, Repr

/-- playback/playback.go:104-113 `initStreamer`. -/
def init {α : Type} (rate : Nat) : St α := { rate, chunks := [], pc := .test, adds := [] }

/-- One step; `none` when blocked on the lock (a writer waits for the reader's read lock). The reader's `panic` on an
empty slice (`tms.chunks[0]`, `tms.chunks[1:]`) is `none` as well; `C20_reader_never_stuck` shows it is not reachable.
(playback/streamer.go:81-97, playback/playback.go:50-62) -/
def step {α : Type} (s : St α) : Act α → Option (St α)
  | .queue c =>
    match s.pc with
    | .adding _ => none
    | _ => some { s with chunks := s.chunks ++ [c] }
  | .reader =>
    match s.pc with
    | .test => if 0 < s.chunks.length then some { s with pc := .lock } else some s
    | .lock => some { s with pc := .adding 0 }
    | .adding i =>
      match s.chunks with
      | [] => none
      | c :: _ =>
        if h : i < c.samples.length then
          some { s with adds := s.adds ++ [⟨c.samples[i], c.start + samplesDuration s.rate i⟩], pc := .adding (i + 1) }
        else some { s with pc := .pop }
    | .pop =>
      match s.chunks with
      | [] => none
      | _ :: cs => some { s with chunks := cs, pc := .test }

/-- A schedule. (playback/streamer.go:81-97) -/
def run {α : Type} (s : St α) : List (Act α) → Option (St α)
  | [] => some s
  | a :: as =>
    match step s a with
    | some s' => run s' as
    | none => none

/-- playback/playback.go:73, the pair at index `i` (`none` would be an index out of range). -/
def pairAt {α : Type} (low high : List α) (i : Nat) : Option (α × α) :=
  match low[i]?, high[i]? with
  | some l, some h => some (l, h)
  | _, _ => none

/-- playback/playback.go:66-76 `CombineSamples`. -/
def combineSamples {α : Type} (low high : List α) : List (α × α) :=
  let e := if high.length < low.length then high.length else low.length
  (List.range e).filterMap (pairAt low high)

end MS.ReadChunks
