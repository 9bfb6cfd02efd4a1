import Verif.Model.PlaylistEdit
/-!
# Slices in memory

The other modules treat Go slices as lists. Here a slice is what it is in Go: a place in an array that other slices may share,
a length and a capacity. `append` writes into the array if there is room and otherwise moves to a new array, which has any amount
of spare room (`grow`, chosen by the runtime). The operations of /repo that edit slices in place are modelled statement by
statement. Arrays are never freed.
-/
namespace MS.Slices
open MS

/-- All arrays; the address of an array is its position. (playback/playlist.go:17, schedule/server_state.go:23,
comm/message_sender.go:20, playback/streamer.go:20, cmd/music-sync-infoer/state.go:11-18) -/
abbrev Heap (α : Type) := List (List α)

/-- A slice value. (playback/playlist.go:17) -/
structure Slice where
  arr : Nat
  off : Nat
  len : Nat
  cap : Nat
  deriving DecidableEq, Repr

section ops
variable {α : Type}

/-- The array of a slice. (playback/playlist.go:17) -/
def array (h : Heap α) (s : Slice) : List α := h.getD s.arr []

/-- What a slice contains. (playback/playlist.go:156-162) -/
def content (h : Heap α) (s : Slice) : List α := ((array h s).drop s.off).take s.len

/-- `make([]T, n)` (playback/playlist.go:159) -/
def make (zero : α) (h : Heap α) (n : Nat) : Heap α × Slice := (h ++ [List.replicate n zero], ⟨h.length, 0, n, n⟩)

/-- `append(s, v)` (playback/playlist.go:168, 180, 182, schedule/server_state.go:104, comm/message_sender.go:60,
playback/playback.go:59) -/
def append (zero : α) (grow : Nat) (h : Heap α) (s : Slice) (v : α) : Heap α × Slice :=
  if s.len < s.cap then (h.modify s.arr (·.set (s.off + s.len) v), { s with len := s.len + 1 })
  else (h ++ [content h s ++ v :: List.replicate grow zero], ⟨h.length, 0, s.len + 1, s.len + 1 + grow⟩)

/-- `s[i:]` (playback/playlist.go:183, 206, schedule/server_state.go:137, playback/streamer.go:91) -/
def sliceFrom (s : Slice) (i : Nat) : Res Slice :=
  if s.len < i then .panic else .ok { s with off := s.off + i, len := s.len - i, cap := s.cap - i }

/-- `s[:n]` (playback/playlist.go:203, 208, schedule/server_state.go:141, comm/message_sender.go:77) -/
def sliceTo (s : Slice) (n : Nat) : Res Slice := if s.cap < n then .panic else .ok { s with len := n }

/-- `copy(dst, src)`: the elements of `src` are read before any is overwritten. (playback/playlist.go:160, 183, 206,
schedule/server_state.go:137) -/
def copy (h : Heap α) (dst src : Slice) : Heap α :=
  let n := min dst.len src.len
  h.modify dst.arr fun a => a.take dst.off ++ (content h src).take n ++ a.drop (dst.off + n)

/-- `s[i] = v` (playback/playlist.go:184, 207, schedule/server_state.go:139, comm/message_sender.go:76) -/
def set (h : Heap α) (s : Slice) (i : Int) (v : α) : Res (Heap α) :=
  if i < 0 ∨ (s.len : Int) ≤ i then .panic else .ok (h.modify s.arr (·.set (s.off + i.toNat) v))

/-- `s[i]` (playback/playlist.go:202, 205, comm/message_sender.go:76) -/
def get (h : Heap α) (s : Slice) (i : Int) : Res α := Playlist.goGet (content h s) i

end ops

/-! ## playback/playlist.go -/

/-- playback/playlist.go:165-169 `AddSong` -/
def addSong (h : Heap String) (songs : Slice) (song : String) (grow : Nat) : Heap String × Slice := append "" grow h songs song

/-- playback/playlist.go:156-162 `Songs` -/
def songs (h : Heap String) (songs : Slice) : Heap String × Slice :=
  let (h, r) := make "" h songs.len
  (copy h r songs, r)

/-- playback/playlist.go:173-186 `InsertSong` -/
def insertSong (h : Heap String) (songs : Slice) (song : String) (index : Int) (grow : Nat) : Res (Heap String × Slice) :=
  let index := if index < 0 then 0 else index
  if (songs.len : Int) < index then .ok (append "" grow h songs song)
  else
    let (h, songs) := append "" grow h songs ""
    (sliceFrom songs (index.toNat + 1)).bind fun dst =>
      (sliceFrom songs index.toNat).bind fun src =>
        (set (copy h dst src) songs index song).map fun h => (h, songs)

/-- playback/playlist.go:191-211 `RemoveSong` -/
def removeSong (h : Heap String) (songs : Slice) (index : Int) : Res (String × Heap String × Slice) :=
  if songs.len = 0 then .ok ("", h, songs)
  else
    let index := if index < 0 then 0 else index
    if (songs.len : Int) < index then
      (get h songs (songs.len - 1)).bind fun removed => (sliceTo songs (songs.len - 1)).map fun songs => (removed, h, songs)
    else
      (get h songs index).bind fun removed =>
        (sliceFrom songs index.toNat).bind fun dst =>
          (sliceFrom songs (index.toNat + 1)).bind fun src =>
            (set (copy h dst src) songs (songs.len - 1) "").bind fun h =>
              (sliceTo songs (songs.len - 1)).map fun songs => (removed, h, songs)

/-- What is done with a playlist and with the slices `Songs` has returned: element `i` of the `j`-th of them is overwritten.
(playback/playlist.go:156-211) -/
inductive Act where
  | add (song : String)
  | insert (song : String) (index : Int)
  | remove (index : Int)
  | songs
  | write (j i : Nat) (v : String)

/-- The arrays, the playlist's slice and the slices others hold. (playback/playlist.go:16-17, 156-162, 253-256) -/
structure St where
  heap : Heap String
  songs : Slice
  held : List Slice

/-- One action, with the spare room the runtime chooses if an array is replaced, and what is returned.
(playback/playlist.go:156-211) -/
def step (st : St) (grow : Nat) : Act → Res (St × List String)
  | .add song => .ok ({ st with heap := (addSong st.heap st.songs song grow).1, songs := (addSong st.heap st.songs song grow).2 }, [])
  | .insert song i => (insertSong st.heap st.songs song i grow).map fun r => ({ st with heap := r.1, songs := r.2 }, [])
  | .remove i => (removeSong st.heap st.songs i).map fun r => ({ st with heap := r.2.1, songs := r.2.2 }, [r.1])
  | .songs => .ok ({ st with heap := (songs st.heap st.songs).1, held := st.held ++ [(songs st.heap st.songs).2] }, [])
  | .write j i v =>
    match st.held[j]? with
    | none => .ok (st, [])
    | some t => (set st.heap t i v).map fun h => ({ st with heap := h }, [])

/-- Many actions, one after the other: all of them hold `songsMutex` (reading excludes writing).
(playback/playlist.go:156-211) -/
def run (st : St) : List (Act × Nat) → Res (St × List String)
  | [] => .ok (st, [])
  | (a, grow) :: as => (step st grow a).bind fun r => (run r.1 as).map fun r' => (r'.1, r.2 ++ r'.2)

/-! ## schedule/server_state.go:137-141, cmd/music-sync-infoer/state.go:126-130, 180-184: cutting off the front -/

/-- The loop that clears the last places: schedule/server_state.go:138-140, cmd/music-sync-infoer/state.go:127-129, 181-183.
`n` places, up to the end. -/
def clearLast {α : Type} (zero : α) (s : Slice) : Nat → Heap α → Res (Heap α)
  | 0, h => .ok h
  | n + 1, h => (set h s (s.len - (n + 1) : Int) zero).bind fun h => clearLast zero s n h

/-- schedule/server_state.go:137-141, cmd/music-sync-infoer/state.go:126-130, 180-184: the first `k` elements go -/
def cutFront {α : Type} (zero : α) (h : Heap α) (s : Slice) (k : Nat) : Res (Heap α × Slice) :=
  (sliceFrom s k).bind fun src =>
    (clearLast zero s k (copy h s src)).bind fun h => (sliceTo s (s.len - k)).map fun s => (h, s)

/-- `sort.Sort`: permutes the elements in place, `f` says how. (cmd/music-sync-infoer/infoer_package_handler.go:39-68) -/
def sortSlice {α : Type} (h : Heap α) (s : Slice) (f : List α → List α) : Heap α :=
  h.modify s.arr fun a => a.take s.off ++ f (content h s) ++ a.drop (s.off + s.len)

/-- What is done with the toggles of the server and the toggles and chunks of an infoer.
(schedule/server_state.go:101-143, cmd/music-sync-infoer/infoer_package_handler.go:39-68,
cmd/music-sync-infoer/state.go:115-132, 165-186) -/
inductive Op (α : Type) where
  | append (v : α) (grow : Nat)
  | cut (k : Nat)
  | sort (f : List α → List α)

/-- One of these. (schedule/server_state.go:104, 137-141, cmd/music-sync-infoer/infoer_package_handler.go:39-68) -/
def opStep {α : Type} (zero : α) (st : Heap α × Slice) : Op α → Res (Heap α × Slice)
  | .append v grow => .ok (append zero grow st.1 st.2 v)
  | .cut k => cutFront zero st.1 st.2 k
  | .sort f => .ok (sortSlice st.1 st.2 f, st.2)

/-- A history of these. (schedule/server_state.go:104, 137-141, cmd/music-sync-infoer/infoer_package_handler.go:39-68) -/
def opRun {α : Type} (zero : α) (st : Heap α × Slice) : List (Op α) → Res (Heap α × Slice)
  | [] => .ok st
  | o :: os => (opStep zero st o).bind fun st => opRun zero st os

/-! ## playback/playback.go:50-64, playback/streamer.go:81-97: the chunks of a player -/

/-- What is done with the chunks of a player: `QueueChunk` appends, `ReadChunks` goes on to the next.
(playback/playback.go:57-60, playback/streamer.go:89-92) -/
inductive ChunkOp (α : Type) where
  | queue (c : α) (grow : Nat)
  | next

/-- One of these; `next` only happens if there is a chunk. (playback/playback.go:57-60, playback/streamer.go:83-92) -/
def chunkStep {α : Type} (zero : α) (st : Heap α × Slice) : ChunkOp α → Heap α × Slice
  | .queue c grow => append zero grow st.1 st.2 c
  | .next =>
    if 0 < st.2.len then
      match sliceFrom st.2 1 with
      | .ok s => (st.1, s)
      | .panic => st
    else st

/-! ## comm/message_sender.go -/

/-- comm/message_sender.go:63-79 `DelConn`; `index` is what the loop at 67-73 found. -/
def delConn (h : Heap Nat) (s : Slice) (c : Nat) : Res (Heap Nat × Slice) :=
  match (content h s).findIdx? (· == c) with
  | none => .ok (h, s)
  | some index =>
    (get h s (s.len - 1)).bind fun last =>
      (set h s index last).bind fun h => (sliceTo s (s.len - 1)).map fun s => (h, s)

end MS.Slices
