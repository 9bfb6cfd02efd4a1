/-!
# cmd/music-sync-infoer/state.go and infoer_package_handler.go: the state of the infoer

Indices and times are unbounded integers: sample indices (Go: uint64) are assumed below 2^63 and products of times with
the sample rate inside int64. `uint64(sample)` of a negative sample is modelled (`u64`). `sort.Sort` is not stable: its
result is any sorted permutation, so the handlers are relations. Locks: every handler and every pass of `Info` over one
of the lists holds that list's lock, so each is one step. Volume is an opaque value.
-/
set_option linter.unusedVariables false
namespace MS.Infoer

/-- state.go:231-234 -/
structure Toggle where
  playing : Bool
  toggleIndex : Nat
  deriving DecidableEq, Repr

/-- state.go:217-221 -/
structure Chunk where
  startTime : Int
  startIndex : Nat
  size : Nat
  deriving DecidableEq, Repr

/-- state.go:209-215; name, lyrics and metadata as one opaque value -/
structure Song (σ : Type) where
  desc : σ
  startIndex : Nat
  length : Int
  deriving DecidableEq, Repr

/-- state.go:10-21 -/
structure State (σ : Type) where
  songs : List (Song σ)
  chunks : List Chunk
  pauses : List Toggle

/-- One second in nanoseconds. (cmd/music-sync-infoer/state.go:52) -/
def second : Int := 1000000000

/-- Go: uint64(x) for an int64 x (cmd/music-sync-infoer/state.go:149-163) -/
def u64 (x : Int) : Nat := (x % 18446744073709551616).toNat

/-- state.go:227-229 `length` -/
def Chunk.len (rate : Nat) (c : Chunk) : Int := ((c.size : Int) * second).tdiv rate

/-- state.go:223-225 `endTime` -/
def Chunk.endTime (rate : Nat) (c : Chunk) : Int := c.startTime + c.len rate

/-- `l` is a possible result of sorting `l0` with sort.Sort by `key`. (cmd/music-sync-infoer/state.go:23-39) -/
def SortedBy {α : Type} (key : α → Nat) (l0 l : List α) : Prop :=
  l.Perm l0 ∧ l.Pairwise (fun a b => key a ≤ key b)

/-- infoer_package_handler.go:21-47 -/
def HandleSong {σ : Type} (s : State σ) (m : Song σ) (s' : State σ) : Prop :=
  SortedBy Song.startIndex (s.songs ++ [m]) s'.songs ∧ s'.chunks = s.chunks ∧ s'.pauses = s.pauses

/-- infoer_package_handler.go:49-58 -/
def HandleChunk {σ : Type} (s : State σ) (m : Chunk) (s' : State σ) : Prop :=
  SortedBy Chunk.startIndex (s.chunks ++ [m]) s'.chunks ∧ s'.songs = s.songs ∧ s'.pauses = s.pauses

/-- infoer_package_handler.go:60-68 -/
def HandlePause {σ : Type} (s : State σ) (m : Toggle) (s' : State σ) : Prop :=
  SortedBy Toggle.toggleIndex (s.pauses ++ [m]) s'.pauses ∧ s'.songs = s.songs ∧ s'.chunks = s.chunks

/-- state.go:165-186 `removeOldChunks`: the leading chunks that have ended are cut off. -/
def removeOldChunks (rate : Nat) (now : Int) : List Chunk → List Chunk
  | [] => []
  | c :: cs => if now ≤ c.endTime rate then c :: cs else removeOldChunks rate now cs

/-- state.go:149-163 `currentSample` after the removal -/
def sampleAt (rate : Nat) (now : Int) : List Chunk → Int
  | [] => 0
  | c :: _ => c.startIndex + ((now - c.startTime) * rate).tdiv second

/-- state.go:134-147 `currentSong`: the loop runs from the last song down. `none` is the song "None" (start 0,
length 0). -/
def currentSong {σ : Type} (sample : Int) (songs : List (Song σ)) : Option (Song σ) :=
  songs.reverse.find? (fun s => decide ((s.startIndex : Int) < sample))

/-- The start index of the result of `currentSong`. (cmd/music-sync-infoer/state.go:50-51) -/
def songStart {σ : Type} : Option (Song σ) → Nat
  | some s => s.startIndex
  | none => 0

/-- The length of the result of `currentSong`. (cmd/music-sync-infoer/state.go:53-56) -/
def songLen {σ : Type} : Option (Song σ) → Int
  | some s => s.length
  | none => 0

/-- state.go:71-75 -/
structure Picss where
  playing : Bool
  paused : Int
  pauseBegin : Int
  deriving DecidableEq, Repr

/-- state.go:77-97 `handlePause` -/
def handlePause (sample : Int) (startIndex : Nat) (st : Picss) (p : Toggle) : Picss :=
  if u64 sample ≤ p.toggleIndex ∨ st.playing = p.playing then st
  else
    let st1 : Picss :=
      if p.playing then { st with paused := st.paused + ((p.toggleIndex : Int) - st.pauseBegin) }
      else { st with pauseBegin := p.toggleIndex }
    let st2 : Picss :=
      if p.toggleIndex < startIndex then
        if p.playing then { st1 with paused := 0 }
        else { st1 with paused := (p.toggleIndex : Int) - startIndex }
      else st1
    { st2 with playing := p.playing }

/-- state.go:99-113 `pausesInCurrentSong` -/
def pausesInCurrentSong (sample : Int) (startIndex : Nat) (pauses : List Toggle) : Int × Bool :=
  let st := pauses.foldl (handlePause sample startIndex) ⟨true, 0, 0⟩
  if st.playing then (st.paused, st.playing) else (st.paused + (sample - st.pauseBegin), st.playing)

/-- state.go:120-125: the index (in the list, starting at `i`) of the last resume before the song's start, else `acc` -/
def lastResume (startIndex : Nat) : Nat → Nat → List Toggle → Nat
  | _, acc, [] => acc
  | i, acc, p :: ps => lastResume startIndex (i + 1) (if p.playing ∧ p.toggleIndex < startIndex then i else acc) ps

/-- state.go:115-132 `removeOldPauses` -/
def removeOldPauses (startIndex : Nat) (pauses : List Toggle) : List Toggle :=
  pauses.drop (lastResume startIndex 0 0 pauses)

/-- state.go:188-198, the fields computed by `Info`. `progress`: numerator and denominator of the fraction (Go computes
it in floating point). -/
structure PlaybackInfo (σ : Type) where
  song : Option (Song σ)
  sample : Int
  pausesInSong : Int
  playing : Bool
  songLength : Int
  timeInSong : Int
  progress : Option (Int × Int)
  deriving DecidableEq, Repr

/-- state.go:41-69 `Info`: the displayed information and the pruned state. -/
def info {σ : Type} (rate : Nat) (now : Int) (s : State σ) : PlaybackInfo σ × State σ :=
  let chunks := removeOldChunks rate now s.chunks
  let sample := sampleAt rate now chunks
  let song := currentSong sample s.songs
  let start := songStart song
  let pauses := removeOldPauses start s.pauses
  let (paused, playing) := pausesInCurrentSong sample start pauses
  let inSong := sample - start - paused
  let len := songLen song
  let pi : PlaybackInfo σ :=
    if start ≠ 0 ∧ (start : Int) < sample then
      { song := song, sample := sample, pausesInSong := paused, playing := playing,
        songLength := (len * second).tdiv rate, timeInSong := (inSong * second).tdiv rate,
        progress := if 0 < len then some (inSong, len) else none }
    else
      { song := song, sample := sample, pausesInSong := paused, playing := playing, songLength := 0, timeInSong := 0,
        progress := none }
  (pi, { s with chunks := chunks, pauses := pauses })

end MS.Infoer
