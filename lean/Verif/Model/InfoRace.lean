import Verif.Model.Infoer
/-!
# cmd/music-sync-infoer/state.go: `Info` while messages arrive

`Info` takes and releases the locks of the three lists five times; every message received is handled in a goroutine of
its own (comm/package_handler.go:61-86), which can get a lock in between. `Info` itself is called by the redraw loop
only (main.go:100-119), so two calls never overlap. Each stretch with a lock held is one step.
-/
namespace MS.InfoRace
open MS.Infoer

/-- A message that changes one of the lists: infoer_package_handler.go:20-68 -/
inductive Msg (σ : Type) where
  | song (m : Song σ)
  | chunk (m : Chunk)
  | pause (m : Toggle)

/-- One message is handled: infoer_package_handler.go:20-47, 49-58, 60-68 -/
inductive Handle {σ : Type} : State σ → Msg σ → State σ → Prop
  | song {s m s'} (h : HandleSong s m s') : Handle s (.song m) s'
  | chunk {s m s'} (h : HandleChunk s m s') : Handle s (.chunk m) s'
  | pause {s m s'} (h : HandlePause s m s') : Handle s (.pause m) s'

/-- Several messages are handled, one after the other: infoer_package_handler.go:20-68 -/
inductive Arrive {σ : Type} : State σ → List (Msg σ) → State σ → Prop
  | nil (s) : Arrive s [] s
  | cons {s m s1 ms s2} (h : Handle s m s1) (r : Arrive s1 ms s2) : Arrive s (m :: ms) s2

/-- Handling of a message, or a call of `Info` at the clock reading `now` during which messages are handled: `m0` between
removing old chunks (state.go:165-186) and reading the position (154-160), `m1` before the songs are looked through
(134-147), `m2` before old toggles are removed (115-132), `m3` before the toggles are counted (99-113). -/
inductive Event (σ : Type) where
  | msg (m : Msg σ)
  | info (now : Int) (m0 m1 m2 m3 : List (Msg σ))

/-- `removeOldChunks` on the state: state.go:165-186 -/
def cutChunks {σ : Type} (rate : Nat) (now : Int) (s : State σ) : State σ :=
  { s with chunks := removeOldChunks rate now s.chunks }

/-- `removeOldPauses` on the state: state.go:115-132 -/
def cutPauses {σ : Type} (start : Nat) (s : State σ) : State σ :=
  { s with pauses := removeOldPauses start s.pauses }

/-- What `Info` returns, from what its passes have read. (cmd/music-sync-infoer/state.go:47-68) -/
def result {σ : Type} (rate : Nat) (sample : Int) (song : Option (Song σ)) (pp : Int × Bool) : PlaybackInfo σ :=
  let start := songStart song
  let inSong := sample - start - pp.1
  if start ≠ 0 ∧ (start : Int) < sample then
    { song := song, sample := sample, pausesInSong := pp.1, playing := pp.2,
      songLength := (songLen song * second).tdiv rate, timeInSong := (inSong * second).tdiv rate,
      progress := if 0 < songLen song then some (inSong, songLen song) else none }
  else
    { song := song, sample := sample, pausesInSong := pp.1, playing := pp.2, songLength := 0, timeInSong := 0,
      progress := none }

/-- The program: state.go:41-69 with the passes it calls (99-186), and the handlers. -/
inductive Exec {σ : Type} (rate : Nat) : State σ → List (Event σ) → List (PlaybackInfo σ) → State σ → Prop
  | nil (s) : Exec rate s [] [] s
  | msg {s m s1 evs outs s2} (h : Handle s m s1) (r : Exec rate s1 evs outs s2) : Exec rate s (.msg m :: evs) outs s2
  | info {s now m0 m1 m2 m3 s1 s2 s3 s4 evs outs s5}
      (h0 : Arrive (cutChunks rate now s) m0 s1)
      (h1 : Arrive s1 m1 s2)
      (h2 : Arrive s2 m2 s3)
      (h3 : Arrive (cutPauses (songStart (currentSong (sampleAt rate now s1.chunks) s2.songs)) s3) m3 s4)
      (r : Exec rate s4 evs outs s5) :
      Exec rate s (.info now m0 m1 m2 m3 :: evs)
        (result rate (sampleAt rate now s1.chunks) (currentSong (sampleAt rate now s1.chunks) s2.songs)
          (pausesInCurrentSong (sampleAt rate now s1.chunks)
            (songStart (currentSong (sampleAt rate now s1.chunks) s2.songs)) s4.pauses) :: outs) s5

end MS.InfoRace
