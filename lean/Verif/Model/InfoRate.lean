import Verif.Model.Infoer
/-!
# The infoer's own sample rate

The infoer does not learn the server's sample rate: it takes `--sample-rate` (cmd/music-sync-infoer/main.go:45-49). Here `Info` is modelled
with Go's integer division, which panics for the divisor zero; `none` is that panic. Rates are not negative, otherwise as in
`Verif.Model.Infoer`.
-/
namespace MS.InfoRate
open MS.Infoer

/-- Go: `x / y` for int64 values (cmd/music-sync-infoer/state.go:52, 56, 228); overflow is left out -/
def goDiv (x : Int) (y : Nat) : Option Int := if y = 0 then none else some (x.tdiv y)

/-- cmd/music-sync-infoer/state.go:223-229 `endTime`, `length` -/
def endTime? (rate : Nat) (c : Chunk) : Option Int := (goDiv ((c.size : Int) * second) rate).map (c.startTime + ·)

/-- cmd/music-sync-infoer/state.go:165-186 `removeOldChunks`: the end of a chunk is computed for each chunk looked at -/
def removeOldChunks? (rate : Nat) (now : Int) : List Chunk → Option (List Chunk)
  | [] => some []
  | c :: cs => match endTime? rate c with
    | none => none
    | some e => if now ≤ e then some (c :: cs) else removeOldChunks? rate now cs

/-- cmd/music-sync-infoer/state.go:41-69 `Info`; lines 52 and 56 are reached only inside a song that does not start at index 0 -/
def info? {σ : Type} (rate : Nat) (now : Int) (s : State σ) : Option (PlaybackInfo σ × State σ) :=
  match removeOldChunks? rate now s.chunks with
  | none => none
  | some chunks =>
    let sample := sampleAt rate now chunks
    let song := currentSong sample s.songs
    let start := songStart song
    let pauses := removeOldPauses start s.pauses
    let (paused, playing) := pausesInCurrentSong sample start pauses
    let inSong := sample - start - paused
    let len := songLen song
    let s' : State σ := { s with chunks := chunks, pauses := pauses }
    if start ≠ 0 ∧ (start : Int) < sample then
      match goDiv (inSong * second) rate, goDiv (len * second) rate with
      | some t, some l =>
        some (⟨song, sample, paused, playing, l, t, if 0 < len then some (inSong, len) else none⟩, s')
      | _, _ => none
    else
      some (⟨song, sample, paused, playing, 0, 0, none⟩, s')

end MS.InfoRate
