/-!
# Specification vocabulary for the sample stream (no model definitions used)

A stream is a list of samples: `some a` is audio, `none` is the NaN marker/silence.
-/
namespace MS.Spec

/-- The audio in a piece of the stream, in order. -/
def audio {α : Type} (l : List (Option α)) : List α := l.filterMap id

/-- How a stream decomposes along the new-song announcements, read newest first. `songOf name` are the samples of a
song; `cuts` are the numbers of announcements after which a jump took effect; `ended` says the newest announced song
is over. The part of the stream from the newest announcement on holds, besides NaNs, a prefix of that song's samples
- all of them if the song is over and no jump cut it; the part before it decomposes along the older announcements;
before the first announcement there is no audio. -/
def Explained {α : Type} (songOf : String → Option (List α)) (cuts : List Nat) :
    Bool → List (Nat × String × Nat) → List (Option α) → Prop
  | _, [], out => audio out = []
  | ended, (k, name, len) :: older, out =>
    k ≤ out.length ∧ Explained songOf cuts true older (out.take k) ∧
    ∃ l, songOf name = some l ∧ len = l.length ∧ audio (out.drop k) <+: l ∧
      (ended = true → older.length + 1 ∉ cuts → audio (out.drop k) = l)

/-- Whether playback is on at sample index `j` according to the pause announcements `(playing, index)`: the last
announcement at or before `j` decides; without one it is on. -/
def playingAt (pauses : List (Bool × Nat)) (j : Nat) : Bool :=
  match (pauses.filter (fun p => p.2 ≤ j)).getLast? with
  | some p => p.1
  | none => true

end MS.Spec
