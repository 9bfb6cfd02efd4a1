import Verif.Model.GoBase
/-!
# playback/playlist.go: the editing operations

`songs` is the Go slice as a list. Every operation runs under `songsMutex`, so it is one atomic step. Arrays and
aliasing are in `Verif.Model.Slices`.
-/
namespace MS.Playlist

/-- Go `copy(l[dst:], l[src:])` on one backing array (memmove semantics). The slice expressions panic when their
bound exceeds the length. Used at playback/playlist.go:183 and 206. -/
def goCopy {α : Type} (l : List α) (dst src : Nat) : Res (List α) :=
  if l.length < dst ∨ l.length < src then .panic
  else
    let n := min (l.length - dst) (l.length - src)
    .ok (l.take dst ++ (l.drop src).take n ++ l.drop (dst + n))

/-- Go `l[i] = v` with the bounds check. (playback/playlist.go:184, 207) -/
def goSet {α : Type} (l : List α) (i : Int) (v : α) : Res (List α) :=
  if i < 0 ∨ (l.length : Int) ≤ i then .panic else .ok (l.set i.toNat v)

/-- Go `l[i]` with the bounds check. (playback/playlist.go:202, 205) -/
def goGet {α : Type} (l : List α) (i : Int) : Res α :=
  if i < 0 then .panic
  else match l[i.toNat]? with
    | some v => .ok v
    | none => .panic

/-- playback/playlist.go:165-169 `AddSong`. -/
def addSong (songs : List String) (song : String) : List String := songs ++ [song]

/-- playback/playlist.go:156-162 `Songs`. -/
def getSongs (songs : List String) : List String := songs

/-- playback/playlist.go:173-186 `InsertSong`. -/
def insertSong (songs : List String) (song : String) (index : Int) : Res (List String) :=
  let index := if index < 0 then 0 else index
  if (songs.length : Int) < index then .ok (songs ++ [song])
  else
    let grown := songs ++ [""]
    (goCopy grown (index.toNat + 1) index.toNat).bind fun moved => goSet moved index song

/-- playback/playlist.go:191-211 `RemoveSong`: the removed song and the new list. -/
def removeSong (songs : List String) (index : Int) : Res (String × List String) :=
  if songs.length = 0 then .ok ("", songs)
  else
    let index := if index < 0 then 0 else index
    if (songs.length : Int) < index then
      (goGet songs (songs.length - 1)).map fun removed => (removed, songs.take (songs.length - 1))
    else
      (goGet songs index).bind fun removed =>
        (goCopy songs index.toNat (index.toNat + 1)).bind fun moved =>
          (goSet moved (moved.length - 1) "").map fun cleared => (removed, cleared.take (cleared.length - 1))

end MS.Playlist
