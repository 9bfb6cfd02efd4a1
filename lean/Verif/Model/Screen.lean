import Verif.Model.Display
import Verif.Model.SongInfo
import Verif.Model.ProgressBar
import Verif.Model.VolumeLine
/-!
# cmd/music-sync-infoer/main.go: one redraw of the infoer

From the state of the infoer to the cells of the window. Texts arrive as UTF-8 (comm/packages.proto; other texts are not
delivered, C54) and are drawn by `range` over the string, which decodes it.
-/
namespace MS.Screen
open MS.Proto

/-- The string constant or variable with these runes, in bytes. (cmd/music-sync-infoer/drawing.go:32) -/
def enc (cs : List Char) : Bytes := cs.flatMap String.utf8EncodeChar

/-- cmd/music-sync-infoer/state.go:209-215 without start and length, texts in runes -/
structure Desc where
  filename : List Char
  title : List Char
  artist : List Char
  album : List Char
  lyrics : List Display.Line

/-- The fields of the song the infoer stores for a message (infoer_package_handler.go:38-44), in runes. -/
structure Stored (s : SongInfo.Song) (d : Desc) : Prop where
  filename : s.filename = enc d.filename
  title : s.tags.title = enc d.title
  artist : s.tags.artist = enc d.artist
  album : s.tags.album = enc d.album
  lyrics : s.lyrics.map (fun l => l.map fun w => (w.timestamp.toInt, w.caption)) =
    d.lyrics.map (fun l => l.map fun a => (a.timestamp, enc a.caption))

/-- cmd/music-sync-infoer/state.go:138: the song of `currentSong` if there is none -/
def noSong : Desc := ⟨"None".toList, [], [], [], []⟩

/-- main.go:114-116 and state.go:58-68: what is drawn of the information; `volume` is the bit pattern of `Volume`
(state.go:65). -/
def viewOf (i : Infoer.PlaybackInfo Desc) (volume : UInt64) : Display.View :=
  let d := match i.song with
    | some s => s.desc
    | none => noSong
  { title := d.title, artist := d.artist, album := d.album, filename := d.filename, lyrics := d.lyrics,
    timeInSong := i.timeInSong, songLength := i.songLength, playing := i.playing,
    volumeLine := Float64.volumeLine volume, progress := Float64.barValue i.progress }

/-- main.go:111-119 `redraw` at the synced time `now`, in a window of `w` columns and `h` rows; `size` is the flag
--lyrics-history-size -/
def screen (rate size : Nat) (w h now : Int) (s : Infoer.State Desc) (volume : UInt64) : List Display.Write :=
  Display.redraw size w h (viewOf (Infoer.info rate now s).1 volume)

end MS.Screen
