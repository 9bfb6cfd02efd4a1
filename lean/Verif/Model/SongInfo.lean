import Verif.Model.Wire
import Verif.Model.Infoer
/-!
# Announcing a song: from the files next to it to the infoer's list

metadata/lyrics_provider.go, metadata/metadata_provider.go, schedule/server_state.go, infoer_package_handler.go. Strings
are bytes. Reading tags (dhowden/tag) and decoding JSON are arbitrary functions; `Json.lyricsFile` is the latter.
-/
namespace MS.SongInfo
open MS.Proto MS.Wire

/-- metadata/lyrics_provider.go:12-15 `LyricsAtom` -/
structure Word where
  timestamp : Int64
  caption : Bytes
  deriving DecidableEq, Repr

/-- metadata/lyrics_provider.go:18; a nil line and an empty one are the same here -/
abbrev Lyrics := List (List Word)

/-- metadata/metadata_provider.go:17-21 `SongMetadata` -/
structure Tags where
  title : Bytes
  artist : Bytes
  album : Bytes
  deriving DecidableEq, Repr

/-- What is known of a song: on the server the arguments of the song handler and what is collected, on the infoer
`upcomingSong` (cmd/music-sync-infoer/state.go:209-215). -/
structure Song where
  filename : Bytes
  start : UInt64
  length : Int64
  lyrics : Lyrics
  tags : Tags
  deriving DecidableEq, Repr

/-- The file system and libraries: the content of the regular file at a path (none: no such file or it cannot be opened),
`filepath.Join`, the JSON decoder for lyrics and the tag reader.
(metadata/lyrics_provider.go:32-48, metadata/metadata_provider.go:30-48) -/
structure Env where
  file : Bytes → Option Bytes
  join : Bytes → Bytes → Bytes
  json : Bytes → Option Lyrics
  tags : Bytes → Option Tags
  audioDir : Bytes

/-- metadata/lyrics_provider.go:32-48 `CollectLyrics`; ".json" in bytes -/
def collectLyrics (env : Env) (song : Bytes) : Lyrics :=
  match env.file (env.join env.audioDir (song ++ [46, 106, 115, 111, 110])) with
  | none => []
  | some c =>
    match env.json c with
    | none => []
    | some l => l

/-- metadata/metadata_provider.go:30-48 `CollectMetadata` -/
def collectTags (env : Env) (song : Bytes) : Tags :=
  match env.file (env.join env.audioDir song) with
  | none => ⟨[], [], []⟩
  | some c =>
    match env.tags c with
    | none => ⟨[], [], []⟩
    | some t => ⟨t.title, t.artist, t.album⟩

/-- schedule/server_state.go:58-71 `toWireLyrics`: both loops fill the places of a slice of the right length in order -/
def toWireLyrics (lyrics : Lyrics) : List Line :=
  lyrics.map fun l => { atoms := l.map fun a => { timestamp := a.timestamp, caption := a.caption } }

/-- schedule/server_state.go:73-93 `createNewSongHandler`: the message that is stored and sent -/
def newSong (env : Env) (start : UInt64) (filename : Bytes) (songLength : Int64) : NewSongInfo :=
  let wireLyrics := toWireLyrics (collectLyrics env filename)
  let md := collectTags env filename
  { firstSampleOfSongIndex := start, songFileName := filename, songLength := songLength, lyrics := wireLyrics,
    metadata := some { title := md.title, artist := md.artist, album := md.album } }

/-- infoer_package_handler.go:24-44: the song that is appended for a message -/
def received (m : NewSongInfo) : Song :=
  let md : Tags := match m.metadata with
    | some md => ⟨md.title, md.artist, md.album⟩
    | none => ⟨[], [], []⟩
  { filename := m.songFileName, start := m.firstSampleOfSongIndex, length := m.songLength,
    lyrics := m.lyrics.map fun l => l.atoms.map fun a => ⟨a.timestamp, a.caption⟩, tags := md }

/-- The infoer's song list after handling the messages of a connection in some order (each is handled by its own goroutine,
comm/package_handler.go:79, under the lock of the list); `sort.Sort` gives any sorted permutation. Messages of other types leave
the list. -/
inductive Handled : List Song → List Msg → List Song → Prop
  | nil (l : List Song) : Handled l [] l
  | song {l l' l'' : List Song} {m : NewSongInfo} {ms : List Msg}
      (h : Infoer.SortedBy (fun s : Song => s.start.toNat) (l ++ [received m]) l') (hs : Handled l' ms l'') :
      Handled l (.newSongInfo m :: ms) l''
  | other {l l' : List Song} {m : Msg} {ms : List Msg} (h : ∀ n, m ≠ .newSongInfo n) (hs : Handled l ms l') :
      Handled l (m :: ms) l'

end MS.SongInfo
