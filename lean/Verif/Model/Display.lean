import Verif.Model.Fmt
import Verif.Model.Infoer
/-!
# cmd/music-sync-infoer/main.go and drawing.go: what the infoer shows

The screen is the list of `SetContent` calls since the last `Clear`; a cell shows the rune of the last call for it (tcell
drops calls outside the window; wide and combining characters are not modelled). Positions are unbounded integers.
Strings are lists of runes; `len` of a string is its number of UTF-8 bytes.
-/
namespace MS.Display

/-! ## Lyrics -/

/-- metadata/lyrics_provider.go:12-15 -/
structure Atom where
  timestamp : Int
  caption : List Char
  deriving DecidableEq, Repr

/-- metadata/lyrics_provider.go:18 -/
abbrev Line := List Atom

/-- main.go:185, 199: `int64(timeInSong/time.Millisecond)` -/
def millis (timeInSong : Int) : Int := timeInSong.tdiv 1000000

/-- main.go:181-190 `lyricsNextLine` -/
def nextLine (ms : Int) : List Line → Nat
  | [] => 0
  | l :: ls =>
    match l with
    | a :: _ => if ms < a.timestamp then 0 else nextLine ms ls + 1
    | [] => nextLine ms ls + 1

/-- main.go:197-203: the loop of `lyricsBuildLine` -/
def buildWords (ms : Int) : Line → List Char → List Char
  | [], line => line
  | a :: as, line => buildWords ms as (if a.timestamp < ms + 100 then line ++ a.caption else line)

/-- main.go:192-204 `lyricsBuildLine` -/
def buildLine (index : Int) (lyrics : List Line) (timeInSong : Int) : List Char :=
  if index < 0 ∨ (lyrics.length : Int) ≤ index then []
  else buildWords (millis timeInSong) (lyrics.getD index.toNat []) []

/-- main.go:166-179 `lyricsHistory` -/
def history (height : Nat) (lyrics : List Line) (timeInSong : Int) : List (List Char) :=
  if 0 < lyrics.length then
    (List.range height).map fun (i : Nat) => buildLine ((nextLine (millis timeInSong) lyrics : Int) - i - 1) lyrics timeInSong
  else List.replicate height []

/-! ## Durations -/

/-- `%d` (cmd/music-sync-infoer/main.go:84-89) -/
def decI (x : Int) : List Char := if x < 0 then '-' :: Fmt.dec x.natAbs else Fmt.dec x.natAbs
/-- `%02d` (the sign counts towards the width) (cmd/music-sync-infoer/main.go:84-89) -/
def dec02I (x : Int) : List Char := if x < 0 then '-' :: Fmt.dec0 1 x.natAbs else Fmt.dec0 2 x.natAbs

/-- time.Hour in nanoseconds, cmd/music-sync-infoer/main.go:84-89 -/
def hour : Int := 3600000000000
/-- time.Minute in nanoseconds, cmd/music-sync-infoer/main.go:84-89 -/
def minute : Int := 60000000000
/-- time.Second in nanoseconds, cmd/music-sync-infoer/main.go:84-89 -/
def second : Int := 1000000000

/-- main.go:84-89 `fmtDuration` -/
def fmtDuration (d : Int) : List Char :=
  if d < hour then decI (d.tdiv minute) ++ [':'] ++ dec02I ((d.tdiv second).tmod 60)
  else decI (d.tdiv hour) ++ [':'] ++ dec02I ((d.tdiv minute).tmod 60) ++ [':'] ++ dec02I ((d.tdiv second).tmod 60)

/-! ## Drawing -/

/-- One `SetContent` call. (cmd/music-sync-infoer/drawing.go:33, 49) -/
structure Write where
  x : Int
  y : Int
  rune : Char
  deriving DecidableEq, Repr

/-- What the window shows after the calls, `none` for untouched cells.
(tcell.Screen, cmd/music-sync-infoer/drawing.go:9-12) -/
def cell (ws : List Write) (x y : Int) : Option Char :=
  (ws.reverse.find? fun w => w.x = x && w.y = y).map Write.rune

/-- drawing.go:31-35 `drawString`: `range` over a string yields byte offsets -/
def drawString (x y : Int) : List Char → List Write
  | [] => []
  | c :: cs => ⟨x, y, c⟩ :: drawString (x + c.utf8Size) y cs

/-- `len(s)` (the index `i` of the loop at cmd/music-sync-infoer/drawing.go:32) -/
def byteLen (s : List Char) : Nat := (s.map Char.utf8Size).sum

/-- `math.Modf`'s fraction, which has the sign of its argument (cmd/music-sync-infoer/drawing.go:53-70) -/
def modf (p : Rat) : Rat := if 0 ≤ p then p - p.floor else p - p.ceil

/-- The float64 constant 0.3 (drawing.go:62). -/
def c03 : Rat := 5404319552844595 / 18014398509481984

/-- The float64 constant 0.7 (drawing.go:64). -/
def c07 : Rat := 3152519739159347 / 4503599627370496

/-- drawing.go:53-70 `progressHead`. `p` is the value of `float64(length)*progress`, any finite number below 2^63 (its
rounding is modelled in Model/ProgressBar; floor and fraction of a float64 are exact). -/
def progressHead (length : Int) (p : Rat) : Int × Char × Char × Char :=
  let head := p.floor
  let headProgress := modf p
  let headRune := if head = length - 1 then '█' else if headProgress < c03 then ' ' else if headProgress < c07 then '▌'
    else '█'
  (head, '█', headRune, ' ')

/-- drawing.go:37-51 `drawProgress` -/
def drawProgress (x y length : Int) (p : Rat) : List Write :=
  let (head, filled, headRune, empty) := progressHead length p
  (List.range length.toNat).map fun (i : Nat) => ⟨x + i, y, if (i : Int) < head then filled else if head = i then headRune else empty⟩

/-- drawing.go:72-86 `drawBox` -/
def drawBox (x y w h : Int) : List Write :=
  ((List.range w.toNat).flatMap fun (i : Nat) => [⟨x + i, y + h - 1, '═'⟩, ⟨x + i, y, '═'⟩]) ++
  ((List.range h.toNat).flatMap fun (j : Nat) => [⟨x, y + j, '║'⟩, ⟨x + w - 1, y + j, '║'⟩]) ++
  [⟨x, y, '╔'⟩, ⟨x + w - 1, y, '╗'⟩, ⟨x, y + h - 1, '╚'⟩, ⟨x + w - 1, y + h - 1, '╝'⟩]

/-- state.go:188-198 and 207-213, what the drawing uses. `volumeLine` is main.go:138 (a formatted float); `progress` gives
`float64(length)*progress` for a bar length. -/
structure View where
  title : List Char
  artist : List Char
  album : List Char
  filename : List Char
  lyrics : List Line
  timeInSong : Int
  songLength : Int
  playing : Bool
  volumeLine : List Char
  progress : Int → Rat

/-- main.go:122-127 -/
def songLineName (v : View) : List Char := if v.title ≠ [] then v.title else v.filename

/-- main.go:129-135 -/
def songLineArtistAlbum (v : View) : List Char :=
  if v.artist ≠ [] then (if v.album ≠ [] then v.artist ++ (" - ".toList ++ v.album) else v.artist) else []

/-- main.go:137 -/
def timeLine (v : View) : List Char := fmtDuration v.timeInSong ++ ['/'] ++ fmtDuration v.songLength

/-- state.go:200-205 -/
def playingString (v : View) : List Char := if v.playing then "Playing".toList else "Paused".toList

/-- main.go:121-149 `drawPlaybackInfo`, for a window of `w` columns and `h` rows -/
def drawPlaybackInfo (w h : Int) (v : View) : List Write :=
  drawString (w - byteLen v.volumeLine - 1) (h - 4) v.volumeLine ++
  drawString 1 (h - 4) (songLineName v) ++
  drawString (w - byteLen (timeLine v) - 1) (h - 3) (timeLine v) ++
  drawString 1 (h - 3) (songLineArtistAlbum v) ++
  drawProgress 1 (h - 2) (w - 2) (v.progress (w - 2)) ++
  drawBox 0 (h - 5) w 5 ++
  drawString 2 (h - 5) (playingString v)

/-- main.go:158-160: the lines upwards from row `y` -/
def drawLines (y : Int) : List (List Char) → List Write
  | [] => []
  | l :: ls => drawString 1 y l ++ drawLines (y - 1) ls

/-- main.go:152-155 -/
def lyricsHeight (size : Nat) (h : Int) : Int := if h < size + 7 then h - 7 else size

/-- main.go:151-164 `drawLyrics`; `size` is the --lyrics-history-size flag -/
def drawLyrics (size : Nat) (w h : Int) (v : View) : List Write :=
  let lh := lyricsHeight size h
  if 0 < lh then
    drawLines (h - 7) (history lh.toNat v.lyrics v.timeInSong) ++
    drawBox 0 (h - 7 - lh) w (lh + 2) ++
    drawString 2 (h - 7 - lh) "Lyrics".toList
  else []

/-- main.go:111-119 `redraw` (for fixed window size and information) -/
def redraw (size : Nat) (w h : Int) (v : View) : List Write := drawPlaybackInfo w h v ++ drawLyrics size w h v

end MS.Display
