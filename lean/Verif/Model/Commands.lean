import Verif.Model.PlaylistEdit
import Verif.Model.Fmt
/-!
# schedule/server_state_commands.go: the control commands

Library functions the commands call are arbitrary (`Ext`): what `strconv.Atoi` and `strconv.ParseFloat` accept, what
listing the music directory yields (see `Verif.Model.Files`), how `%.3f` prints, whether the broadcast fails. Texts are
lists of characters.
-/
set_option linter.unusedVariables false
namespace MS.Commands

/-- What the commands get from outside: the file listing (schedule/server_state_commands.go:48-52), strconv (17, 35), fmt (171-173) -/
structure Ext where
  /-- `strconv.Atoi`: any 64 bit integer, or an error -/
  atoi : String → Option Int
  /-- `strconv.ParseFloat(·, 64)`: the bits, or an error -/
  parseFloat : String → Option UInt64
  /-- `util.FilterSongs(util.ListGlobFiles(playback.AudioDir, ·))`, or the error's text -/
  glob : String → Except (List Char) (List String)
  /-- `%.3f` -/
  fmtFloat : UInt64 → List Char
  /-- the error's text, if the broadcast fails -/
  sendError : Option (List Char)

/-- What the commands read and change: the playlist (playback/playlist.go:16-35), the volume, and the volumes broadcast
so far. `tokens`: filling of the channel forceNext (capacity 2). -/
structure Ctl where
  songs : List String
  position : Int
  tokens : Nat
  playing : Bool
  current : String
  volume : UInt64
  sent : List UInt64
  deriving DecidableEq

/-- What a command's ExecFunc returns: a text to print, or a request to print the usage. (ssh/command.go:32-34) -/
inductive Out where
  | text (t : List Char)
  | usage
  deriving DecidableEq

/-- A command returns, crashes the process, or blocks with the state it has reached. (ssh/command.go:41-43) -/
inductive Run where
  | done (c : Ctl) (o : Out)
  | panic
  | blocked (c : Ctl)
  deriving DecidableEq

/-- schedule/server_state_commands.go:13-22 -/
def parseFloatParam (e : Ext) (args : List String) (index : Nat) : UInt64 × Bool :=
  match args[index]? with
  | none => (0, false)
  | some a =>
    match e.parseFloat a with
    | none => (0, false)
    | some v => (v, true)

/-- schedule/server_state_commands.go:24-29 -/
def parseStringParam (args : List String) (index : Nat) : String × Bool :=
  match args[index]? with
  | none => ("", false)
  | some a => (a, true)

/-- schedule/server_state_commands.go:31-40 -/
def parseIntParam (e : Ext) (args : List String) (index : Nat) : Int × Bool :=
  match args[index]? with
  | none => (0, false)
  | some a =>
    match e.atoi a with
    | none => (0, false)
    | some v => (v, true)

/-- schedule/server_state_commands.go:57-66: song `i` is inserted at `pos + i` (64 bit addition) or appended -/
def insertAll (pos : Option Int) : Nat → List String → List String → Res (List String)
  | _, [], pl => .ok pl
  | i, s :: ss, pl =>
    (match pos with
      | some p => Playlist.insertSong pl s (wrap64 (p + i))
      | none => .ok (Playlist.addSong pl s)).bind (insertAll pos (i + 1) ss)

/-- schedule/server_state_commands.go:42-68 `queueCommandExec` -/
def queue (e : Ext) (args : List String) (c : Ctl) : Run :=
  match parseStringParam args 0 with
  | (_, false) => .done c .usage
  | (pattern, true) =>
    match e.glob pattern with
    | .error t => .done c (.text ("glob pattern is invalid: ".toList ++ t))
    | .ok songs =>
      if songs.length = 0 then .done c (.text ("no song matches the glob pattern ".toList ++ pattern.toList))
      else
        let pos := match parseIntParam e args 1 with
          | (p, true) => some p
          | (_, false) => none
        match insertAll pos 0 songs c.songs with
        | .panic => .panic
        | .ok pl => .done { c with songs := pl }
            (.text (Fmt.dec songs.length ++ " song(s) added to playlist: ".toList ++
              ", ".toList.intercalate (songs.map String.toList)))

/-- schedule/server_state_commands.go:94-98: the entries; the width is that of the last index (`Itoa(-1)` for an empty
list is not used) -/
def entries (songs : List String) : List (List Char) :=
  songs.zipIdx.map fun (s, i) =>
    "  [".toList ++ Fmt.dec0 (Fmt.dec (songs.length - 1)).length i ++ "] ".toList ++ s.toList

/-- schedule/server_state_commands.go:92-116 `playlistCommandExc` -/
def playlist (c : Ctl) : Run :=
  let status := if c.playing then "Playing".toList else "Paused".toList
  let es := entries c.songs
  let songList := if 0 < es.length then '\n' :: ['\n'].intercalate es else "Empty".toList
  let curr := if c.current = "" then "None".toList else c.current.toList
  .done c (.text ("Current Playlist (".toList ++ status ++ "): ".toList ++ songList ++ "\nCurrent Song: ".toList ++ curr))

/-- `%d` of an int (schedule/server_state_commands.go:67, 138, 154) -/
def decInt (i : Int) : List Char := if i < 0 then '-' :: Fmt.dec i.natAbs else Fmt.dec i.natAbs

/-- schedule/server_state_commands.go:127-141 -/
def remove (e : Ext) (args : List String) (c : Ctl) : Run :=
  match parseIntParam e args 0 with
  | (_, false) => .done c .usage
  | (pos, true) =>
    match Playlist.removeSong c.songs pos with
    | .panic => .panic
    | .ok (song, pl) => .done { c with songs := pl }
        (.text ("removed song ".toList ++ song.toList ++ " at position ".toList ++ decInt pos ++ " from playlist".toList))

/-- schedule/server_state_commands.go:143-157 and playback/playlist.go:140-143 `SetPos` -/
def jump (e : Ext) (args : List String) (c : Ctl) : Run :=
  match parseIntParam e args 0 with
  | (_, false) => .done c .usage
  | (pos, true) =>
    if c.tokens < 2 then
      .done { c with position := pos, tokens := c.tokens + 1 } (.text ("jumped to ".toList ++ decInt pos))
    else .blocked { c with position := pos }

/-- schedule/server_state_commands.go:159-176 -/
def volume (e : Ext) (args : List String) (c : Ctl) : Run :=
  let (v, ok) := parseFloatParam e args 0
  let c := { c with volume := v }
  if !ok then .done c .usage
  else
    let c := { c with sent := c.sent ++ [v] }
    match e.sendError with
    | some t => .done c (.text ("failed to set volume to ".toList ++ e.fmtFloat v ++ ": ".toList ++ t))
    | none => .done c (.text ("setting volume to ".toList ++ e.fmtFloat v))

/-- schedule/server_state_commands.go:178-202 -/
def setPlaying (target : Bool) (c : Ctl) : Run :=
  .done { c with playing := target }
    (.text ("playback ".toList ++ (if target then "resume".toList else "pause".toList) ++ "d".toList))

/-- The control commands registered by schedule/server.go:32-39. -/
inductive Name where
  | queue | playlist | remove | jump | volume | pause | resume
  deriving DecidableEq, Repr

/-- schedule/server.go:33-39, ssh/command.go:41-43: the ExecFunc of a command -/
def exec (e : Ext) : Name → List String → Ctl → Run
  | .queue, args, c => queue e args c
  | .playlist, _, c => playlist c
  | .remove, args, c => remove e args c
  | .jump, args, c => jump e args c
  | .volume, args, c => volume e args c
  | .pause, _, c => setPlaying false c
  | .resume, _, c => setPlaying true c

end MS.Commands
