import Verif.Model.CommandLine
import Verif.Model.Startup
import Verif.Model.Commands
/-!
# From the words on the command line to the running program

`Verif.Model.CommandLine` gives the settings, `Verif.Model.Startup` what a start does; here are the pieces between them: which
files and addresses are asked for, and the texts of the errors. The answers of the operating system are arbitrary functions
of what is asked for.
-/
namespace MS.Launch
open MS.Flags MS.CommandLine MS.Startup

/-- What `os.Stat` says. (util/file_utils.go:92-100) -/
inductive Entry where
  | missing (error : List Char)
  | file
  | dir
  deriving DecidableEq

/-- The answers of the operating system and the network: for every path, address (and host key) asked for, `none` for success
or the text of the error. (cmd/music-sync-server/main.go:86-105, cmd/music-sync-player/main.go:46-49,
cmd/music-sync-infoer/main.go:51-57, playback/playback.go:86-93) -/
structure World where
  stat : List Char → Entry
  listen : List Char → Option (List Char)
  users : List Char → Option (List Char)
  ssh : List Char → List Char → Option (List Char)
  dial : List Char → Option (List Char)
  screen : Option (List Char)
  sound : Int → Option (List Char)

/-- `ctx.String` (cmd/music-sync-server/main.go:74); other values do not occur -/
def textOf : Option Val → List Char
  | some (.str s) => s
  | _ => []

/-- `ctx.Int` (cmd/music-sync-server/main.go:75); other values do not occur -/
def numOf : Option Val → Int
  | some (.int n) => n
  | _ => 0

/-- `fmt.Sprintf("%s:%d", ...)` (cmd/music-sync-server/main.go:83-84, cmd/music-sync-player/main.go:45) -/
def hostPort (a : List Char) (p : Int) : List Char := a ++ ':' :: Commands.decInt p

/-- util/file_utils.go:91-100 `CheckDir` -/
def checkDir (w : World) (p : List Char) : Option (List Char) :=
  match w.stat p with
  | .missing e => some ("failed to access ".toList ++ p ++ ": ".toList ++ e)
  | .file => some (p ++ " is not a directory".toList)
  | .dir => none

/-- comm/conn_handler.go:33-47 `StartServer`, its error -/
def startServer (w : World) (address : List Char) : Option (List Char) :=
  (w.listen address).map fun e => "failed to start server at ".toList ++ address ++ ": ".toList ++ e

/-- comm/conn_handler.go:69-75 `ConnectToServer`, its error -/
def connectToServer (w : World) (master : List Char) : Option (List Char) :=
  (w.dial master).map fun e => "could not connect to master at ".toList ++ master ++ ": ".toList ++ e

/-- cmd/music-sync-server/main.go:71-109 `run`: the settings and what is asked for -/
def serverSettings (w : World) (u : ServerUses) : Startup.Server where
  rate := numOf u.sampleRate
  size := numOf u.streamChunkSize
  musicDir := checkDir w (textOf u.musicDir)
  listen := startServer w (hostPort (textOf u.listenAddress) (numOf u.listenPort))
  users := w.users (textOf u.sshUsers)
  ssh := w.ssh (hostPort (textOf u.sshAddress) (numOf u.sshPort)) (textOf u.sshKeyFile)

/-- The server from the words on; `none`: `run` is not called. (cmd/music-sync-server/main.go:18-45, 71-109) -/
def serverMain (w : World) (words : List Word) : Option (List Ev) :=
  (CommandLine.server words).map fun u => serverRun (serverSettings w u)

/-- What becomes of a player's sound. (playback/playback.go:78-101, schedule/player.go:12-17) -/
inductive Sound where
  | exit (message : List Char)   -- logged, and the process ends with status 1
  | panic
  | plays (frames : Int)         -- `playLoop` writes so many frames at a time
  deriving DecidableEq

/-- playback/playback.go:78-131 `Init` and `playLoop`, schedule/player.go:12-17: `make` panics for a negative length. beep's
`SampleRate.N` is `int(d * sr / time.Second)`. Memory does not run out. -/
def playerSound (w : World) (rate : Int) : Sound :=
  let bufferSize : Int := (wrap64 (100000000 * rate)).tdiv 1000000000
  match w.sound rate with
  | some e => .exit ("failed to initialized playback: failed to initialize speaker: ".toList ++ e)
  | none =>
    if wrap64 (2 * rate) < 0 then .panic
    else if bufferSize < 0 then .panic
    else .plays bufferSize

/-- The player from the words on: its start, and its sound if it is connected.
(cmd/music-sync-player/main.go:18-32, 34-55) -/
def playerMain (w : World) (words : List Word) : Option (List Ev × Option Sound) :=
  (CommandLine.player words).map fun u =>
    let c := connectToServer w (hostPort (textOf u.address) (numOf u.port))
    (playerRun c, if c = none then some (playerSound w (numOf u.sampleRate)) else none)

/-- The infoer from the words on. (cmd/music-sync-infoer/main.go:19-34, 38-81) -/
def infoerMain (w : World) (words : List Word) (quitFirst : Bool) : Option (List Ev) :=
  (CommandLine.infoer words).map fun u =>
    infoerRun w.screen (connectToServer w (hostPort (textOf u.address) (numOf u.port))) quitFirst

/-- cmd/params.go:16-29 `version`, for a tag and a commit set when building. Texts are ASCII. -/
def version (tag commit : List Char) : List Char :=
  let v := if tag = [] then "untagged".toList else tag
  if commit ≠ [] then v ++ '-' :: (if 8 < commit.length then commit.take 8 else commit) else v

end MS.Launch
