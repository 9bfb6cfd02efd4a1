/-!
# cmd/flags.go and the reading of the settings in the three main functions

A command line is the list of the options on it, in order, each a name (without the dashes) and a value. Simplifications:
turning texts into options and values is the library's (Go's flag package): a value has the type of its flag. The
library's own options (help, version) and the logging flags (modelled in `Verif.Model.Logging`) are left out; no flag of
the three programs shares a name with them. The library urfave/cli is modelled as far as it decides which value is read:
every name of a flag is registered with the default, the last value given under a name wins, a value given under one
name is copied to the other names of the flag, and giving values under two names of the same flag is an error.
-/
namespace MS.Flags

/-- A value: text, whole number (also of type uint) or duration in nanoseconds. (cmd/flags.go:14-36) -/
inductive Val where
  | str (s : List Char)
  | int (n : Int)
  | dur (ns : Int)
  deriving DecidableEq, Repr

/-- `cli.StringFlag` and the others: the names, separated by commas, and the default. (cmd/flags.go:110-228) -/
structure Flag where
  name : List Char
  value : Val
  deriving DecidableEq, Repr

/-- cmd/flags.go:15-16 `DefaultMusicAddress`, `DefaultMusicPort` -/
def defaultMusicAddress : Val := .str "127.0.0.1".toList
/-- cmd/flags.go:16 -/
def defaultMusicPort : Val := .int 13333

/-- cmd/flags.go:112-116 -/
def serverAddressFlag : Flag := ⟨"address, addr, a".toList, defaultMusicAddress⟩
/-- cmd/flags.go:118-122 -/
def serverPortFlag : Flag := ⟨"port, p".toList, defaultMusicPort⟩
/-- cmd/flags.go:125-129 -/
def listenAddressFlag : Flag := ⟨"address, addr, a".toList, defaultMusicAddress⟩
/-- cmd/flags.go:131-135 -/
def listenPortFlag : Flag := ⟨"port, p".toList, defaultMusicPort⟩
/-- cmd/flags.go:138-142, 23 -/
def musicDirFlag : Flag := ⟨"music-dir, dir, d".toList, .str "audio".toList⟩
/-- cmd/flags.go:145-149, 18 -/
def sshAddressFlag : Flag := ⟨"ssh-address, ssh-addr, sa".toList, defaultMusicAddress⟩
/-- cmd/flags.go:151-155, 19 -/
def sshPortFlag : Flag := ⟨"ssh-port, sp".toList, .int 13334⟩
/-- cmd/flags.go:157-161, 20 -/
def sshUsersFlag : Flag := ⟨"users-file, users, u".toList, .str "users.json".toList⟩
/-- cmd/flags.go:163-167, 21 -/
def sshKeyFileFlag : Flag := ⟨"host-key, key, k".toList, .str "id_rsa".toList⟩
/-- cmd/flags.go:170-174, 27 -/
def timeSyncIntervalFlag : Flag := ⟨"time-sync-interval".toList, .dur (10 * 60 * 1000000000)⟩
/-- cmd/flags.go:176-180, 28 -/
def timeSyncCyclesFlag : Flag := ⟨"time-sync-cycles".toList, .int 500⟩
/-- cmd/flags.go:182-186, 29 -/
def timeSyncCycleDelayFlag : Flag := ⟨"time-sync-cycle-delay".toList, .dur (10 * 1000000)⟩
/-- cmd/flags.go:189-193, 30 -/
def streamChunkSizeFlag : Flag := ⟨"stream-chunk-size".toList, .int (44100 * 4)⟩
/-- cmd/flags.go:195-199, 32 -/
def streamStartDelayFlag : Flag := ⟨"stream-start-delay".toList, .dur (5 * 1000000000)⟩
/-- cmd/flags.go:201-205, 33 -/
def streamDelayFlag : Flag := ⟨"stream-delay".toList, .dur (15 * 1000000000)⟩
/-- cmd/flags.go:208-212, 31 -/
def nanBreakSizeFlag : Flag := ⟨"song-break-size".toList, .int (44100 * 1)⟩
/-- cmd/flags.go:215-219, 25 -/
def sampleRateFlag : Flag := ⟨"sample-rate".toList, .int 44100⟩
/-- cmd/flags.go:222-226, 35 -/
def lyricsHistorySizeFlag : Flag := ⟨"lyrics-history-size".toList, .int 5⟩

/-- `strings.Split(s, ",")` (cmd/flags.go:231) -/
def splitComma : List Char → List (List Char)
  | [] => [[]]
  | c :: r =>
    if c = ',' then [] :: splitComma r
    else
      match splitComma r with
      | [] => [[c]]
      | w :: ws => (c :: w) :: ws

/-- cmd/flags.go:230-232 `FlagKey` -/
def flagKey (f : Flag) : List Char := (splitComma f.name).headD []

/-- The names the library registers: the parts between the commas without spaces around them.
(cmd/flags.go:110-228, urfave/cli `eachName`) -/
def names (f : Flag) : List (List Char) :=
  (splitComma f.name).map fun w => ((w.dropWhile (· = ' ')).reverse.dropWhile (· = ' ')).reverse

/-- A command line: options in order. (cmd/music-sync-server/main.go:41) -/
abbrev Args := List (List Char × Val)

/-- The flags a program knows. (cmd/music-sync-server/main.go:21) -/
abbrev Flags := List Flag

/-- The name under which flag `f` has been given; `none` if it is not given, an error (`some none`) if it is given under
two names. (cmd/music-sync-server/main.go:41, urfave/cli `normalizeFlags`) -/
def formOf (f : Flag) (args : Args) : Option (Option (List Char)) :=
  match (names f).filter (fun n => args.any (fun a => a.1 == n)) with
  | [] => none
  | [n] => some (some n)
  | _ => some none

/-- The library accepts the command line: only known names, no flag under two names.
(cmd/music-sync-server/main.go:41, `app.Run`) -/
def accepted (flags : Flags) (args : Args) : Bool :=
  args.all (fun a => flags.any fun f => (names f).contains a.1) &&
  flags.all (fun f => formOf f args != some none)

/-- The last value given under name `n`. (cmd/music-sync-server/main.go:41, Go's flag package) -/
def lastGiven (n : List Char) (args : Args) : Option Val := (args.reverse.find? (fun a => a.1 == n)).map (·.2)

/-- `ctx.String(key)`, `ctx.Int(key)`, …: the first registered flag with the name `key`; its value under the name it was
given, or its default; the zero value if no flag has this name (`none` here).
(cmd/music-sync-server/main.go:49-56, 74-80) -/
def lookup (flags : Flags) (args : Args) (key : List Char) : Option Val :=
  match flags.find? (fun f => (names f).contains key) with
  | none => none
  | some f =>
    match formOf f args with
    | some (some n) => some ((lastGiven n args).getD f.value)
    | _ => some f.value

/-- cmd/music-sync-server/main.go:20-38: the flags of the server -/
def serverFlags : Flags := [listenAddressFlag, listenPortFlag, musicDirFlag, sshAddressFlag, sshPortFlag, sshUsersFlag,
  sshKeyFileFlag, timeSyncIntervalFlag, timeSyncCyclesFlag, timeSyncCycleDelayFlag, streamChunkSizeFlag,
  streamStartDelayFlag, streamDelayFlag, nanBreakSizeFlag, sampleRateFlag]

/-- cmd/music-sync-player/main.go:21-26 -/
def playerFlags : Flags := [serverAddressFlag, serverPortFlag, sampleRateFlag]

/-- cmd/music-sync-infoer/main.go:22-28 -/
def infoerFlags : Flags := [serverAddressFlag, serverPortFlag, sampleRateFlag, lyricsHistorySizeFlag]

/-- The variables of package schedule. (schedule/schedule.go:11-36) -/
structure Vars where
  timeSyncInterval : Option Val
  timeSyncCycles : Option Val
  timeSyncCycleDelay : Option Val
  streamChunkSize : Option Val
  nanBreakSize : Option Val
  streamStartDelay : Option Val
  streamDelay : Option Val
  sampleRate : Option Val
  deriving DecidableEq, Repr

/-- schedule/schedule.go:11-36 -/
def Vars.init : Vars :=
  { timeSyncInterval := some (.dur (10 * 60 * 1000000000)), timeSyncCycles := some (.int 500),
    timeSyncCycleDelay := some (.dur (10 * 1000000)), streamChunkSize := some (.int (44100 * 4)),
    nanBreakSize := some (.int (44100 * 1)), streamStartDelay := some (.dur (5 * 1000000000)),
    streamDelay := some (.dur (15 * 1000000000)), sampleRate := some (.int 44100) }

/-- cmd/music-sync-server/main.go:47-69 `setScheduleVars`; `StreamChunkTime` is computed from two of the others (see
`MS.Startup.chunkTime`). -/
def setScheduleVars (flags : Flags) (args : Args) (_ : Vars) : Vars :=
  { timeSyncInterval := lookup flags args (flagKey timeSyncIntervalFlag)
    timeSyncCycles := lookup flags args (flagKey timeSyncCyclesFlag)
    timeSyncCycleDelay := lookup flags args (flagKey timeSyncCycleDelayFlag)
    streamChunkSize := lookup flags args (flagKey streamChunkSizeFlag)
    nanBreakSize := lookup flags args (flagKey nanBreakSizeFlag)
    streamStartDelay := lookup flags args (flagKey streamStartDelayFlag)
    streamDelay := lookup flags args (flagKey streamDelayFlag)
    sampleRate := lookup flags args (flagKey sampleRateFlag) }

/-- What a running server uses: the values of cmd/music-sync-server/main.go:73-81, and the variables that
schedule/server.go:19 and schedule/server_state.go:146-165 read. -/
structure ServerUses where
  listenAddress : Option Val
  listenPort : Option Val
  musicDir : Option Val
  sshAddress : Option Val
  sshPort : Option Val
  sshUsers : Option Val
  sshKeyFile : Option Val
  streamChunkSize : Option Val
  nanBreakSize : Option Val
  streamStartDelay : Option Val
  streamDelay : Option Val
  sampleRate : Option Val
  deriving DecidableEq, Repr

/-- What a running client uses: the server to connect to, the sample rate, the number of lyrics lines (infoer only), and
the variables `syncTime` and the loops around it read (schedule/player.go:19-24, infoer.go:12-17, 27-36). -/
structure ClientUses where
  address : Option Val
  port : Option Val
  sampleRate : Option Val
  lyricsHistorySize : Option Val
  timeSyncInterval : Option Val
  timeSyncCycles : Option Val
  timeSyncCycleDelay : Option Val
  deriving DecidableEq, Repr

/-- cmd/music-sync-server/main.go:71-109; `none`: the command line is rejected -/
def server (args : Args) : Option ServerUses :=
  if accepted serverFlags args then
    let v := setScheduleVars serverFlags args Vars.init
    some {
      listenAddress := lookup serverFlags args (flagKey listenAddressFlag)
      listenPort := lookup serverFlags args (flagKey listenPortFlag)
      musicDir := lookup serverFlags args (flagKey musicDirFlag)
      sshAddress := lookup serverFlags args (flagKey sshAddressFlag)
      sshPort := lookup serverFlags args (flagKey sshPortFlag)
      sshUsers := lookup serverFlags args (flagKey sshUsersFlag)
      sshKeyFile := lookup serverFlags args (flagKey sshKeyFileFlag)
      streamChunkSize := v.streamChunkSize, nanBreakSize := v.nanBreakSize, streamStartDelay := v.streamStartDelay
      streamDelay := v.streamDelay, sampleRate := v.sampleRate }
  else none

/-- cmd/music-sync-player/main.go:34-55 -/
def player (args : Args) : Option ClientUses :=
  if accepted playerFlags args then
    let v := { Vars.init with sampleRate := lookup playerFlags args (flagKey sampleRateFlag) }
    some {
      address := lookup playerFlags args (flagKey serverAddressFlag)
      port := lookup playerFlags args (flagKey serverPortFlag)
      sampleRate := v.sampleRate, lyricsHistorySize := none, timeSyncInterval := v.timeSyncInterval
      timeSyncCycles := v.timeSyncCycles, timeSyncCycleDelay := v.timeSyncCycleDelay }
  else none

/-- cmd/music-sync-infoer/main.go:38-64 -/
def infoer (args : Args) : Option ClientUses :=
  if accepted infoerFlags args then
    let v := { Vars.init with sampleRate := lookup infoerFlags args (flagKey sampleRateFlag) }
    some {
      address := lookup infoerFlags args (flagKey serverAddressFlag)
      port := lookup infoerFlags args (flagKey serverPortFlag)
      sampleRate := v.sampleRate
      lyricsHistorySize := lookup infoerFlags args (flagKey lyricsHistorySizeFlag)
      timeSyncInterval := v.timeSyncInterval, timeSyncCycles := v.timeSyncCycles
      timeSyncCycleDelay := v.timeSyncCycleDelay }
  else none

end MS.Flags
