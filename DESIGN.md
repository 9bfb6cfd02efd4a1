# Design: a Lean 4 model of LogicalOverflow/music-sync

## Layout

* `lean/Verif/Model/*.lean`  executable model, one module per Go area; every definition cites file and lines in /repo.
* `lean/Verif/Spec/*.lean`   small independent specifications (what a user expects), not using model helpers. Where the
  specification is one or two lines it stands in the theorem's module, next to the theorem.
* `lean/Verif/Lemmas/*.lean` helper lemmas.
* `lean/Verif/Props/*.lean`  the property theorems (names `Cnn_...`) with non-vacuity `example`s beside them.
* `properties.jsonl` the properties, `MANIFEST.json` which theorems prove them, `seeded/LOG.jsonl` wrong programs tried.

Conventions. Go `int`/`int64` arithmetic is `Int` with explicit wrap (`wrap64`) where overflow matters to the
property, plain `Int`/`Nat` otherwise (stated in the header of the module). Go `/` and `%` are `Int.tdiv` and
`Int.tmod`. A panic is an explicit result. Blocking is an explicit "not enabled"/`none`. A goroutine or a racy access is
a set of explicit atomic steps; a property over "all schedules" quantifies over all sequences of enabled steps. External
code is a parameter, or a model whose assumptions are listed below.

Status words. `proved`: the theorem says what the property says, for everything it ranges over. `partial`: either the
property is false of the code, and then there is a theorem refuting it (a reachable execution or a general statement)
and theorems with the suffix `_partial` or an exact characterisation (`_iff`) saying where it does hold; or one part is
missing, and the note says which.

## Trusted base

* Lean 4.33.0's kernel. Every theorem depends on a subset of the axioms `propext`, `Classical.choice`, `Quot.sound`
  (checked with `#print axioms` by vcheck). No axioms are added, no compiled evaluation is used, Mathlib is not imported.
* That the model corresponds to the Go text. This was done by reading; the citations are there so that it can be
  checked function by function. Nothing was executed.
* Assumptions about what is outside /repo:
  - Go: memory is sequentially consistent (data races are modelled as interleavings of whole reads and writes of one
    variable), `sync.Cond` has no spurious wake-ups, `sync.RWMutex` prefers a waiting writer, `sort.Sort` returns some
    sorted permutation, a map is iterated in some order, `append` to a full slice grows its capacity to some larger value,
    `time.Tick` has a channel of capacity 1, ticks on a fixed grid and drops a tick that finds the channel full.
  - net.Conn: bytes arrive in order and unchanged, in arbitrary pieces; one `Write` call is atomic with respect to others
    (only used for C24); a write to a client that does not read eventually blocks (C74). A `Read` that returns both
    bytes and an error is not modelled.
  - compress/zlib: reading what was written gives it back; the class of inputs that `NewReader` rejects is arbitrary.
  - golang/protobuf: modelled for the messages of packages.proto (Model/Proto); the library itself is not verified.
  - antlr: the lexer takes the longest match of the first rule, `AdaptivePredict` the least alternative with which the rest
    can be read, the walker visits the tree in order; the wildcard matches every character. chzyer/readline: what `Readline`
    returns for Ctrl-C, Ctrl-D and Enter, and that a completion is inserted at the cursor.
  - gliderlabs/ssh: a login is granted iff the callback accepts the attempt.
  - mp3 decoding and tag reading: arbitrary functions; JSON likewise except in Json, where the two decoders are modelled; the decoder follows the contract of beep.Streamer.
  - float64: IEEE 754 double precision with round to nearest, ties to even, is modelled in Float64 for all bit patterns (the
    sign of zero is left out) and used for volume, PCM, progress and volume line (C108 to C111); that Go on amd64 computes
    this way (no fused operations) is assumed. Elsewhere float64 values are opaque bit patterns. C109 assumes that the mp3
    decoder (faiface/beep) divides 16 bit levels by 32767. strconv.ParseFloat rounds correctly; fmt's %f prints the exact
    value rounded, ties to even.
  - strings.ToLower is right on ASCII. tcell: a cell shows the last rune set; double-width characters are not modelled.
  - filepath.Match/Glob: modelled after the source of Go 1.11 to 1.15 on Unix (from memory, the source is not in the sandbox).
  - filepath.Walk/Glob: no symbolic links, no unreadable directories, no changes during the walk.
  - clocks: constant difference between two machines (C21), equal speed (C71). The delay of the sound device is not modelled.

## What is modelled

| module | code | not modelled |
|--------|------|--------------|
| SampleQueue | playback/timed_sample_queue.go, all | capacity 0 |
| Streamer | playback/streamer.go Stream, streamDirect, streamSync; playback.go playLoop | int64 overflow |
| ReadChunks | streamer.go ReadChunks, playback.go QueueChunk, CombineSamples, initStreamer | `queuedChunk.copySamples`, `drained` (dead code) |
| Pcm | playback.go samplesToAudioBuf, convertSampleToBytes | rounding of sample * volume |
| StreamLoop | playlist.go StreamLoop, nextSong, pushStreamer, pauses, SetPos, Pos, SetPlaying | wrap of indices at 2^63, cancellation |
| Fill | playlist.go pushSample, Fill, copyFloatChannel | |
| PlaylistEdit | playlist.go AddSong, InsertSong, RemoveSong, Songs | slice aliasing (in Slices) |
| StreamMusic | schedule/server_state.go streamMusic, chunk time of cmd/music-sync-server/main.go | overflow |
| Ticker | the `time.Tick` loop of schedule/server_state.go streamMusic: when chunks are handed over | time taken by receiving a tick |
| PlayerStart | playback.go Init, QueueChunk, SetVolume, schedule/player.go, at start-up | time synchronisation (Timing), failure of the sound device |
| Startup | the `run` functions of the three programs, schedule/server.go, ssh/ssh.go StartSSH, drawing.go eventLoop | the ssh library, tcell; flag parsing is in CommandLine and Launch |
| ServerState | schedule/server_state.go handlers, pauses, client handler; all schedules | |
| ServerConn | comm/conn_handler.go StartServer, acceptor, handleConnection with comm/message_sender.go under its lock | |
| Sender | comm/message_sender.go, comm/package_handler.go, util/collector.go, util/multi_error.go | |
| Wire | comm/package_util.go, handleConnection | contents of error values |
| Proto | comm/packages.proto/.pb.go over the proto3 wire format | unknown fields are dropped, groups are errors |
| Timing | timing/timing.go | int64 overflow |
| Commands | schedule/server_state_commands.go | completion options of `queue` (see Console) |
| Console | ssh/command.go (`help`, `ls`), schedule/server.go:33-39, ssh/session_handler.go:80-109, OptionsFuncs | registrations are complete (a lookup during start-up is in Registry); terminal escapes, log |
| Decode | playback/playback.go:34-47 | os.Open and the mp3 decoder are arbitrary functions; logged errors |
| Machine | the arithmetic of schedule/server_state.go, playback/streamer.go, cmd/music-sync-infoer/state.go, timing/timing.go with 64 bit wrap-around | a slice bound out of range after an overflow (crash) in streamSync; float64 progress |
| Grammar | ssh/parser/shell_parser (generated): both tables, decoded, and the recursive descent functions; ssh/parser/parser.go listener | the ANTLR runtime (contracts `LexContract`: longest match, first rule, and `PredictContract`: least viable alternative); error recovery (proved not to happen) |
| Flags | cmd/flags.go, reading of the options in the three main functions, the variables of schedule/schedule.go | turning texts into typed values, help and version are in CommandLine; logging flags are in Logging |
| InfoRace | cmd/music-sync-infoer/state.go `Info` and the passes it calls as separate critical sections, infoer_package_handler.go handlers in between | volume (one float, own writes) |
| VolumeRace | schedule/server_state_commands.go volumeCommand in several sessions, with the goroutines of comm/message_sender.go SendMessage | failing writes, connections coming and going |
| Registry | ssh/command.go:13-25, 65-72 (`RegisterCommand`, `commandByName`), with cmd/music-sync-server/main.go:104-105 | one registering goroutine and one lookup, a slice header or a command is read or written as a whole; insertion sort (≤ 12 elements); `help`'s own loop over the table |
| ClientEnd | comm/conn_handler.go:68-82 with handleConnection, the handler goroutines and the main goroutines of player and infoer (cmd/util.go, tcellLoop) | goroutines that only send; effects of a handler are one step |
| Acceptor | comm/conn_handler.go:49-66 serverConnectionAcceptor | |
| Float64 | the float64 operations of playback/playback.go:133-152, cmd/music-sync-infoer/state.go:53-55, drawing.go:54-55, main.go:138 (IEEE 754) | sign of zero |
| ProgressBar | cmd/music-sync-infoer/state.go:48-55 and drawing.go:54-55 with float64 | int() of NaN/Inf (shown not to occur) |
| VolumeLine | `%.3f` and `%06.2f` of volumes | |
| SoundPath | playback/playlist.go pushSample, schedule/server_state.go streamMusic, playback/playback.go playLoop on float64 bit patterns | |
| Screen | cmd/music-sync-infoer/main.go `redraw`, state.go `Info`, composed with Display, SongInfo, ProgressBar, VolumeLine | from the infoer's state to the cells of the window; texts are UTF-8 decoded by `range` |
| SshSession | ssh/session_handler.go (all but the readline configuration) | one session from connection to end: what is typed, read, called, written, logged; results of commands arbitrary; echo and prompt left out |
| Json | ssh/ssh.go ReadUsersFile; metadata/lyrics_provider.go decoding | encoding/json as far as map[string]UserAuth and []LyricsLine need it, base64.StdEncoding, strconv.ParseInt; scanner as recursive descent; keys as JSON arrays and texts of decoder errors arbitrary |
| Numbers | schedule/server_state_commands.go:13-41 parameters | strconv.Atoi and strconv.ParseFloat of Go 1.14: syntax and limits as in the source (from memory); the result of ParseFloat is taken to be correctly rounded, its three algorithms are not modelled |
| CommandLine | app.Run of the three main functions, value types of cmd/flags.go | Go's flag package, strconv.ParseInt/ParseUint with base 0, strconv.ParseBool, time.ParseDuration (Go 1.14, float64 arithmetic included) and App.Run of urfave/cli 1.22.4, from memory; what is printed is left out |
| Launch | the `run` functions from the words on, util.CheckDir, errors of StartServer and ConnectToServer, playback.Init and playLoop (sizes), cmd/params.go | what the operating system answers is an arbitrary function of what is asked for; beep's SampleRate.N from memory |
| Slices | the same operations, removeOldPauses, removeOldChunks, AddConn, DelConn, QueueChunk, ReadChunks on arrays and slices | garbage collection (arrays are never freed); data races are excluded by the locks, which are not in this module |
| ServerStart | schedule/server.go:12-40 interleaved with playback/playlist.go:41-137 and the sessions | `Server` as a goroutine, statement by statement; handlers that may not be set; commands usable only once registered |
| PlaylistRun | playback/playlist.go:16-272 | StreamLoop, pushSample, Fill and the commands as one machine; each channel operation is a step, sampleIndexWrite a counter |
| StreamLoop64 | playback/playlist.go:54, 102 | `position++` with 64 bits, otherwise Model/StreamLoop |
| PauseHeard (no model of its own) | playback/playlist.go and schedule/server_state.go:145-169 composed: PlaylistRun read by the loop of Ticker, stamped by StreamMusic | in Props/PauseHeard.lean; every Fill is for the same number of samples |
| OnTime (no model of its own) | playback/streamer.go, playback/playback.go:50-62, 121-132 composed with the above: the player reading what PlaylistRun and StreamMusic produce | in Props/OnTime.lean |
| Queued (no model of its own) | playback/playlist.go:41-130 and schedule/server_state.go:145-169 composed, as in PauseHeard | in Props/Queued.lean |
| ShownInTime (no model of its own) | playback/playlist.go:41-130, schedule/server_state.go:145-169 and cmd/music-sync-infoer/state.go composed | in Props/ShownInTime.lean |
| InfoRate | cmd/music-sync-infoer/state.go `Info`, `endTime`, `length` with an own sample rate, division by zero included | negative rates, overflow |
| WrongRate (no model of its own) | cmd/music-sync-player/main.go:25-43: the player's own rate in playback/streamer.go, against the server's in schedule/server_state.go | in Props/WrongRate.lean; rate zero |
| Kept (no model of its own) | playback/streamer.go `Stream`, `ReadChunks`: what is left in the buffer | in Props/Kept.lean; bytes per sample |
| Gapless (no model of its own) | playback/playlist.go `StreamLoop` with break size 0 and playback/streamer.go composed | in Props/Gapless.lean |
| VolumeTurn | playback/playback.go `SetVolume`, `playLoop`, `samplesToAudioBuf`, one step per value converted | `Stream` and `Write` one step each; a float64 is read and written atomically |
| ShownState (no model of its own) | playback/playlist.go and cmd/music-sync-infoer/state.go composed, with races | in Props/ShownState.lean |
| ListedNumbers (no model of its own) | the commands playlist, remove and jump and the console composed | in Props/ListedNumbers.lean |
| Concurrent | queue and remove commands of several ssh sessions at the same time (each playlist call is one step) | the other commands |
| Parser | ssh/parser/parser.go, Shell.g4 | generated ANTLR code (see Grammar) |
| Session | ssh/command.go, ssh/session_handler.go handleLine, execCommand, readLoop; ssh/auto_completer.go | pty set-up |
| Auth | ssh/options.go, ssh/ssh.go ReadUsersFile | the ssh protocol, host key |
| Infoer | cmd/music-sync-infoer/state.go, infoer_package_handler.go | overflow |
| Display | cmd/music-sync-infoer/main.go (drawing, lyrics, durations), drawing.go | event loop |
| SongInfo | metadata/*.go, toWireLyrics, createNewSongHandler, HandleNewSongInfo | |
| Files | util/file_utils.go listing | |
| Glob | util/file_utils.go ListGlobFiles with Go's filepath.Match/Glob (Go 1.11-1.15, Unix), including that the loop after a star goes by bytes | names and patterns that are not UTF-8 |
| Logging | logging/*.go, logging flags of cmd/flags.go | |
| Pipeline | glue between the server's and the player's models | |
| Fmt, GoBase | the pieces of fmt and of Go that the others need | |

## Plan per property

| id | model | proof |
|----|-------|-------|
| C01 | micro-step transition system of timedSampleQueue (check, write, index update, broadcast; cond.L; sleepers) | inductive invariant relating ring to ghost lists `added`/`removed` |
| C02 | same | invariant: for cap >= 2 never both asleep; cap = 1: concrete deadlock trace (negation) |
| C03 | same | negation by a concrete trace (lost wake-up); partial: a broadcast wakes every registered sleeper |
| C04 | sequential ring | refinement to a list |
| C05 | playlist list operations with panics | refinement to a list spec; negation at `RemoveSong(len)` |
| C06 | StreamLoop state machine driven by an environment oracle | induction on songs played |
| C07 | micro-step machine of loop + SetPos | negations (negative index panics, race with end of song, third jump blocks); partial for atomic jump |
| C08-C10 | pushStreamer as a recursive function over per-block environment inputs | induction over blocks |
| C11 | two FIFO channels, Fill | induction over reads |
| C12 | StreamLoop with unplayable songs | negation (livelock), partial for playlists with a playable song or empty |
| C13 | streamMusic loop, setScheduleVars | induction on n, division bounds |
| C14-C16 | Stream/streamSync/streamDirect over a list queue, blocking = none | induction over fuel-free structural recursion; C16 negation |
| C17 | convertSampleToBytes over rationals | order lemmas on floor/trunc; negation at +1 |
| C18 | CombineSamples | list extensionality |
| C19 | QueueChunk/ReadChunks with arrival permutation | negation, partial for in-order arrival |
| C20 | ReadChunks machine | invariant |
| C21,C22 | UpdateOffset/ResetOffsets state with capacity | interval arithmetic, induction over responses |
| C23,C24,C26 | toWire/readWire over byte lists with fragmenting reader/writer; abstract proto+zlib codec with law, plus concrete proto codec | induction over fragments |
| C25 | same with explicit panics | negations (negative size, bad zlib header); partial: complete classification of when it panics |
| C27,C28 | multiMessageSender state machine | refinement to set-of-connections spec by history induction |
| C29 | Handle dispatch + server handler | case analysis over all messages |
| C30 | createClientHandler | history refinement |
| C31 | removablePauses/removeOldPauses + infoer pause counting | induction, uses C43 spec |
| C32 | interleaving machine for prune goroutines | negation by trace; partial: sequential |
| C33 | commands as state functions | case analysis; negation for `volume` |
| C34 | queueCommandExec | induction; negation for p < 0 |
| C35-C37 | character-level parser model (grammar Shell.g4 + listener) | induction on characters; negations |
| C38 | auto completer | negations (crash), partial for canonical lines |
| C39,C40 | session/registry | list lemmas, sort as any permutation sorted by name |
| C41-C45 | infoer state | induction, division lemmas |
| C46 | composition of C08-C10 with C41-C43 | corollary over produced traces |
| C47 | fmtDuration | div/mod arithmetic |
| C48 | drawing as a list of cell writes | list membership |
| C49,C50 | logging, flags | table proof over 6 levels for all map orders; negation for C50 |
| C51 | ErrorCollector step machine | invariant |
| C52 | path Join/Clean, directory tree walk | induction over trees; negations |
| C53 | auth decisions | stated outright |
| C54 | toWireLyrics + HandleNewSongInfo | map lemmas |
| C55 | concrete proto3 encoder/decoder for packages.proto | round-trip induction |
| C56 | handler goroutines of a player in any order | negation; partial: the volume is one of those sent |
| C57, C72-C75 | all connections of a server with the RWMutex, overlapping broadcasts, stalled clients, server start | inductive invariants over all steps; decreasing measure (C73); negations by traces (C57, C74, C75) |
| C58, C59, C61 | interleaving machine of the server state's goroutines and one subscriber | inductive invariants; negations by traces |
| C60 | infoer state | arithmetic; negation for a song at index 0 |
| C62, C65 | commands as state functions | list and case analysis |
| C63, C64 | StreamLoop machine | progress by a decreasing measure; tracking a jump token through the machine; negations |
| C66 | readLoop over the results of Readline | negation; partial |
| C67, C68 | drawing as cell writes, UTF-8 byte offsets | exact characterisation of the cell of each character; layout for all texts |
| C69 | strings.Replacer over the log format | computation for arbitrary messages |
| C70, C71 | composition of the stream loop, Fill, streamMusic, wire, ReadChunks and Stream models | corollaries of the component theorems |
| C76, C77 | playlist calls of several sessions interleaved | inductive invariants (permutation, sublist, counting removals); negations by executions |
| C78, C79 | filepath.Match and Glob as in Go's library, file system as a tree | the matcher is complete for the documented pattern language and sound for the same language by bytes, the two agreeing for ASCII names or patterns without ? and classes behind a star (greedy stars, chunks); Glob by induction on the parts of the pattern; negations |
| C80 | the machine of StreamLoop with edits | invariant: until the next song is picked the loop refers to the same index; then the order invariant of C06 on the edited list; the single commands by C05; negations for edits at or before the playing song |
| C81, C82 | Timing under all schedules, with the division by zero | invariant: the stored estimates are a suffix, the offset a mean of a window of the handled responses; then C21; negation for a reset between test and averaging |
| C83, C84 | Streamer and Timing | playing mode does not read the clock (induction on calls); the call with the marker, then C71; negations for clocks ahead |
| C85 | Ticker: time.Tick as a channel of capacity 1, arbitrary running times of the iterations | number of ticks before each iteration (induction); exact times while no iteration takes longer than a period; negation after a stall |
| C86, C87 | PlayerStart: all schedules of Init, subscription, messages and handlers | invariant: each goroutine runs its message's own handler; volume and queue as functions of the schedule; negations |
| C88, C89 | Startup: the main functions as lists of visible events, for arbitrary answers of the environment | case analysis, 64 bit division; negations |
| C90 | Startup: event loop | induction on the events |
| C91 | ServerState and two Infoers | both displays are that of an infoer which never prunes (C44); dropped songs and toggles do not matter after the newest song's start (C31); arithmetic for the position; negation before |
| C92 | Console: registry, parser, commands composed | the registry is unique by C40; case analysis; literal texts by reduction |
| C93 | Console: OptionsFuncs in the completer | C38 for plain lines; what walking a directory tree finds (C52) |
| C94 | Console, Glob, Files | composition of C93, C38, C35, C79; negations by example and from C79 |
| C95 | StreamLoop with Decode.getStreamer as decoder; due times of C71 | C08 puts sample j of the recording j places after the announced index; spacing of due times by division with remainder; negation by one run |
| C96 | Machine: StreamMusic, Streamer, Infoer, Timing with every operation wrapping at 64 bits | equal to the exact functions: each intermediate value is bounded, sums that are not compared are a ring homomorphism modulo 2^64; negations by computation |
| C97 | StreamLoop | invariant of schedules without a race, induction over all later schedules; negation for every state about to announce, with the wrong announcement invariant ever after |
| C98 | Grammar: both transition networks decoded from the serialized numbers, generated parser and listener | inversion of paths of the networks gives the only viable alternatives; every token sequence has a path (induction); refinement of Parser for every line |
| C99 | Flags: names, keys, defaults, which value is read, which variables each program uses | lookup of a flag equals the last value under any of its names (for every command line); accepted command lines characterised; negations for all command lines |
| C100 | `Info` as its five separately locked steps with handlers in the gaps (InfoRace) | every execution related to a one-at-a-time history of the never-pruning infoer of C44: messages of a gap are moved before or after the display, lists related by `SimC`/`SimP`. The one gap where this fails is refuted. |
| C101 | the runs of C44 and the histories of C30 (Infoer, ServerState) | the pruned list starts with the last resume before the song, behind it at most one pause before the song; chunks counted by their number in the schedule. Songs: refuted by the invariant that the stored songs are all songs received. |
| C102 | the commands of C33 with their texts (Commands) | reply and state after it related, number texts by the value they denote, added songs by permutation |
| C103 | several `volumeCommand`s as steps: assignment, reading for the message, one write per connection in any order, reading for the reply (VolumeRace) | invariants over all interleavings (what is owed to a connection); refutations as executions for all volumes and numbers of connections |
| C104 | Registry: steps of append, in-place sort and lookup | invariant: where the command is, moved by at most one place per addition, not behind the lookup's index; miss bound; soundness invariant; constructed miss |
| C105 | StreamLoop with `pos` | invariants along schedules: position in range and naming the current song while neither edited nor jumped; last announcement names `current`; negations for every streaming state |
| C106 | ClientEnd over Wire.handleConnection and Logging | invariant over schedules (permutation of calls, what is printed, terminal); measure of the reader; constructed schedule |
| C107 | Acceptor | induction over the answers of Accept |
| C108 | Float64, Pcm | rounding lemmas (nearest, monotone, exact on float64 values, error bound) for all bit patterns |
| C109 | Float64 | error bound of the division, for every level |
| C110 | ProgressBar, Display | error bounds of division and product, monotonicity of rounding; C48 and C68 for the drawing |
| C111 | VolumeLine, Display | error bounds of the parser's and the product's rounding below half a hundredth |
| C112 | SoundPath | composition of C08, C11, C13, C14, C20, C24, C55, C108, C109 |
| C113 | Screen on top of StreamLoop, Infoer, SongInfo, Display, Float64 | composition of C46 (position and audio), C54 (texts), C45/C47/C68/C110/C111 (cells); the exact behaviour for a song at index 0 and before any song proved separately |
| C114 | SshSession on top of Session | invariant over all histories: the conversation is a list of turns; what is read, called, written and logged is a function of it |
| C115 | Json on top of Auth | a grammar of JSON (Spells, Str) independent of the parser; parser sound and complete for it; base64 by an encoder in the specification; composition with C53 |
| C116 | Json on top of SongInfo | same grammar; LyricsText; composition with C54 through Known; UTF-8 by invariant of the string decoder |
| C117 | Numbers on top of Commands | Integer: digits and their value, independent of the loop; overflow tests proved exact; composition with C07, C34, C102 |
| C118 | Numbers, Float64, VolumeLine on top of Commands | grammar Numeral with its value n * base^e; parser sound and complete for it; clipping of exponents shown harmless; nearest by round_nearest; composition with C108, C111, C33 |
| C119 | CommandLine on top of Flags, Numbers, Logging | grammar of command lines (Line, Reads, OneName) with sound and complete parser, unambiguous; settings by lookup of the last value (C99), log levels by C50 |
| C120 | CommandLine (ParseDuration), Float64 | grammar Time; parser sound and complete; short fractions exact since all intermediate values are representable; long ones by relative error of three roundings and of the powers of ten (33 of them by kernel evaluation, larger ones by a lower bound) |
| C121 | Launch, CommandLine, Startup | values have the types of their options (induction over the line), composition with C119; decimal numbers characterised by a separate predicate; chunk time positive iff rate ≤ nanoseconds of the size modulo 2^64 |
| C122 | Slices | every operation yields the list model's content, keeps the slice within its array and leaves slices apart from it alone (frame); invariant over histories: lists handed out share no array with the playlist or each other |
| C123 | Slices | invariant: array = elements followed by zero values; player: array length bounded by the longest backlog plus spare room; counterexamples for connections and played chunks |
| C124 | Model/ServerStart | invariant over all schedules (no command before both handlers; without commands the list is empty and the loop at its top), and simulation by Model/StreamLoop, which assumed the handlers set |
| C125 | Model/PlaylistRun | forward simulation: completing the block being pushed gives a state of Model/StreamLoop; the channels are a run of Model/Fill; C11 and its deadlock freedom carried over |
| C126 | Model/PlaylistRun | invariants of the simulated StreamLoop after the command (only silence; song goes on; at most one block then the break), plus the lead bound of C125 |
| C127 | Model/StreamLoop64 | equality with Model/StreamLoop by a range invariant; there C12_nonNeg_reachable; exact behaviour of the one position outside the range |
| C128 | PlaylistRun + Ticker + StreamMusic | the calls of Fill begun by T number at most the periods passed (C55), so what is read or asked for by T is due by T + delay; C126 bounds in samples how far ahead the playlist has committed; durations of sample counts add up from below |
| C129 | Streamer | induction over the big-step reading of `stream` and over the calls, tracing for each slot the index of its sample and the last synchronisation; due times differ by sample durations up to one nanosecond per chunk border |
| C130 | PlaylistRun + Ticker + StreamMusic + Pipeline + ReadChunks + Streamer | C128 bounds what the messages carry, the player's buffer is that part of the stream, C129 gives the time of the slots; the failing case by computing the call |
| C131 | Streamer | the first call at or after the time the first sample is a buffer overdue is less than G after it; from there C71_on_schedule |
| C132 | PlaylistRun + Ticker + StreamMusic | invariant from the queueing on: silence counted against a budget (none while at the top of the loop, one break before it), then the song as in C126; bound of what is being pushed; then as C128 |
| C133 | PlaylistRun + Ticker + StreamMusic + Infoer | the history of the composed server is one of StreamLoop without the race (step_sim); position at a time against calls begun (rounding); invariants: no block behind a jump without a new announcement, no announcement inside a song that goes on; then C46 |
| C134 | Infoer + InfoRate | the first chunk that has not ended at the infoer's rate, by induction over the sorted list; then rounding bounds between the two grids of chunk ends |
| C135 | Streamer + ReadChunks + StreamLoop composed | C129's induction over the calls, for any time stamps whose steps are bounded, with the slot of the last synchronisation and that no marker came since; then the stamps of one rate against the due times of the other |
| C136 | Streamer + ReadChunks + StreamLoop composed | the same induction, for the rest of the buffer: it begins where the player is on time (or waits), and the last sample received is due within the lead; due times count samples |
| C137 | Streamer + ReadChunks + PlaylistRun composed | induction over calls: what follows a sample in the next slot, also across calls; invariant of the streaming loop while playing: only samples of songs are pushed |
| C138 | VolumeTurn, SoundPath | invariant over all interleavings: bytes written and converted so far are the values put out, each at the volume in force at its conversion; refinement to the device model of C112 |
| C139 | StreamLoop + Infoer composed | what an infoer shows inside a block is the state announced there (any schedule); with C97 it is right after the last pause or resume, or wrong for good |
| C140 | Console + Commands + Numbers composed | each listed number is a good word of digits denoting its index, so it parses, is read and used as that index |

## Wrong programs

`seeded/LOG.jsonl`: each line is an edit of the model of the kind a bug in the Go code would be. `theorems_failed` lists the
first declarations the compiler rejects; these may be lemmas the property theorems are built on. Edits after which a
theorem still held although its English claim was false led to a stronger theorem (`theorems_tightened`).
