{"id": "C01", "title": "Playback buffer is a FIFO under every interleaving", "statement": "While one goroutine at a time Adds and one at a time Removes/Peeks, concurrently and with arbitrary preemption, the samples returned by Remove are exactly the samples passed to Add, in the same order, each once; Peek returns the sample the next Remove will return; at no time are more than Cap() samples buffered and no buffered sample is overwritten.", "quantifier": "every capacity >= 1, every sequence of Add/Remove/Peek calls and every interleaving of their atomic steps", "why_tests_cant": "races between the writer's slot write / index update and the reader's slot read / index update depend on the schedule; a test sees a handful of schedules", "anchors": ["playback/timed_sample_queue.go:timedSampleQueue.Add", "playback/timed_sample_queue.go:timedSampleQueue.Remove", "playback/timed_sample_queue.go:timedSampleQueue.Peek", "playback/timed_sample_queue.go:timedSampleQueue.inc"]}
{"id": "C02", "title": "Producer and consumer of the playback buffer never wait for each other forever", "statement": "It never happens that a goroutine is asleep in Add (waiting for room) while another is asleep in Remove/Peek (waiting for a sample) with nobody left to wake them.", "quantifier": "every capacity, every call sequence and every schedule of the condition-variable steps", "why_tests_cant": "a deadlock needs one exact preemption point between the fullness test and the sleep", "anchors": ["playback/timed_sample_queue.go:timedSampleQueue.waitNotFull", "playback/timed_sample_queue.go:timedSampleQueue.waitNotEmpty"]}
{"id": "C03", "title": "A blocked Remove/Peek returns once a sample is available", "statement": "Whenever a goroutine sleeps in Remove or Peek and a later-completed Add left a sample in the buffer, the sleeper is woken (no lost wake-up).", "quantifier": "every capacity, call sequence and schedule", "why_tests_cant": "a lost wake-up needs one exact preemption point", "anchors": ["playback/timed_sample_queue.go:timedSampleQueue.Add", "playback/timed_sample_queue.go:timedSampleQueue.waitNotEmpty"]}
{"id": "C04", "title": "Len and Cap of the playback buffer", "statement": "Len() is always the number of samples added and not yet removed, is between 0 and Cap(), and Add may proceed exactly when Len() < Cap() and Remove exactly when 0 < Len().", "quantifier": "every capacity >= 1 and every history of completed Add/Remove calls, including arbitrarily many wrap-arounds", "why_tests_cant": "index wrap-around at twice the capacity after unbounded histories", "anchors": ["playback/timed_sample_queue.go:timedSampleQueue.Len", "playback/timed_sample_queue.go:timedSampleQueue.full", "playback/timed_sample_queue.go:timedSampleQueue.empty"]}
{"id": "C05", "title": "Playlist edits act on an ordered list with clipped positions", "statement": "AddSong appends; InsertSong(s,i) puts s at position i clipped to [0,len]; RemoveSong(i) removes and returns the song at i clipped to the list bounds and returns \"\" on an empty list; Songs() returns the songs in order; no call crashes.", "quantifier": "every playlist content, every integer index, every history of edits", "why_tests_cant": "boundary indices and histories are unbounded", "anchors": ["playback/playlist.go:Playlist.InsertSong", "playback/playlist.go:Playlist.RemoveSong", "playback/playlist.go:Playlist.AddSong", "playback/playlist.go:Playlist.Songs"]}
{"id": "C06", "title": "Songs play in playlist order and wrap around", "statement": "With an unchanged non-empty playlist whose songs are all playable and no jump, songs are played in list order starting from the current position, and after the last song the first one follows, forever.", "quantifier": "every playlist, every start position, every number of songs played, every pause/resume pattern", "why_tests_cant": "needs induction over unboundedly many songs", "anchors": ["playback/playlist.go:Playlist.StreamLoop", "playback/playlist.go:Playlist.nextSong", "playback/playlist.go:Playlist.shouldBreakStreamerPushLoop"]}
{"id": "C07", "title": "jump p plays song p next", "statement": "After `jump p` (SetPos) the next song started is the one at position p modulo the playlist length, for every integer p and regardless of when the jump arrives relative to the end of the current song; it never crashes the server and the command returns.", "quantifier": "every playlist, every integer p, every interleaving of the jump with the streaming loop", "why_tests_cant": "depends on the interleaving with the end-of-song path and on sign conventions of %", "anchors": ["playback/playlist.go:Playlist.SetPos", "playback/playlist.go:Playlist.nextSong", "playback/playlist.go:Playlist.shouldBreakStreamerPushLoop"]}
{"id": "C08", "title": "Pausing never drops or duplicates audio", "statement": "If a song plays to its end without a jump, the non-pause samples pushed into the stream for it are exactly the decoded samples of the song in order, whatever the pattern of pauses and resumes; pauses contribute only NaN samples.", "quantifier": "every song length (any remainder modulo the 512-sample block), every pause/resume schedule", "why_tests_cant": "unbounded schedules of toggles relative to block boundaries", "anchors": ["playback/playlist.go:Playlist.pushStreamer", "playback/playlist.go:Playlist.pushBuffer", "playback/playlist.go:Playlist.pushNanSamples"]}
{"id": "C09", "title": "Announced song start index is exact", "statement": "Every new-song announcement carries the index in the stream of the first sample pushed for that song and the song's name, and announcements come in strictly increasing index order provided songs or song breaks are non-empty.", "quantifier": "every playlist, history of edits, jumps and pauses", "why_tests_cant": "index arithmetic over unbounded histories", "anchors": ["playback/playlist.go:Playlist.pushStreamer", "schedule/server_state.go:serverState.createNewSongHandler"]}
{"id": "C10", "title": "Pause announcements alternate and are block exact", "statement": "Pause/resume announcements alternate between paused and playing starting with 'paused' iff streaming starts paused, carry non-decreasing sample indices, and every 512-sample block of a song pushed after an announcement and before the next is NaN exactly when the last announcement says paused.", "quantifier": "every pause/resume schedule, every song sequence", "why_tests_cant": "depends on toggles landing between any two blocks", "anchors": ["playback/playlist.go:Playlist.callPauseToggleHandler", "playback/playlist.go:Playlist.pushStreamer"]}
{"id": "C11", "title": "Chunks cut the sample stream without gaps or overlaps", "statement": "Successive Fill calls return consecutive windows of the pushed stream: the i-th chunk holds samples [k,k+size) where k is the returned first sample index, low and high channels stay paired, and the next index is k+size.", "quantifier": "every stream, every sequence of chunk sizes", "why_tests_cant": "unbounded sequences; pairing of two independent channels", "anchors": ["playback/playlist.go:Playlist.Fill", "playback/playlist.go:copyFloatChannel", "playback/playlist.go:Playlist.pushSample"]}
{"id": "C12", "title": "The stream always makes progress", "statement": "While the server runs, the streaming loop keeps pushing samples (silence if nothing is playable), so chunk broadcasting never stalls.", "quantifier": "every playlist content including unreadable files", "why_tests_cant": "non-termination cannot be observed by a finite test", "anchors": ["playback/playlist.go:Playlist.StreamLoop"]}
{"id": "C13", "title": "Chunk time stamps are equally spaced and agree between audio and info channel", "statement": "The n-th audio chunk and the n-th chunk info carry the same start time and first sample index; start times advance by the chunk duration and first sample indices by the chunk size; the schedule drifts from the exact sample clock by less than one nanosecond per chunk.", "quantifier": "every chunk size, sample rate and number of chunks", "why_tests_cant": "rounding accumulates over unboundedly many chunks", "anchors": ["schedule/server_state.go:serverState.streamMusic", "cmd/music-sync-server/main.go:setScheduleVars"]}
{"id": "C14", "title": "Player output preserves sample order", "statement": "Filling an output buffer of n samples produces exactly n samples; the audible ones are a subsequence of the queued samples in order, each used at most once; everything consumed but not played is either a NaN marker or was discarded during a resynchronisation.", "quantifier": "every queue content, buffer length, mode and time", "why_tests_cant": "mode switches can fall at any offset in the buffer", "anchors": ["playback/streamer.go:timedMultiStreamer.Stream", "playback/streamer.go:timedMultiStreamer.streamDirect", "playback/streamer.go:timedMultiStreamer.streamSync"]}
{"id": "C15", "title": "Resynchronisation aligns playback with the clock", "statement": "When the player leaves synchronising mode at output time now, the next queued sample is due at or after now, and less than one sample period later if queued samples are contiguous; while synchronising it outputs silence only.", "quantifier": "every queue content, every time, every buffer length", "why_tests_cant": "depends on the exact relation of clock, buffer length and time stamps", "anchors": ["playback/streamer.go:timedMultiStreamer.streamSync"]}
{"id": "C16", "title": "A song whose data arrives in time is played from its first sample", "statement": "If a song's first sample is queued before it is due, a synchronising player plays that first sample (it starts the song on time instead of cutting its beginning).", "quantifier": "every queue, time and buffer length", "why_tests_cant": "an off-by-one-buffer condition that only shows as a short cut in audio", "anchors": ["playback/streamer.go:timedMultiStreamer.streamSync"]}
{"id": "C17", "title": "Sample to PCM conversion", "statement": "Every sample value (after volume) is clipped to [-1,1] and written as the little-endian 16-bit value trunc(v*32768); conversion is monotone; distinct PCM levels are preserved; full-scale positive input does not flip sign.", "quantifier": "every rational sample value", "why_tests_cant": "continuum of inputs; extreme points", "anchors": ["playback/playback.go:convertSampleToBytes", "playback/playback.go:samplesToAudioBuf"]}
{"id": "C18", "title": "CombineSamples pairs channels", "statement": "CombineSamples returns min(len(low),len(high)) pairs with element i equal to (low[i],high[i]).", "quantifier": "all pairs of slices of any lengths", "why_tests_cant": "unbounded lengths", "anchors": ["playback/playback.go:CombineSamples"]}
{"id": "C19", "title": "Chunks play in schedule order even if they arrive out of order", "statement": "Whatever order the goroutines deliver chunks in, the player buffers samples in non-decreasing due time.", "quantifier": "every arrival order of chunks", "why_tests_cant": "depends on goroutine scheduling", "anchors": ["playback/playback.go:QueueChunk", "playback/streamer.go:timedMultiStreamer.ReadChunks", "comm/package_handler.go:TypedPackageHandler.Handle"]}
{"id": "C20", "title": "Buffered samples carry exact due times", "statement": "Sample i of a chunk with start time s is buffered with due time s + floor(i*1s/rate), chunks are consumed in the order they were queued, each exactly once, none lost.", "quantifier": "every chunk list, sample rate and interleaving of QueueChunk with the reader loop", "why_tests_cant": "unbounded queues and schedules", "anchors": ["playback/streamer.go:timedMultiStreamer.ReadChunks", "playback/streamer.go:timedMultiStreamer.samplesDuration", "playback/playback.go:QueueChunk"]}
{"id": "C21", "title": "Clock offset error is bounded by half the round-trip time", "statement": "If server clock = client clock + D, the offset estimated from one exchange differs from D by at most half the network round-trip (plus rounding), and is exact (up to rounding) for symmetric delays; the averaged offset obeys the bound for the worst exchange.", "quantifier": "all delays, offsets, timestamps and number of exchanges", "why_tests_cant": "continuum of delays", "anchors": ["timing/timing.go:UpdateOffset", "timing/timing.go:GetSyncedTime"]}
{"id": "C22", "title": "The offset changes only when a full synchronisation cycle has completed", "statement": "After ResetOffsets(n), n>0, the first n-1 responses leave the synced clock unchanged and the n-th sets the offset to the floor of the mean of exactly those n estimates.", "quantifier": "every n and every response values; every previous state", "why_tests_cant": "unbounded n; capacity growth of slices", "anchors": ["timing/timing.go:ResetOffsets", "timing/timing.go:UpdateOffset", "schedule/infoer.go:syncTime"]}
{"id": "C23", "title": "Wire round trip under any fragmentation", "statement": "A message sent over a connection is received as an equal message, however the transport splits writes and reads.", "quantifier": "every message, every split of writes and reads into non-empty pieces", "why_tests_cant": "unbounded sizes and splits", "anchors": ["comm/package_util.go:toWire", "comm/package_util.go:readWire", "comm/package_util.go:sendWire", "comm/package_util.go:readBytes"]}
{"id": "C24", "title": "Message streams keep their boundaries", "statement": "Any sequence of messages written one after the other (also by concurrent senders as long as each write is atomic) is read back as exactly that sequence, in order.", "quantifier": "every sequence of messages, every interleaving of senders", "why_tests_cant": "unbounded sequences and schedules", "anchors": ["comm/package_util.go:sendWire", "comm/package_util.go:readWire", "comm/message_sender.go:multiMessageSender.SendMessage"]}
{"id": "C25", "title": "Hostile or damaged input cannot crash the peer", "statement": "For every byte stream received, reading a message either yields a message or an error that closes that connection; it never crashes the process.", "quantifier": "every byte stream", "why_tests_cant": "infinitely many byte streams", "anchors": ["comm/package_util.go:readWire", "comm/package_util.go:readBytes", "comm/conn_handler.go:handleConnection"]}
{"id": "C26", "title": "No message is delivered from an incomplete frame", "statement": "If the connection ends before a frame is complete, no message is handed to the handlers for it; the messages before it are all delivered.", "quantifier": "every message sequence and every truncation point", "why_tests_cant": "every cut point of every stream", "anchors": ["comm/package_util.go:readWire", "comm/conn_handler.go:handleConnection"]}
{"id": "C27", "title": "Broadcast reaches exactly the subscribed, connected clients", "statement": "SendMessage writes the message to a connection iff it is connected (added and not yet removed) and either the message type has no channel or the connection subscribed to one of the type's channels; audio chunks only go to AUDIO, song/chunk/pause info only to META, volume to both.", "quantifier": "every history of connects, disconnects and subscriptions; every message", "why_tests_cant": "unbounded histories", "anchors": ["comm/message_sender.go:multiMessageSender.SendMessage", "comm/message_sender.go:multiMessageSender.isSubscribed", "comm/message_sender.go:multiMessageSender.AddConn", "comm/message_sender.go:multiMessageSender.DelConn", "comm/message_sender.go:multiMessageSender.Subscribe", "comm/package_util.go:channelOf"]}
{"id": "C28", "title": "Broadcast error reporting is complete", "statement": "SendMessage returns nil iff every attempted delivery succeeded, otherwise an error listing exactly the failures; one failing client does not prevent delivery to the others, under every scheduling of the collecting goroutines.", "quantifier": "every set of connections and failures, every schedule", "why_tests_cant": "goroutine schedules", "anchors": ["comm/message_sender.go:multiMessageSender.SendMessage", "util/collector.go:ErrorCollector.Add", "util/collector.go:ErrorCollector.Err", "util/multi_error.go:MultiError.Error"]}
{"id": "C29", "title": "Received messages are dispatched to their own handler only", "statement": "Each received protocol message invokes exactly the handler for its type, once, with the unmodified message and the sending connection; other registered types invoke none; the server answers time-sync requests and pings to the requesting connection and echoes the client's send time.", "quantifier": "every message and connection", "why_tests_cant": "all message values", "anchors": ["comm/package_handler.go:TypedPackageHandler.Handle", "comm/package_handler.go:serverPackageHandler.HandleTimeSyncRequest", "comm/package_handler.go:serverPackageHandler.HandlePingMessage"]}
{"id": "C30", "title": "A new subscriber is brought up to date", "statement": "On subscribing to AUDIO a client is sent the current volume; on META the volume, then the newest song if any, then all retained pause toggles in order; a fresh connection is sent nothing.", "quantifier": "every server history", "why_tests_cant": "unbounded histories", "anchors": ["schedule/server_state.go:serverState.createClientHandler", "schedule/server_state.go:serverState.sendPauses", "schedule/server_state.go:serverState.sendNewestSong", "schedule/server_state.go:serverState.sendVolume"]}
{"id": "C31", "title": "Dropping old pause toggles on the server is invisible to clients", "statement": "For any chronologically ordered toggle history, the toggles the server retains make an infoer compute the same paused time and play state, for every sample position after the newest song's start, as the full history would.", "quantifier": "every ordered toggle history, every newest song, every later position", "why_tests_cant": "unbounded histories", "anchors": ["schedule/server_state.go:serverState.removablePauses", "schedule/server_state.go:serverState.removeOldPauses", "cmd/music-sync-infoer/state.go:state.pausesInCurrentSong"]}
{"id": "C32", "title": "Concurrent pruning of pause toggles is safe", "statement": "However the pruning goroutines interleave, no toggle still needed is dropped and the server does not crash.", "quantifier": "every interleaving of any number of prune goroutines with appends", "why_tests_cant": "goroutine schedules", "anchors": ["schedule/server_state.go:serverState.removeOldPauses", "schedule/server_state.go:serverState.removablePauses", "schedule/server_state.go:serverState.createPauseToggleHandler"]}
{"id": "C33", "title": "A rejected command changes nothing", "statement": "If a control command is rejected (its usage is printed) then playlist, position, play state, volume and the messages sent are unchanged.", "quantifier": "every state, command and argument list", "why_tests_cant": "all argument lists", "anchors": ["schedule/server_state_commands.go:serverState.volumeCommand", "schedule/server_state_commands.go:serverState.removeCommand", "schedule/server_state_commands.go:serverState.jumpCommand", "schedule/server_state_commands.go:serverState.queueCommandExec", "schedule/server_state_commands.go:parseIntParam", "schedule/server_state_commands.go:parseFloatParam"]}
{"id": "C34", "title": "queue inserts the matching songs in listing order at the requested position", "statement": "`queue pattern` appends all matching songs in listing order; `queue pattern p` inserts them contiguously in listing order at position p clipped to the playlist.", "quantifier": "every playlist, every match list, every integer p", "why_tests_cant": "boundary positions and overflow", "anchors": ["schedule/server_state_commands.go:serverState.queueCommandExec", "playback/playlist.go:Playlist.InsertSong"]}
{"id": "C35", "title": "Command line parse/unparse round trip", "statement": "Parsing the text produced by Unparse gives back the same command and parameters.", "quantifier": "every parsed command", "why_tests_cant": "unbounded strings", "anchors": ["ssh/parser/parser.go:ParsedCommand.Unparse", "ssh/parser/parser.go:ParseCommand"]}
{"id": "C36", "title": "Documented escaping rules", "statement": "Unescaped spaces separate parameters, repeated spaces do not create parameters, `\\ ` yields a literal space, `\\\\` a literal backslash, any other backslash stands for itself; nothing else is special.", "quantifier": "every ASCII input line", "why_tests_cant": "unbounded strings", "anchors": ["ssh/parser/parser.go:ParseCommand", "ssh/parser/Shell.g4"]}
{"id": "C37", "title": "Non-ASCII characters survive command parsing", "statement": "A parameter typed with non-ASCII letters reaches the command unchanged.", "quantifier": "every line", "why_tests_cant": "all Unicode strings", "anchors": ["ssh/parser/parser.go:shellListener.ExitCharacter"]}
{"id": "C38", "title": "Completion proposals extend what was typed and never crash", "statement": "For every line and cursor, completing never crashes the server, and accepting a proposal turns the line into one that parses to the same command with the completed name or argument.", "quantifier": "every line and cursor position", "why_tests_cant": "unbounded strings", "anchors": ["ssh/auto_completer.go:sshAutoCompleter.Do", "ssh/auto_completer.go:sshAutoCompleter.commandsWithPrefix", "ssh/auto_completer.go:sshAutoCompleter.commandArgOptionsWithPrefix"]}
{"id": "C39", "title": "Session dispatch", "statement": "A line runs exactly the registered command whose name equals the parsed command word, with the parsed parameters, once; unknown words run nothing and print an error; only `exit` (when not shadowed) ends the session.", "quantifier": "every line and registry", "why_tests_cant": "unbounded strings", "anchors": ["ssh/session_handler.go:session.handleLine", "ssh/session_handler.go:session.execCommand"]}
{"id": "C40", "title": "Command registry", "statement": "After any sequence of registrations the registry is sorted by name and contains exactly the registered commands; looking up a name finds a command with that name iff one was registered, and the help listing shows each once.", "quantifier": "every sequence of registrations", "why_tests_cant": "unbounded sequences; sort instability", "anchors": ["ssh/command.go:RegisterCommand", "ssh/command.go:commandByName", "ssh/command.go:helpCommand"]}
{"id": "C41", "title": "Displayed position follows the clock", "statement": "With the server's chunk infos received in any order, the infoer's current sample at time now within chunk n equals n's first index plus floor((now-start)*rate/1s); it is monotone in now, stays within the chunk (up to its end) and is continuous across chunk borders.", "quantifier": "every chunk schedule, arrival order, rate and time", "why_tests_cant": "continuum of times and orders", "anchors": ["cmd/music-sync-infoer/state.go:state.currentSample", "cmd/music-sync-infoer/state.go:state.removeOldChunks", "cmd/music-sync-infoer/state.go:upcomingChunk.endTime"]}
{"id": "C42", "title": "Displayed song is the newest started one", "statement": "The current song is the announced song with the greatest start index strictly before the current sample, or 'None', independent of the announcement order.", "quantifier": "every set and order of announcements, every sample", "why_tests_cant": "orders", "anchors": ["cmd/music-sync-infoer/state.go:state.currentSong", "cmd/music-sync-infoer/infoer_package_handler.go:infoerPackageHandler.HandleNewSongInfo"]}
{"id": "C43", "title": "Paused time in the current song is counted exactly", "statement": "The infoer's paused count equals the number of sample indices in [song start, now) at which playback was paused according to the toggles, and its play state is that of the last toggle before now.", "quantifier": "every toggle set in any arrival order, every song start and sample", "why_tests_cant": "unbounded histories", "anchors": ["cmd/music-sync-infoer/state.go:state.pausesInCurrentSong", "cmd/music-sync-infoer/state.go:pausesInCurrentSongState.handlePause"]}
{"id": "C44", "title": "Infoer pruning is invisible", "statement": "Dropping old chunks and old pause toggles while displaying does not change any later displayed information.", "quantifier": "every state and every later query at a later time", "why_tests_cant": "histories of queries", "anchors": ["cmd/music-sync-infoer/state.go:state.removeOldPauses", "cmd/music-sync-infoer/state.go:state.removeOldChunks", "cmd/music-sync-infoer/state.go:state.Info"]}
{"id": "C45", "title": "Lyrics display", "statement": "The lyrics view has exactly the requested number of lines, newest first; a word is shown iff its time stamp is before now+100ms and its line precedes the next upcoming line; for songs with ordered time stamps, words never disappear from a line as time advances.", "quantifier": "every lyrics, height and time", "why_tests_cant": "continuum of times", "anchors": ["cmd/music-sync-infoer/main.go:lyricsHistory", "cmd/music-sync-infoer/main.go:lyricsNextLine", "cmd/music-sync-infoer/main.go:lyricsBuildLine"]}
{"id": "C46", "title": "End to end: displayed time in song equals audio actually streamed", "statement": "For a stream produced by the server loop with any pause schedule (toggles at block borders), at any sample position inside a song the infoer's time in song corresponds to the number of that song's audio samples streamed before that position.", "quantifier": "every playlist, song, pause schedule and position", "why_tests_cant": "composition of unbounded producer and consumer histories", "anchors": ["playback/playlist.go:Playlist.pushStreamer", "cmd/music-sync-infoer/state.go:state.Info"]}
{"id": "C47", "title": "Durations are printed as m:ss / h:mm:ss", "statement": "For every non-negative duration the printed fields satisfy 0<=ss<60, 0<=mm<60 (with hours) and denote the whole seconds of the duration.", "quantifier": "every non-negative duration", "why_tests_cant": "unbounded", "anchors": ["cmd/music-sync-infoer/main.go:fmtDuration"]}
{"id": "C48", "title": "Drawing stays inside its region", "statement": "drawProgress writes exactly the cells of its bar, filled cells form a prefix whose length grows with progress; drawBox writes only the border of its rectangle.", "quantifier": "every position, size and progress", "why_tests_cant": "unbounded sizes", "anchors": ["cmd/music-sync-infoer/drawing.go:drawer.drawProgress", "cmd/music-sync-infoer/drawing.go:drawer.drawBox", "cmd/music-sync-infoer/drawing.go:drawer.progressHead"]}
{"id": "C49", "title": "Log level names and filtering", "statement": "LevelByName inverts FullName and ShortName case-insensitively for every level whatever the map iteration order, unknown names mean Off; a message is written iff its level is at least the logger's cutoff, once, to the error writer iff its level is Warn or above.", "quantifier": "every name, level, cutoff table and iteration order", "why_tests_cant": "all strings and map orders", "anchors": ["logging/level.go:LevelByName", "logging/level.go:shouldLog", "logging/cutoff.go:cutoffLevel", "logging/logger.go:GetLogger"]}
{"id": "C50", "title": "--<logger>-logging flags set that logger's level", "statement": "Passing --comm-logging=debug (play, shed, ssh, time likewise) makes exactly that logger use the given cutoff.", "quantifier": "every flag assignment", "why_tests_cant": "all combinations of flags and names", "anchors": ["cmd/flags.go:HandleLoggingFlags", "cmd/flags.go:newLoggingFlag", "logging/cutoff.go:cutoffLevel"]}
{"id": "C51", "title": "Error collector returns every error once", "statement": "Err returns nil iff no error was added before, otherwise an error with exactly the added errors (in some order), for every interleaving of the adding goroutines.", "quantifier": "every multiset of errors and every schedule", "why_tests_cant": "goroutine schedules", "anchors": ["util/collector.go:ErrorCollector.Add", "util/collector.go:ErrorCollector.Wait", "util/collector.go:ErrorCollector.Err"]}
{"id": "C52", "title": "Song listing names resolve to the listed files", "statement": "Every name listed by ls / matched by queue, joined to the music directory, is the path of the listed file, and listing never shows files outside the music directory.", "quantifier": "every directory tree, music directory spelling and sub directory argument", "why_tests_cant": "unbounded trees and strings", "anchors": ["util/file_utils.go:ListAllFiles", "util/file_utils.go:ListGlobFiles", "util/file_utils.go:removeDirPrefix", "util/file_utils.go:FilterSongs", "playback/playback.go:getStreamer"]}
{"id": "C53", "title": "SSH authentication", "statement": "A password login succeeds iff the user exists, has a non-empty password and it equals the offered one; a key login succeeds iff the user exists, has a non-empty parseable key and it equals the offered one; users without credentials can never log in.", "quantifier": "every user table and credential", "why_tests_cant": "all strings", "anchors": ["ssh/options.go:createPasswordAuthOption", "ssh/options.go:createPublicKeyAuthOption"]}
{"id": "C54", "title": "Lyrics and metadata reach the infoer unchanged", "statement": "The lyrics (lines, words, time stamps), metadata, name, start and length the server collects for a song equal those the infoer stores after encoding, transport and decoding.", "quantifier": "every song description", "why_tests_cant": "unbounded nested lists", "anchors": ["schedule/server_state.go:toWireLyrics", "schedule/server_state.go:serverState.createNewSongHandler", "cmd/music-sync-infoer/infoer_package_handler.go:infoerPackageHandler.HandleNewSongInfo"]}
{"id": "C55", "title": "Protocol messages encode losslessly", "statement": "Encoding any protocol message to its protobuf form and decoding it yields an equal message; decoding is insensitive to unknown extra fields.", "quantifier": "every value of every message type in packages.proto", "why_tests_cant": "unbounded values", "anchors": ["comm/packages.proto", "comm/packages.pb.go"]}
{"id": "C56", "title": "The last volume wins on a player", "statement": "After a player has received and handled a sequence of volume messages, its volume is that of the last one received.", "quantifier": "every sequence of received messages, every schedule of the handler goroutines", "why_tests_cant": "all schedules", "anchors": ["comm/package_handler.go:TypedPackageHandler.Handle", "cmd/music-sync-player/main.go", "playback/playback.go:SetVolume"]}
{"id": "C57", "title": "Subscribing at any time does not crash the server", "statement": "A client that connects and subscribes at any time after the server socket is open, including during server start, does not crash the server.", "quantifier": "every interleaving of server start and client messages", "why_tests_cant": "all schedules", "anchors": ["comm/package_handler.go:serverPackageHandler.HandleSubscribeChannelRequest", "schedule/server_state.go", "comm/conn_handler.go"]}
{"id": "C60", "title": "Displayed time in song counts played samples", "statement": "The time in song the infoer displays is the duration of the samples since the song's start at which playback was on, the displayed length is that of the song and the progress is their ratio.", "quantifier": "every state, song and position", "why_tests_cant": "unbounded toggle histories and positions", "anchors": ["cmd/music-sync-infoer/state.go:state.Info", "cmd/music-sync-infoer/state.go:state.pausesInCurrentSong"]}
{"id": "C58", "title": "A new subscriber ends with the current volume", "statement": "Once all sends are over, the last volume a client that subscribed at any time was sent is the server's volume.", "quantifier": "every interleaving of a subscription with volume commands", "why_tests_cant": "goroutine schedules", "anchors": ["schedule/server_state.go:serverState.sendVolume", "schedule/server_state_commands.go:serverState.volumeCommand", "comm/package_handler.go:serverPackageHandler.HandleSubscribeChannelRequest"]}
{"id": "C59", "title": "A new subscriber misses no pause toggle", "statement": "Every pause toggle that a client subscribing to META needs is sent to it, either with the retained ones or as a broadcast.", "quantifier": "every interleaving of a subscription with pause toggles", "why_tests_cant": "goroutine schedules", "anchors": ["schedule/server_state.go:serverState.createPauseToggleHandler", "schedule/server_state.go:serverState.sendPauses"]}
{"id": "C61", "title": "A new subscriber is told the current song", "statement": "Once all sends are over, a client subscribed to META has been sent the song that was started last.", "quantifier": "every interleaving of song starts and a subscription", "why_tests_cant": "goroutine schedules", "anchors": ["schedule/server_state.go:serverState.createNewSongHandler", "schedule/server_state.go:serverState.sendNewestSong", "playback/playlist.go:Playlist.StreamLoop"]}
{"id": "C62", "title": "The playlist listing", "statement": "`playlist` prints one line per song of the playlist in order, each with its position, all positions padded with zeros to the same width, then the current song or None.", "quantifier": "every playlist, position and play state", "why_tests_cant": "unbounded playlists", "anchors": ["schedule/server_state_commands.go:serverState.playlistCommandExc"]}
{"id": "C63", "title": "jump always completes", "statement": "A `jump` command returns (its session does not hang), whatever was done before.", "quantifier": "every playlist state and history of jumps", "why_tests_cant": "unbounded histories, blocking", "anchors": ["playback/playlist.go:Playlist.SetPos", "playback/playlist.go:Playlist.StreamLoop", "schedule/server_state_commands.go:serverState.jumpCommand"]}
{"id": "C64", "title": "A jump interrupts at most the song playing when it is issued", "statement": "A song that starts after a jump was issued is not cut short by that jump.", "quantifier": "every schedule of jumps and songs", "why_tests_cant": "goroutine schedules", "anchors": ["playback/playlist.go:Playlist.SetPos", "playback/playlist.go:Playlist.pushStreamer"]}
{"id": "C65", "title": "Every control command has only its own effect", "statement": "queue and remove change only the playlist, jump only the position and the pending jump requests, volume only the volume and the messages sent, pause and resume only the play state, playlist nothing; only remove can crash and only jump can block.", "quantifier": "every command, argument list and state", "why_tests_cant": "all argument lists and states", "anchors": ["schedule/server_state_commands.go"]}
{"id": "C66", "title": "An abandoned line is not executed", "statement": "A line that the administrator abandons with Ctrl-C is not executed.", "quantifier": "every session history and every partially typed line", "why_tests_cant": "all lines, registries and session histories", "anchors": ["ssh/session_handler.go:session.readLoop", "ssh/session_handler.go:session.handleLine"]}
{"id": "C67", "title": "Texts are drawn without gaps", "statement": "A text (title, artist, lyrics) is drawn as its characters in consecutive cells of one row, starting at the given position, and no other cell is written.", "quantifier": "every position and text", "why_tests_cant": "all Unicode strings", "anchors": ["cmd/music-sync-infoer/drawing.go:drawer.drawString"]}
{"id": "C68", "title": "The infoer's window layout survives its contents", "statement": "For every window at least two columns wide, and every title, artist, album, lyrics and progress, the frames around the playback information and the lyrics are intact (but for their captions), the progress bar is complete, and the characters of the title and of every lyrics row are shown in order from the left up to the frame.", "quantifier": "every window size of width at least 2 and all displayed information", "why_tests_cant": "unbounded texts and sizes", "anchors": ["cmd/music-sync-infoer/main.go:redraw", "cmd/music-sync-infoer/main.go:drawPlaybackInfo", "cmd/music-sync-infoer/main.go:drawLyrics"]}
{"id": "C69", "title": "Log messages are written verbatim", "statement": "Every log line consists of the level, the logger's name cut or padded to four characters, the date and exactly the message, whatever text (placeholders of the format included) the message contains.", "quantifier": "every message, logger name, level and date", "why_tests_cant": "all strings", "anchors": ["logging/logger.go:GetLogger", "logging/logger.go:Format"]}
{"id": "C70", "title": "Players play the server's stream", "statement": "If a player handles the audio messages from some point on in the order they were sent, everything it writes to its sound device is silence or samples of the server's stream (both channels of the same sample), in the order of the stream and none twice; and the samples in its buffer carry the due time of their index in the stream.", "quantifier": "every playlist, schedule of pauses, jumps, edits, chunking, player goroutines, join time and clock readings", "why_tests_cant": "composition of five concurrent stages with unbounded histories", "anchors": ["playback/playlist.go:Playlist.StreamLoop", "playback/playlist.go:Playlist.Fill", "schedule/server_state.go:serverState.streamMusic", "cmd/music-sync-player/main.go:playerPackageHandler.HandleQueueChunkRequest", "playback/streamer.go:timedMultiStreamer.ReadChunks", "playback/streamer.go:timedMultiStreamer.Stream", "playback/playback.go:playLoop"]}
{"id": "C71", "title": "Players play the same sample at the same time", "statement": "Two players that come to play the same stretch of a song play every sample of it both play at (server) times that differ by at most the errors of their clocks (half the round trip times of their time synchronisations), one sample duration, a few nanoseconds and one nanosecond per chunk border, counting the sound device's output from the start of the call that begins playing.", "quantifier": "every sample rate, chunk size, buffer size, call times, clock offsets and travel times", "why_tests_cant": "needs all clock readings, travel times and call times; wall clock races", "anchors": ["playback/streamer.go:timedMultiStreamer.Stream", "playback/streamer.go:timedMultiStreamer.streamSync", "schedule/server_state.go:serverState.streamMusic", "timing/timing.go:UpdateOffset"]}
{"id": "C72", "title": "Every broadcast reaches every interested client exactly once, whatever happens meanwhile", "statement": "In every execution of the server, however many clients connect, subscribe, stall or leave and however many broadcasts overlap: no client gets a broadcast twice; only clients that were connected and had subscribed to it when it began get it; and when it has finished every such client has got it or the write to it failed. Subscriptions come only from the client's own messages.", "quantifier": "every interleaving of any number of connections, subscriptions and broadcasts", "why_tests_cant": "all schedules and numbers of clients", "anchors": ["comm/message_sender.go:multiMessageSender", "comm/conn_handler.go:serverConnectionAcceptor", "comm/package_handler.go:serverPackageHandler.HandleSubscribeChannelRequest"]}
{"id": "C73", "title": "Connections come and go", "statement": "The broadcast list holds every connection being served once; a connection that ended is removed and never comes back; while all clients read, every connect, disconnect, subscription and broadcast is completed after finitely many steps, in every order.", "quantifier": "every interleaving, any number of connections", "why_tests_cant": "all schedules", "anchors": ["comm/message_sender.go:AddConn", "comm/message_sender.go:DelConn", "comm/conn_handler.go:handleConnection"]}
{"id": "C74", "title": "A client that stops reading does not affect the others", "statement": "If a client keeps its connection open but does not read, the other clients go on receiving all broadcasts and new clients can connect.", "quantifier": "every execution with a stalled client", "why_tests_cant": "all schedules; needs a full TCP buffer", "anchors": ["comm/message_sender.go:multiMessageSender.SendMessage", "comm/package_util.go:sendWire"]}
{"id": "C75", "title": "The server forgets clients that have left", "statement": "After a client has disconnected the server keeps nothing about it; its memory use is bounded by the number of connected clients.", "quantifier": "every history of connects, subscriptions and disconnects", "why_tests_cant": "unbounded histories", "anchors": ["comm/message_sender.go:multiMessageSender.DelConn", "comm/message_sender.go:multiMessageSender.Subscribe"]}
{"id": "C76", "title": "Queue commands issued at the same time", "statement": "When several users give queue commands at the same time, every one of them returns, no song is lost or added twice, the songs that were in the playlist keep their order, and the songs of each command are in the playlist in listing order.", "quantifier": "every playlist, any number of sessions and commands, every interleaving of their playlist changes", "why_tests_cant": "all interleavings of unboundedly many sessions", "anchors": ["schedule/server_state_commands.go:queueCommandExec", "playback/playlist.go:AddSong", "playback/playlist.go:InsertSong"]}
{"id": "C77", "title": "Removing an existing position is safe whatever other sessions do", "statement": "A remove command naming a position that exists when it is given never crashes the server, whatever playlist commands other sessions give at the same time.", "quantifier": "every playlist, every set of concurrent remove and queue commands, every interleaving", "why_tests_cant": "all interleavings", "anchors": ["schedule/server_state_commands.go:removeCommandExec", "playback/playlist.go:RemoveSong"]}
{"id": "C78", "title": "queue selects exactly the songs that match the pattern", "statement": "queue PATTERN adds exactly the songs (.mp3 files) in the music directory whose path relative to it matches the glob pattern, part by part, each once and ordered by path; each added name opens the file that matched. A malformed pattern adds nothing and is reported as invalid. Nothing outside the music directory is selected.", "quantifier": "every music directory tree, every pattern", "why_tests_cant": "unbounded patterns, names and trees", "anchors": ["util/file_utils.go:ListGlobFiles", "util/file_utils.go:FilterSongs", "schedule/server_state_commands.go:queueCommandExec"]}
{"id": "C79", "title": "A listed song can be queued by its name", "statement": "For every song the server lists (ls, completion of queue), queue with that name adds exactly that song.", "quantifier": "every music directory tree, every song in it", "why_tests_cant": "all names and all trees", "anchors": ["schedule/server_state_commands.go:queueCommand", "util/file_utils.go:ListGlobFiles"]}
{"id": "C80", "title": "Editing the playlist while a song plays", "statement": "After a song is added, inserted or removed while another song plays, the next song announced is the one that follows the playing song in the edited playlist (the first one if it is the last).", "quantifier": "every playlist, every playing song, every edit at every moment of the song, every schedule of loop steps and pauses", "why_tests_cant": "all moments of the edit and all indices", "anchors": ["playback/playlist.go:InsertSong", "playback/playlist.go:RemoveSong", "playback/playlist.go:AddSong", "playback/playlist.go:nextSong"]}
{"id": "C81", "title": "The synced clock stays within the bound under every schedule", "statement": "Once a client has set its clock for the first time, its synced clock differs from the server clock by at most half the longest round trip of any exchange so far plus 1 ns, whatever the order, number and lateness of responses and the timing of new synchronisation cycles; before that it is its raw clock.", "quantifier": "every schedule of cycle starts and response goroutines, all delays", "why_tests_cant": "unbounded schedules of goroutines", "anchors": ["timing/timing.go:UpdateOffset", "timing/timing.go:ResetOffsets", "schedule/infoer.go:syncTime"]}
{"id": "C82", "title": "Time synchronisation does not crash the client", "statement": "No order of synchronisation cycles and responses crashes the client process.", "quantifier": "every schedule of cycle starts and response goroutines", "why_tests_cant": "a race between an unlocked test and a reset", "anchors": ["timing/timing.go:UpdateOffset", "timing/timing.go:ResetOffsets"]}
{"id": "C83", "title": "A player that has fallen behind returns to schedule", "statement": "If a player plays late or early (after a stall of the network or the device, or after a correction of its clock), it is back on schedule, within one sample duration, from its next output call on.", "quantifier": "every delay, clock correction, buffer size and position in the song", "why_tests_cant": "depends on clock readings at every call", "anchors": ["playback/streamer.go:timedMultiStreamer.Stream", "playback/streamer.go:timedMultiStreamer.streamDirect"]}
{"id": "C84", "title": "A joining player plays as soon as music is due", "statement": "A player that joins while music is streamed plays the music it receives in time, also if its output starts before its first time synchronisation is finished.", "quantifier": "every difference of the clocks, join time, buffer size and music", "why_tests_cant": "depends on the uptimes of the machines", "anchors": ["schedule/player.go:Player", "playback/streamer.go:timedMultiStreamer.streamSync", "timing/timing.go:GetSyncedTime"]}
{"id": "C85", "title": "The stream keeps its lead", "statement": "Every chunk is handed to the network at least the stream delay minus two chunk times before it is due, and never before the chunk time grid allows; also after a temporary stall of the server.", "quantifier": "every chunk size, sample rate, delay, number of chunks and running time of each iteration of the streaming loop", "why_tests_cant": "depends on the timing of all earlier iterations", "anchors": ["schedule/server_state.go:streamMusic", "cmd/music-sync-server/main.go:setScheduleVars"]}
{"id": "C86", "title": "A starting player takes over the server's volume", "statement": "Once a player has started and handled the volume the server sent it on subscribing, it plays at that volume.", "quantifier": "every volume, and every schedule of the player's initialisation, subscription, incoming messages and handlers", "why_tests_cant": "a race between the initialisation and a network message", "anchors": ["playback/playback.go:Init", "playback/playback.go:SetVolume", "schedule/player.go:Player"]}
{"id": "C87", "title": "A starting player loses no chunk it receives", "statement": "Every chunk received after the player has subscribed is queued for playing, exactly once.", "quantifier": "every schedule of initialisation, subscription, incoming messages and handlers", "why_tests_cant": "depends on how long the sound device takes to open", "anchors": ["playback/playback.go:Init", "playback/playback.go:QueueChunk", "schedule/player.go:Player"]}
{"id": "C88", "title": "The server starts completely or says why not", "statement": "For every setting and every answer of the operating system the server either comes up completely (clients, control interface and stream) or ends with status 1 and the reason.", "quantifier": "every sample rate, chunk size and success or failure of each operation of the start", "why_tests_cant": "unbounded settings; failures of the environment", "anchors": ["cmd/music-sync-server/main.go:run", "cmd/music-sync-server/main.go:setScheduleVars", "schedule/server.go:Server", "ssh/ssh.go:StartSSH"]}
{"id": "C89", "title": "A client that cannot reach the server says so", "statement": "If the connection to the server cannot be established, player and infoer end with status 1 and the reason.", "quantifier": "every reason", "why_tests_cant": "failures of the environment", "anchors": ["cmd/music-sync-player/main.go:run", "cmd/music-sync-infoer/main.go:run", "schedule/infoer.go:Infoer"]}
{"id": "C90", "title": "The infoer runs until Ctrl-C and follows the window size", "statement": "The infoer goes on until Ctrl-C is pressed, ignores all other keys, and draws in the last size of the window; only an event that is neither key nor resize makes it crash.", "quantifier": "every sequence of events", "why_tests_cant": "all histories of events", "anchors": ["cmd/music-sync-infoer/drawing.go:drawer.eventLoop"]}
{"id": "C91", "title": "An infoer that connects late shows the same as one connected from the start", "statement": "At the same moment, an infoer that subscribed at any time shows the same song, time, progress and play state as one that has been connected all the time.", "quantifier": "every history of songs, toggles and volumes before and after the subscription, every order in which each infoer handles its messages, every history of queries, every chunk size and rate", "why_tests_cant": "unbounded histories, arrival orders; composition of server and client pruning", "anchors": ["schedule/server_state.go:createClientHandler", "schedule/server_state.go:removeOldPauses", "cmd/music-sync-infoer/state.go:Info"]}
{"id": "C92", "title": "Entering a line on the console runs the command named, and only it", "statement": "On a server that has registered its commands, entering a line whose first word is help, jump, ls, pause, playlist, queue, remove, resume or volume runs that command with the remaining words and prints its message (exactly one line break at its end) or its usage line; `help` prints the eleven lines of the overview and `help NAME` the entry of that command. Any other line changes neither playlist nor volume: `clear` clears, `exit` - and nothing else - ends the session, and anything else is reported as unknown.", "quantifier": "every registry the server's registrations can produce (whatever the sorting algorithm), every line, every state of playlist and volume", "why_tests_cant": "tests try a few lines against a test registry; the claim is about all lines and all nine commands together with what they do", "anchors": ["ssh/session_handler.go: handleLine, execCommand", "ssh/command.go: helpCommand, lsCommand, RegisterCommand", "schedule/server.go: NewServer registrations", "schedule/server_state_commands.go"]}
{"id": "C93", "title": "Completion offers exactly the fitting names", "statement": "With the cursor at the end of the line, completing the first argument of `queue` offers exactly the songs in the music directory whose paths begin with the text typed, completing that of `ls` exactly the directories whose paths begin with it and go no level deeper, completing that of `help` exactly the command names that begin with it; for other arguments and other commands nothing is offered. Completing never crashes there.", "quantifier": "every directory tree, every text typed (spelled plainly, characters below U+00C0), every registry", "why_tests_cant": "tests complete a handful of fixed lines against a fixed directory", "anchors": ["schedule/server_state_commands.go: queueCommand OptionsFunc", "ssh/command.go: helpCommand, lsCommand OptionsFunc", "ssh/auto_completer.go"]}
{"id": "C94", "title": "Choosing an offered song and pressing Enter queues that song", "statement": "A song offered by completion after `queue` is, when chosen and entered, appended to the playlist, alone; a directory offered after `ls` is, when chosen and entered, listed: the songs below it are printed, one per line. (False for songs with a bracket, a backslash or a letter from U+00C0 on in their names: choosing é.mp3 queues ©.mp3 if there is such a song.)", "quantifier": "every directory tree, song and text typed before completing", "why_tests_cant": "it combines listing, completing, escaping, parsing and pattern matching for all names", "anchors": ["schedule/server_state_commands.go: queueCommandExec, queueCommand", "ssh/auto_completer.go", "ssh/parser/parser.go: ParseCommand, Unparse", "util/file_utils.go: ListGlobFiles, ListAllFiles"]}
{"id": "C95", "title": "Songs are played at the speed they were recorded at", "statement": "While a song is streamed without a pause, the sample recorded t seconds after the song's first sample is scheduled t seconds after it (up to a nanosecond per chunk border), and heard t seconds after it. (False for a file whose sample rate differs from the server's --sample-rate: the rate of the recording is ignored, so a 48 kHz file is played 8.8 % too slowly on a default server; and false for a player whose --sample-rate differs from the recording's.)", "quantifier": "every file, recording rate, server rate, chunk size, playlist history and sample of a song", "why_tests_cant": "it relates arbitrary positions of arbitrary songs in arbitrary histories to times on the schedule, with rounding errors that accumulate per chunk", "anchors": ["playback/playback.go: getStreamer, QueueChunk", "playback/playlist.go: pushStreamer", "schedule/server.go: chunk times", "cmd/flags.go: --sample-rate"]}
{"id": "C96", "title": "The times announced, played and shown stay right however long everything runs", "statement": "The chunk times announced by the server, what a player plays and what an infoer shows (position, song, time in song, length, progress) are those of exact arithmetic; 64 bit integers never overflow on the way. (Holds for clocks up to 73 years, streams up to 146 years, songs up to 54 hours and pauses of any length. False for songs of more than 58 hours, shown with a negative time, and for an infoer whose clock is not yet synchronised and more than 58 hours behind.)", "quantifier": "every clock reading, sample rate, chunk size, history of announcements, buffer content and uptime", "why_tests_cant": "overflows happen after days or years of running or at extreme values only", "anchors": ["schedule/server_state.go: streamMusic", "playback/streamer.go: Stream, streamSync, ReadChunks, samplesDuration", "cmd/music-sync-infoer/state.go: Info, currentSample, pausesInCurrentSong, endTime", "timing/timing.go: UpdateOffset", "cmd/music-sync-server/main.go: StreamChunkTime"]}
{"id": "C97", "title": "Announcements of pausing and resuming catch up with what is streamed", "statement": "Once nobody pauses or resumes any more, what the server announces about pausing agrees with what it streams: every later block is music exactly if the last announcement says playing, whatever jumps and edits of the playlist happen. (Holds unless a pause or resume falls between storing the new state and starting the announcement of it. False otherwise: a resume and a pause around that moment leave an announcement that is wrong and is never corrected.)", "quantifier": "every playlist, sequence of pauses, resumes, jumps and edits before and after, and every interleaving of them with the streaming loop", "why_tests_cant": "the race is between two adjacent statements; that nothing corrects it later is about every later schedule", "anchors": ["playback/playlist.go: callPauseToggleHandler, SetPlaying, pushStreamer"]}
{"id": "C98", "title": "The console reads every line completely", "statement": "Every line typed, of whatever characters, is accepted without a syntax error and read to its end: each character of the line is in exactly one word (or is a separator), in order, and the command and parameters returned are those of the documented rules (a pair of backslash and space or backslash wins over a lone backslash).", "quantifier": "every line; every lexer and predictor that keep the contracts of the ANTLR runtime (longest match, first rule; least viable alternative)", "why_tests_cant": "the grammar is ambiguous and does not mention the end of the input, so the generated parser may stop early or split elsewhere for some line; the transition tables are opaque numbers", "anchors": ["ssh/parser/Shell.g4", "ssh/parser/shell_parser/shell_lexer.go: serializedLexerAtn", "ssh/parser/shell_parser/shell_parser.go: parserATN, Line, Command, Parameter, CommandString, RawString, Character", "ssh/parser/parser.go: ParseCommand, shellListener"]}
{"id": "C99", "title": "Options on the command line take effect", "statement": "Each option of server, player and infoer, given under any of its names, sets exactly what its description says (the last value wins), options not given have the documented default, unknown options and one option under two names are rejected. (False for the three time-sync options of the server, which nothing uses, for --host-key-file, the name in the README, which is rejected, and for the logging options, C50.)", "quantifier": "every command line of the three programs", "why_tests_cant": "the names, keys and defaults must agree for every combination and order of options; that an option is without effect is a statement about all command lines of all programs", "anchors": ["cmd/flags.go", "cmd/music-sync-server/main.go: main, setScheduleVars, run", "cmd/music-sync-player/main.go: main, run", "cmd/music-sync-infoer/main.go: main, run", "schedule/schedule.go", "README.md"]}
{"id": "C100", "title": "What is displayed is consistent although messages arrive meanwhile", "statement": "Whatever messages about songs, chunks and pauses are handled while the infoer computes what to display, everything it displays is what an infoer would display that handled one thing after the other, each message that came during the computation being put before or after it.", "quantifier": "every sequence of messages and displays, every distribution of the messages over the steps of the displays", "why_tests_cant": "all interleavings of handlers with the five separately locked steps of Info", "anchors": ["cmd/music-sync-infoer/state.go:state.Info", "cmd/music-sync-infoer/state.go:currentSample", "cmd/music-sync-infoer/state.go:removeOldPauses", "cmd/music-sync-infoer/infoer_package_handler.go"]}
{"id": "C101", "title": "Memory does not grow with the running time", "statement": "After each display the infoer stores no more chunks than the server's lead over the display spans, plus two, and no more toggles than happened since the displayed song's start, plus two, however much it has received; the server keeps no more toggles than happened since the newest song's start, plus two; the infoer keeps no songs that have ended.", "quantifier": "every sequence of messages and displays, every history of songs, toggles and volume changes", "why_tests_cant": "growth shows only after long runs; the bound must hold for every history", "anchors": ["cmd/music-sync-infoer/state.go:removeOldChunks", "cmd/music-sync-infoer/state.go:removeOldPauses", "schedule/server_state.go:removeOldPauses", "cmd/music-sync-infoer/infoer_package_handler.go:HandleNewSongInfo"]}
{"id": "C102", "title": "Replies of the control commands say what happened", "statement": "The text a control command prints describes the effect it had: queue names the number and the names of exactly the songs added (or says that the pattern is invalid or matches nothing, and nothing changed), remove names the song taken out and its position, jump the new position, volume the new volume or its failure, pause and resume the play state.", "quantifier": "every command, argument list, playlist, state and behaviour of the libraries", "why_tests_cant": "quantifies over all playlists, positions and pattern results", "anchors": ["schedule/server_state_commands.go:queueCommandExec", "schedule/server_state_commands.go:removeCommand", "schedule/server_state_commands.go:jumpCommand", "schedule/server_state_commands.go:volumeCommand", "schedule/server_state_commands.go:playbackSetCommand"]}
{"id": "C103", "title": "After volume commands all players have the stored volume", "statement": "When all volume commands given in any number of ssh sessions have replied, every connected player has last been told the same volume, which is the one the server has stored and tells new clients; each reply names the volume its session asked for.", "quantifier": "every number of sessions and players, all volumes, every interleaving of the commands and of the writes of their broadcasts", "why_tests_cant": "races between unlocked accesses to the stored volume and parallel broadcasts", "anchors": ["schedule/server_state_commands.go:volumeCommand", "comm/message_sender.go:multiMessageSender.SendMessage"]}
{"id": "C104", "title": "A registered command is found, also during start-up", "statement": "A command that is registered when a session types its name is executed, whatever other commands the server registers at that moment; a name no one registers is never taken for a command. (The first half is refuted for the code: commands are registered while sessions are served already, in a sorted slice without a lock, and a command that is moved to the next place while the lookup passes is reported as not found. What holds: a lookup misses a command only if, while it looks, at least as many commands are added as there are names from the one looked up on.)", "quantifier": "all tables, capacities, names, commands registered at the same time and interleavings of registration and lookup, including reallocation of the slice", "why_tests_cant": "the miss needs the sort of a registration to pass between two reads of one lookup; tests register before they look up", "anchors": ["ssh/command.go: RegisterCommand, commandByName, commandsByName", "schedule/server.go: Server", "cmd/music-sync-server/main.go: run"]}
{"id": "C105", "title": "Pos and CurrentSong name the song that is playing", "statement": "While a song is played, CurrentSong is its name and Pos its position in the playlist; when nothing is played no song is named. (CurrentSong while a song is streamed, and Pos as long as the playlist is not edited and no jump is issued since the song was chosen, are proved; refuted: Pos after an insertion or a jump, and CurrentSong keeps naming a song that has been removed and has ended, for ever.)", "quantifier": "all playlists, decoders and schedules of the loop, edits, jumps, pauses", "why_tests_cant": "unboundedly many schedules of edits and jumps against the streaming loop", "anchors": ["playback/playlist.go: Pos, CurrentSong, StreamLoop, nextSong, SetPos"]}
{"id": "C106", "title": "A client ends when its connection ends, and says so", "statement": "When the connection to the server ends, a player or infoer ends with status 1 after all messages received have taken effect, says why, and gives the terminal back; it ends with status 0 only if the user ends it. (Proved: statuses and their causes, that it ends after finitely many steps of its reading goroutine, that every message is handed to its handler once, and the player's message. Refuted: the infoer says nothing and leaves the terminal as it is, and messages received may have had no effect when the process ends.)", "quantifier": "every byte stream in every fragmentation, every end of it, every schedule of reading, handlers, user and ticks", "why_tests_cant": "all schedules of the handler goroutines against os.Exit, all truncation points", "anchors": ["comm/conn_handler.go: ConnectToServer, handleConnection", "cmd/music-sync-infoer/main.go: run, tcellLoop", "cmd/music-sync-player/main.go: run", "cmd/util.go: WaitForInterrupt"]}
{"id": "C107", "title": "Clients can connect as long as the server runs", "statement": "Every client that connects while the server runs is served, also after a temporary failure to accept a connection. (Refuted: one failed Accept ends accepting for good, while everything else goes on; proved: without such a failure all are served, once and in order, and the failure is reported.)", "quantifier": "every sequence of connections and failures", "why_tests_cant": "needs failing Accepts at every place", "anchors": ["comm/conn_handler.go: serverConnectionAcceptor"]}
{"id": "C108", "title": "The volume scales what is heard", "statement": "Between 0 and 1 the volume scales linearly: at volume 0 nothing is heard, at volume 1 every sample as it is, in between the product of sample and volume to within one level of the 16 bit output; a higher volume is never quieter and never changes the sign; every sample of both channels is scaled by the volume of the moment. (Proved for all float64 bit patterns with IEEE rounding, for products below 1. Refuted: where sample times volume is 1 or more - the loudest samples at volume 1, and many at the volumes above 1 the volume command accepts - the most negative level is heard; NaN silences, infinity gives noise.)", "quantifier": "every pair of float64 bit patterns for volume and sample; every buffer; every schedule of volume changes", "why_tests_cant": "2^128 pairs of bit patterns", "anchors": ["playback/playback.go: samplesToAudioBuf, convertSampleToBytes", "playback/playback.go: SetVolume"]}
{"id": "C109", "title": "At full volume a recording is played bit for bit", "statement": "At volume 1, what reaches the sound device are the 16 bit levels of the recording unchanged. (Proved for all levels from -32766 to 32766, through the decoder's division and the player's multiplication. Refuted for the peaks: 32767 and -32767 become -32768.)", "quantifier": "every 16 bit level", "why_tests_cant": "rests on the rounding of the division for every level", "anchors": ["playback/playback.go: samplesToAudioBuf, convertSampleToBytes"]}
{"id": "C110", "title": "The progress bar tells how much of the song has been played", "statement": "The infoer's progress bar is empty at the beginning of a song and full at its end, never shrinks while the song plays, and shows the part that has been played to within one cell, in spite of the rounding of the division and the multiplication; its marker stays inside the bar until the song is over.", "quantifier": "every window width and song length with a product up to 2^48, every number of samples played", "why_tests_cant": "rests on the rounding of two float64 operations for every triple of width, length and position", "anchors": ["cmd/music-sync-infoer/state.go: Info", "cmd/music-sync-infoer/drawing.go: progressHead, drawProgress"]}
{"id": "C111", "title": "The volume shown is the volume set", "statement": "A volume typed with up to four decimals (below 10) is shown by every infoer as exactly that percentage with two decimals, and confirmed by the server with three decimals exactly; any other volume from 0 to 9.9999 is shown to within 0.005 percent; a higher volume is never shown as a lower one; the line is on the screen wherever the title leaves room.", "quantifier": "every float64 bit pattern of a volume, every decimal fraction, every title and window", "why_tests_cant": "rests on three roundings (parser, product, formatter) for every decimal fraction", "anchors": ["cmd/music-sync-infoer/main.go: drawPlaybackInfo", "schedule/server_state_commands.go: volumeCommand"]}
{"id": "C112", "title": "From the recording to the sound device, byte for byte", "statement": "What a player writes to its sound device are, read as 16 bit stereo, zeros or the levels of the recordings scaled by the volume of the moment - at volume 1 the levels themselves - both channels of the same sample together, in the order of the stream and none twice, through decoding, streaming, chunking, encoding, the network, decoding, buffering and conversion.", "quantifier": "every recording (levels within -32766..32766 for the unscaled part, see C109 for the peaks), playlist, schedule of the server loop, chunking, fragmentation of the bytes, other messages between, player goroutines, clock and volume; the player handles the audio messages from some point on in order (C19)", "why_tests_cant": "composition of every stage for all schedules and all float64 values", "anchors": ["playback/playlist.go pushSample", "schedule/server_state.go streamMusic", "comm/package_util.go", "playback/playback.go QueueChunk, playLoop, samplesToAudioBuf", "playback/streamer.go Stream"]}
{"id": "C113", "title": "The screen of an infoer shows what is played", "statement": "At every redraw at a position inside a song, the window of an infoer shows: whether the sample just played is audio (Playing/Paused), the title from the song's tags (or its file name), the whole seconds of the song's audio streamed so far and of the whole song, a bar filled to within one cell of that fraction, the words of the lyrics up to 100 ms ahead of that time, and the volume as typed. Before any song it shows None and 0:00/0:00. (False for a song starting at sample 0: the time stays 0:00/0:00 and the bar empty.)", "quantifier": "every playlist, schedule of the server, tags and lyrics files, arrival order of the announcements, redraw history, window size", "why_tests_cant": "ranges over all histories of server and infoer, all texts in UTF-8, and all window sizes", "anchors": ["cmd/music-sync-infoer/main.go: redraw, drawPlaybackInfo, drawLyrics", "cmd/music-sync-infoer/state.go: Info", "schedule/server_state.go: createNewSongHandler", "playback/stream.go"]}
{"id": "C114", "title": "A control session answers every line once, in order, until it ends", "statement": "Whatever is typed in a control session and however its commands behave and interleave with typing, the lines are handled one at a time in the order typed: each line that names a command calls it exactly once with the parameters of that line, and the terminal shows exactly the answers of the lines handled, in order (the result with one newline, the usage text, the unknown-command text, or the clear escape). A line is not read before the command of the previous one has returned; Ctrl-C hands over the line like Enter. The session ends exactly with exit, the end of the input or an error, never earlier; the log has one entry for its beginning and one for its end, which names the cause. A connection without a terminal is refused without reading anything.", "quantifier": "every registry, sequence of typed lines, results of commands, interleaving of typing and results", "why_tests_cant": "Unbounded conversations and arbitrary command results; a dropped or doubled call shows only for particular sequences", "anchors": ["ssh/session_handler.go: sessionHandler, init, preparePty, readLoop, handleLine, execCommand"]}
{"id": "C115", "title": "The users file is read as written, as a whole or not at all", "statement": "A users file that is a JSON object of users - each with password and pubKey (base64) in any order, any spacing, any escapes, names in any case, other members ignored - lets exactly those log in whom it describes: with the password (if not empty) or key in the last member of the user's name. Text after the object is ignored. The file is refused, with an error naming it, exactly if it cannot be opened, does not begin with JSON, or any part of it does not fit the types; then no user is read. Every table of users with UTF-8 names and passwords and any keys can be written as such a file.", "quantifier": "every text of the file, every table of users, every attempt to log in", "why_tests_cant": "Infinitely many spellings of the same table and infinitely many broken files", "anchors": ["ssh/ssh.go: ReadUsersFile, UserAuth", "ssh/options.go"]}
{"id": "C116", "title": "Lyrics reach the infoer as written in the file beside the song, or not at all", "statement": "A lyrics file that is a JSON array of lines, each an array of objects with timestamp and caption, is announced with exactly these lines, words, times (whole numbers in 64 bits) and captions, whatever the spacing, escapes, case of names, other members and text after it. A file that is not JSON, or in which any element does not fit (such as a fraction for a time), counts as no lyrics at all, and the song is announced all the same. No content of a lyrics file can keep an announcement from being sent: captions are always UTF-8 (broken bytes become U+FFFD). All lyrics with UTF-8 captions can be written as such a file.", "quantifier": "every content of the lyrics file, all lyrics, every song", "why_tests_cant": "Infinitely many files; broken encodings and numbers at the limits", "anchors": ["metadata/lyrics_provider.go: CollectLyrics, LyricsAtom, LyricsLine", "schedule/server_state.go: createNewSongHandler, toWireLyrics"]}
{"id": "C117", "title": "A position typed is the position used", "statement": "A parameter of jump, remove and queue is taken for a position exactly if it is a whole number in decimal digits, with or without a sign, that fits into 64 bits (leading zeros allowed, no underscores, points or spaces); then jump goes to that position and names it in the reply, remove removes and names the song there, queue inserts there. jump and remove refuse every other text and change nothing; queue does not refuse it but appends the songs at the end. Every 64 bit position can be typed.", "quantifier": "every text of the parameter, every playlist, every glob result", "why_tests_cant": "Infinitely many texts; overflow lies at 2^63, behind two different readers (up to 18 characters, longer)", "anchors": ["schedule/server_state_commands.go: parseIntParam, queueCommand, removeCommand, jumpCommand"]}
{"id": "C118", "title": "The volume typed is the volume set", "statement": "The parameter of volume is accepted exactly if it is a decimal or hexadecimal floating point number (sign, point, exponent, single underscores between digits) that does not round to 2^1024 or more, or a name of NaN or an infinity. The volume set and sent is the float64 nearest to the number typed, ties to even, with the sign typed; the server's reply repeats numbers of up to three decimals exactly, the infoer shows numbers of up to four decimals below 10 exactly; 0 in any spelling is silence, 1 changes no sample. All other texts are refused (and set the volume to 0, C33). Negative numbers, NaN and infinities are not refused.", "quantifier": "every text of up to 2000 characters (exponents beyond 10000 are cut), every state", "why_tests_cant": "Infinitely many spellings; the nearest of 2^64 values", "anchors": ["schedule/server_state_commands.go: parseFloatParam, volumeCommand", "cmd/music-sync-infoer/main.go", "playback/playback.go"]}
{"id": "C119", "title": "The options typed are the options used", "statement": "The words behind the program's name start a program exactly if they are options it knows, with one dash or two, the value in the next word or behind =, every value of its kind (whole number in range, time, text), no option under two of its names, no request for help, version or completions; the options end at -- or at the first word that is not one, and what follows is ignored (unless it is help). Then every setting has the value given last under one of the option's names, or its documented default; log levels are set by the logging options. All other words are refused or only show something. Whole numbers: a leading zero makes them octal (010 is 8, 08 is refused).", "quantifier": "every list of words, every program", "why_tests_cant": "Infinitely many command lines; interactions of order, repetition, aliases and number prefixes", "anchors": ["cmd/flags.go", "cmd/music-sync-server/main.go: main, run", "cmd/music-sync-player/main.go: main, run", "cmd/music-sync-infoer/main.go: main, run"]}
{"id": "C120", "title": "A time typed is the time used", "statement": "The value of time-sync-interval, time-sync-cycle-delay, stream-start-delay and stream-delay is accepted exactly if it is 0 or a sequence of decimal numbers with units (h, m, s, ms, us, ns), with an optional sign in front, of less than 2^63 nanoseconds. It then is exactly the sum of its parts if their fractions do not go beyond nanoseconds; every part with a longer fraction is at most one nanosecond off, which does happen. A number without a unit is refused; negative times are not.", "quantifier": "every text", "why_tests_cant": "Infinitely many texts; fractions are computed in floating point with three roundings", "anchors": ["cmd/flags.go: TimeSyncIntervalFlag, TimeSyncCycleDelayFlag, StreamStartDelayFlag, StreamDelayFlag"]}
{"id": "C121", "title": "The command line decides what runs", "statement": "Whenever the words of the command line start the server, every setting has one value in force, and it streams exactly if the music directory named is a directory, the address and port named (joined by a colon) can be listened on, the users file named can be read and a chunk takes at least a nanosecond at the sample rate given; the control interface is up exactly if moreover the ssh address and port can be listened on with the host key named. Otherwise the first thing that is wrong is named in the error, with the name that was given. A sample rate of 0 or below, or a negative chunk size that overflows, crashes it. The player and the infoer ask for the server at the address and port of their command line. Without options these are audio, 127.0.0.1:13333, 127.0.0.1:13334, users.json and id_rsa.", "quantifier": "every list of words and every behaviour of the operating system and the network", "why_tests_cant": "Infinitely many command lines and environments; the claim spans option parsing, defaults and start-up", "anchors": ["cmd/music-sync-server/main.go: run", "cmd/music-sync-player/main.go: run", "cmd/music-sync-infoer/main.go: run", "util/file_utils.go: CheckDir", "comm/conn_handler.go: StartServer, ConnectToServer", "playback/playback.go: Init", "cmd/params.go: version"]}
{"id": "C122", "title": "Lists are independent of each other", "statement": "The songs of a playlist, the lists Songs() has returned, the toggles and chunks kept and the connections behave like lists that are values of their own, although they are edited in place: editing the playlist never changes a list that Songs() returned, writing into such a list never changes the playlist or another one, and moving elements within an array (insert, remove, cutting off old toggles and chunks, removing a connection) loses and duplicates nothing. (The slice handed to NewPlaylist is shared with the caller; the server hands in an empty one.)", "quantifier": "every history of edits, reads and writes, every choice of array capacities by the runtime", "why_tests_cant": "Whether slices share an array depends on capacities and on the history", "anchors": ["playback/playlist.go: AddSong, InsertSong, RemoveSong, Songs, NewPlaylist", "schedule/server_state.go: removeOldPauses", "cmd/music-sync-infoer/state.go: removeOldPauses, removeOldChunks", "comm/message_sender.go: AddConn, DelConn", "playback/playback.go: QueueChunk", "playback/streamer.go: ReadChunks"]}
{"id": "C123", "title": "What has been removed is not kept in memory", "statement": "Toggles and chunks that the server and the infoers have dropped, connections that have been removed and chunks a player has played are not referenced any more; at least their number does not grow with the running time.", "quantifier": "every history", "why_tests_cant": "Unreachable elements behind the end of a slice cannot be observed from outside", "anchors": ["schedule/server_state.go: removeOldPauses", "cmd/music-sync-infoer/state.go: removeOldPauses, removeOldChunks", "comm/message_sender.go: DelConn", "playback/streamer.go: ReadChunks"]}
{"id": "C124", "title": "Nothing is lost while the server starts", "statement": "The control console is served and the stream is running before the server has finished starting. Whatever the order in which start-up, stream and sessions proceed: every song that begins to be streamed is announced with its name, exact first sample and length, no pausing or resuming is noticed by the stream while there is nobody to announce it to, and the playlist behaves exactly as if everything had been in place from the beginning. Start-up can always complete, and then each control command exists once.", "quantifier": "all interleavings of the start-up, the stream and any number of sessions using the commands already there; all song files", "why_tests_cant": "the order of three concurrent activities during the first milliseconds is not under the control of a test", "anchors": ["schedule/server.go:Server", "cmd/music-sync-server/main.go:run", "playback/playlist.go:pushStreamer", "playback/playlist.go:callPauseToggleHandler"]}
{"id": "C125", "title": "What is read from the playlist is its stream, sample by sample", "statement": "The values read from the playlist are, without gaps, repetitions or mixing of the two channels, the stream the playlist defines: commands that arrive in the middle of a block, or between the two values of a sample, change nothing about the samples already due, and everything behaves as if each block were written at once. The number announced as first sample of a song is the number of samples written, writing is never further ahead of reading than the buffer is large, and writer and reader never block each other for ever.", "quantifier": "all interleavings of the streaming goroutine, the reader (its two goroutines, all chunk sizes) and any commands, single channel operations being the steps; all buffer sizes, playlists and files", "why_tests_cant": "which channel operation a command falls between is up to the scheduler", "anchors": ["playback/playlist.go:StreamLoop", "playback/playlist.go:pushSample", "playback/playlist.go:Fill", "playback/playlist.go:copyFloatChannel"]}
{"id": "C126", "title": "Pause, resume and jump take effect within the buffer and a block or two", "statement": "Beyond the samples already read from the playlist, a pause lets at most the buffer and one block of 512 samples of music through, then all is silence until it is resumed; after a resume at most the same number of samples can be silence, then the song goes on exactly where it stopped; after an accepted jump at most the buffer and two blocks of the interrupted song are still streamed, then the break and the next song follow.", "quantifier": "all moments at which the command is given, all schedules before and after, all buffer sizes and reads", "why_tests_cant": "the bound must hold for every moment relative to the block being written and every fill level of the buffer", "anchors": ["playback/playlist.go:pushStreamer", "playback/playlist.go:shouldBreakStreamerPushLoop", "playback/playlist.go:SetPlaying", "playback/playlist.go:SetPos", "playback/playlist.go:Fill"]}
{"id": "C127", "title": "Jumping to a position from 0 on never crashes the server", "statement": "Whatever position from 0 on is jumped to, at whatever moment, and whatever else is done to the playlist, choosing the next song does not crash the server. (False for the single position 9223372036854775807 when it is stored at the moment a song ends, if the number of songs is no power of two; proved for all others. Negative positions: C07.)", "quantifier": "all 64 bit positions, all schedules of jumps, edits, pauses and the stream", "why_tests_cant": "the failing case needs one of 2^63 positions at one moment between two statements", "anchors": ["playback/playlist.go:SetPos", "playback/playlist.go:nextSong", "playback/playlist.go:shouldBreakStreamerPushLoop", "schedule/server_state_commands.go:jumpCommand"]}
{"id": "C128", "title": "A pause, a jump or a resume is heard within the stream delay, the buffer and one or two blocks", "statement": "If a pause is accepted at time T of the server's clock and the playlist is not resumed, then in every chunk the server ever sends, every sample due later than T + stream delay + the time of the samples the playlist buffers + 512 samples is silence. After an accepted jump the song being streamed is not heard later than T + stream delay + the buffered time + 1024 samples. After a resume, the samples of the song, from the first not streamed yet, are due from at most T + stream delay + the buffered time + 512 samples on. This holds even when chunks are handed over late and ticks are lost.", "quantifier": "every playlist, every song, every interleaving of the streaming goroutine, the reader and commands, every chunk size, sample rate, stream delay and buffer capacity, and every sequence of durations of the iterations of the sending loop", "why_tests_cant": "the bound has to hold at every point of every interleaving at which a command can come, and for every sequence of lost ticks; a test hears one.", "anchors": ["playback/playlist.go: StartStreaming, Fill, SetPlaying, SetPos", "schedule/server_state.go: streamMusic", "cmd/music-sync-server/main.go: StreamChunkTime"]}
{"id": "C129", "title": "Everything a player plays is on time", "statement": "Whatever part of the stream a player holds (songs, breaks and pauses in any order) and whenever its sound device asks for samples: every slot it fills is silence or a sample of the stream, in the order of the stream and none twice, and each sample is written one slot per sample after a slot in which the player has synchronised, with a sample due between the time of that slot and one sample later. If the device takes samples at their rate (up to a jitter), the time of every slot on the player's clock is the time its sample is due, up to that jitter, one sample, a nanosecond per slot of a call and a nanosecond per chunk. (A slot is timed from the start of the call that fills it.) Two players that play the same sample play it at times of the server's clock that differ by at most the errors of their clocks, the jitters of their devices, one sample and those nanoseconds.", "quantifier": "every stream and every part of it, every sequence of call times, chunk size, sample rate and buffer size", "why_tests_cant": "the error must not accumulate over any sequence of songs, breaks, pauses and calls", "anchors": ["playback/streamer.go: Stream, streamSync, streamDirect", "playback/playback.go: playLoop"]}
{"id": "C130", "title": "The players fall silent in time after a pause or a jump", "statement": "If the playlist is paused at time T and not resumed, no player hands music to its sound device later than T + stream delay + the buffered time + 512 samples + the jitter of its device (with a second block after a jump). (False: the samples before the pause that do not fill a whole output buffer stay in a call that does not return until music from after the pause arrives, and are handed to the device then. Proved for the slots of calls that return, timed from the start of the call, with an exact description of the failing case.)", "quantifier": "every playlist, schedule of the server, of the commands and of the player, every device timing, chunk size, buffer size and rate", "why_tests_cant": "the bound composes the interleavings of the server and of the player with the moment of the command", "anchors": ["playback/playlist.go: StartStreaming, Fill, SetPlaying, SetPos", "schedule/server_state.go: streamMusic", "playback/streamer.go: ReadChunks, Stream, streamSync, streamDirect", "playback/playback.go: QueueChunk, playLoop"]}
{"id": "C131", "title": "How much music is cut off when a player synchronises", "statement": "At the start of a song, after a pause and after joining, a synchronising player whose device calls at most G apart gives silence, then plays the song without a gap from some sample on; what it leaves out of the beginning lasts at least one output buffer and less than one output buffer, G and one sample.", "quantifier": "every song, every number of markers before it, every sequence of call times, chunk size, buffer size and rate", "why_tests_cant": "both bounds have to hold for every sequence of call times relative to the due times", "anchors": ["playback/streamer.go: streamSync, streamDirect, Stream", "playback/playback.go: playLoop"]}
{"id": "C132", "title": "A song queued while nothing plays is heard soon, from its first sample", "statement": "If songs are queued at time T while no song is being streamed (the playlist was empty, or the server is between two songs), and the playlist is playing and neither paused, jumped in nor emptied, then beyond the samples already begun nothing but silence is streamed, up to a sample due at most T + stream delay + the time of the samples the playlist buffers + the time of 32768 samples (or of the break between songs, if longer); from that sample on, which is the one announced, a song of the playlist follows from its first sample to its end. While the playlist is empty the server stays in the state this needs, whatever else is done.", "quantifier": "every schedule of the streaming loop, Fill and the sessions, every stream delay, chunk size, sample rate, break and lateness of the ticker, every further edit of the playlist", "why_tests_cant": "the bound depends on what has been pushed when the song is queued, which is a matter of the schedule", "anchors": ["playback/playlist.go: StreamLoop, nextSong, pushNanSamples, pushSample, AddSong", "schedule/server_state.go: streamMusic"]}
{"id": "C133", "title": "What is done to the playback is shown in time", "statement": "An infoer that watches the server shows, from a bounded time after a command on, its effect, at every position inside a song: after the playlist was paused at T and stays so, 'paused' from T + stream delay + the time of the samples the playlist buffers + a block of 512 samples + one sample (and 2 ns of rounding) on; after a jump accepted at T while a song is streamed, a song announced after the jump from T + delay + buffer + two blocks + one sample on; after resuming in a song, 'playing' and that song, until its end; after queueing a song while nothing plays, 'playing' and the song queued, with exactly the start index announced, from T + delay + buffer + 32768 samples (or a break) + one sample on, to the song's end. A change of the play state between the server's two reads of it for one block is excepted.", "quantifier": "every schedule of the streaming loop, Fill and the sessions, every stream delay, chunk size, sample rate, break and lateness of the ticker, every order in which the infoer receives the announcements, every sequence of redraws, every later time", "why_tests_cant": "the bound is the sum of bounds over schedules of the server, over arrival orders at the infoer and over rounding of times", "anchors": ["playback/playlist.go: StreamLoop, SetPlaying, SetPos", "schedule/server_state.go: streamMusic", "cmd/music-sync-infoer/state.go: Info", "cmd/music-sync-infoer/infoer_package_handler.go"]}
{"id": "C134", "title": "What a wrong sample rate does to an infoer", "statement": "The infoer does not learn the server's sample rate but takes its own setting. If that is lower, the position shown is never ahead of the right one and lags behind by at most as many chunks, and one, as whole chunk times are begun in a chunk's length at the infoer's rate; the lag does not grow with time, and is none at the right rate. If it is higher (up to 1 GHz), the position goes back at every chunk border at which the two lengths of a chunk differ by at least the time of two samples. If it is zero the infoer crashes at the first redraw after the first chunk announced, and only then.", "quantifier": "every pair of rates, chunk size, start time, set and arrival order of chunk announcements, moment", "why_tests_cant": "rates, chunks and times are unbounded; the tests set one rate for everything", "anchors": ["cmd/music-sync-infoer/main.go:45-49", "cmd/music-sync-infoer/state.go: Info, currentSample, removeOldChunks, length", "cmd/music-sync-server/main.go:63"]}
{"id": "C135", "title": "What a wrong sample rate does to a player", "statement": "A player does not learn the server's sample rate but takes its own setting. Whatever that is, the player writes samples of the server's stream or silence, in order and none twice. But it does not stay on time: since its last synchronisation it is late (early, if its rate is higher) by the time by which the samples played since then last longer at its rate than at the server's, up to rounding and its error at that synchronisation, and there was no break since then. Within a song it never catches up.", "quantifier": "every playlist, order of commands, interleaving of reader and messages, pair of rates, chunk size, buffer length, sequence of call times and jitter", "why_tests_cant": "rates, streams, schedules and call times are unbounded; the tests set one rate for everything", "anchors": ["cmd/music-sync-player/main.go:25-43", "playback/playback.go: Init", "playback/streamer.go: Stream, streamSync, ReadChunks, samplesDuration"]}
{"id": "C136", "title": "How much audio a player keeps", "statement": "What a player at the server's rate has received and not yet written or skipped lasts, right after a call, at most as long as the stream runs ahead, a call and the jitter of its device, up to a sample and rounding (a nanosecond per chunk kept and per chunk of the longest stretch without silence); it does not depend on how long the player has been running. At another rate what it keeps during a song is longer by the drift since the player began to play the song, so at a lower rate it grows in step with the time played.", "quantifier": "every playlist, interleaving of reader and messages, rate, chunk size, buffer length, lead, sequence of call times and jitter", "why_tests_cant": "running time, streams and call times are unbounded; tests stop after a few chunks", "anchors": ["playback/streamer.go: Stream, streamSync, ReadChunks", "playback/playback.go: QueueChunk, initStreamer", "schedule/server_state.go: streamMusic"]}
{"id": "C137", "title": "Nothing comes between two samples of music", "statement": "A player never skips, repeats or delays within music: the slot after a sample of music holds the next sample of the server's stream, if that is music too, whatever the times of the calls, the part of the stream received and the rates. So with --song-break-size=0, while the server plays and the playlist is not empty, songs follow each other without a gap, although songs are queued, removed and jumped to.", "quantifier": "every playlist of songs, order of commands (no pause), interleaving of reader and messages, rates, chunk size, buffer length, sequence of call times", "why_tests_cant": "streams, commands and call times are unbounded; tests play a few samples", "anchors": ["playback/streamer.go: Stream, streamDirect, streamSync", "playback/playlist.go: StreamLoop, pushStreamer, pushNanBreak", "cmd/flags.go: NanBreakSizeFlag"]}
{"id": "C138", "title": "A volume change is heard at once, and in everything that follows", "statement": "When a player handles a volume message, at whatever moment, every value converted before keeps the volume it had and every later value is heard at the new volume until the next volume message: there is one switching point, which separates the channels of at most one sample, no sample is lost or repeated by it, and at most the part of one output buffer that has been converted but not handed over is still heard at the old volume. After setting the volume to 0 nothing is heard.", "quantifier": "every sequence of volume messages handled at any moments of the player's loop, also in the middle of a buffer or of a sample; all volumes, samples, buffer lengths and call times", "why_tests_cant": "the messages are handled by other goroutines at any moment of an endless loop; tests convert one buffer with one volume", "anchors": ["playback/playback.go: SetVolume, playLoop, samplesToAudioBuf", "cmd/music-sync-player/main.go: HandleSetVolumeRequest"]}
{"id": "C139", "title": "The play state shown is right again after pauses and resumes that raced", "statement": "Whatever pauses and resumes have been issued and however they raced with the server's loop: once nobody pauses or resumes any more, an infoer shows 'playing' at a position of a later block exactly if music is heard there, and the song that is playing. (Holds unless a pause or resume falls between storing and announcing a change. False otherwise: after a resume and a pause around that moment every infoer shows 'playing' for good although nothing is heard, its time in the song going on, or 'paused' although the music plays.)", "quantifier": "every playlist, every schedule of the loop, pauses, resumes, jumps and edits, every order in which announcements arrive, every infoer and position inside a block", "why_tests_cant": "the outcome depends on the interleaving of commands with four unsynchronised reads and on all later announcements and displays", "anchors": ["playback/playlist.go: StreamLoop, SetPlaying", "cmd/music-sync-infoer/state.go: Info, pausesInCurrentSong", "playback/playlist.go: callPauseToggleHandler"]}
{"id": "C140", "title": "A number shown in the listing, typed after remove or jump, means that song", "statement": "Entering 'playlist' changes nothing and shows, for every song of the playlist, a line of its own with a number and the song. Entering 'remove' and the number so shown removes exactly that song and the reply names it; entering 'jump' and the number makes that song the next one, and the reply gives its position. This holds for the numbers as shown, with their leading zeros.", "quantifier": "every playlist of fewer than 2^63 songs, every name of a song, every entry of the listing, every state of the server", "why_tests_cant": "ranges over all playlists and names, and depends on the printing, the splitting of the line, the parsing of numbers and two commands agreeing", "anchors": ["schedule/server_state_commands.go: playlistCommand, removeCommand, jumpCommand, parseIntParam", "ssh/parser/parser.go: Parse", "ssh/session_handler.go"]}
