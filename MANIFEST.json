{
 "claims": [
  {
   "property": "C01",
   "status": "proved",
   "theorems": [
    "MS.SampleQueue.C01_fifo",
    "MS.SampleQueue.C01_peek_is_next_remove",
    "MS.SampleQueue.C01_no_overflow"
   ],
   "note": "every capacity >= 1, every schedule of the micro-steps"
  },
  {
   "property": "C02",
   "status": "partial",
   "theorems": [
    "MS.SampleQueue.C02_never_both_blocked",
    "MS.SampleQueue.C02_never_both_asleep",
    "MS.SampleQueue.C02_capacity_one_deadlocks"
   ],
   "note": "Proved for every capacity >= 2 (the player uses 2*sampleRate). False for capacity 1: C02_capacity_one_deadlocks is a concrete deadlock."
  },
  {
   "property": "C03",
   "status": "partial",
   "theorems": [
    "MS.SampleQueue.C03_lost_wakeup",
    "MS.SampleQueue.C03_add_wakes_partial",
    "MS.SampleQueue.C03_at_most_one_missed_partial",
    "MS.SampleQueue.C03_available_sample_is_returned_partial"
   ],
   "note": "The full property is false (C03_lost_wakeup, for every capacity: Add updates the index and broadcasts without holding cond.L). The _partial theorems say what holds: an Add that returns while a reader sleeps wakes it, and at most one sample is missed."
  },
  {
   "property": "C04",
   "status": "proved",
   "theorems": [
    "MS.SampleQueue.C04_len"
   ],
   "note": ""
  },
  {
   "property": "C05",
   "status": "partial",
   "theorems": [
    "MS.Playlist.C05_insert",
    "MS.Playlist.C05_add",
    "MS.Playlist.C05_remove_partial",
    "MS.Playlist.C05_remove_at_length_panics",
    "MS.Playlist.C05_remove_panics_iff",
    "MS.Playlist.C05_history_partial"
   ],
   "note": "Fully proved for AddSong/InsertSong/Songs. RemoveSong(len) on a non-empty playlist panics (C05_remove_at_length_panics); C05_remove_panics_iff says that is the only crash; the _partial theorems cover every other index and every history without it."
  },
  {
   "property": "C06",
   "status": "proved",
   "theorems": [
    "MS.StreamLoop.C06_plays_in_order",
    "MS.StreamLoop.C06_never_stuck"
   ],
   "note": "any number of songs, any pauses"
  },
  {
   "property": "C07",
   "status": "partial",
   "theorems": [
    "MS.StreamLoop.C07_jump_partial",
    "MS.StreamLoop.C07_negative_jump_crashes",
    "MS.StreamLoop.C07_race_lands_one_too_far",
    "MS.StreamLoop.C07_race_loses_jump",
    "MS.StreamLoop.C07_third_jump_blocks",
    "MS.StreamLoop.C07_third_jump_blocks_reachable"
   ],
   "note": "False in full: negative positions crash the server, races with the end of a song or with nextSong lose or shift the jump, and a third unconsumed jump blocks. C07_jump_partial: a complete SetPos(p), p>=0, while a song is playing or between songs makes song p mod len the next one announced."
  },
  {
   "property": "C08",
   "status": "proved",
   "theorems": [
    "MS.StreamLoop.C08_stream_explained",
    "MS.StreamLoop.C08_each_song_complete",
    "MS.StreamLoop.C08_no_audio_before_first"
   ],
   "note": "every schedule of loop steps, pauses, jumps and edits"
  },
  {
   "property": "C09",
   "status": "proved",
   "theorems": [
    "MS.StreamLoop.C09_announcements_increasing",
    "MS.StreamLoop.C09_announced_at_stream_end",
    "MS.StreamLoop.C08_each_song_complete"
   ],
   "note": ""
  },
  {
   "property": "C10",
   "status": "partial",
   "theorems": [
    "MS.StreamLoop.C10_pauses_exact_partial",
    "MS.StreamLoop.C10_indices_ordered",
    "MS.StreamLoop.C10_race_breaks_alternation",
    "MS.StreamLoop.C10_race_breaks_blocks"
   ],
   "note": "Proved when no SetPlaying falls between the four unsynchronised reads of `playing` of one block; with such a race alternation and block exactness fail (two concrete schedules)."
  },
  {
   "property": "C11",
   "status": "proved",
   "theorems": [
    "MS.Fill.C11_chunks_are_windows",
    "MS.Fill.C11_chunk_length",
    "MS.Fill.C11_no_deadlock"
   ],
   "note": ""
  },
  {
   "property": "C12",
   "status": "partial",
   "theorems": [
    "MS.StreamLoop.C12_progress_partial",
    "MS.StreamLoop.C12_progress_interference_partial",
    "MS.StreamLoop.C12_never_stuck",
    "MS.StreamLoop.C12_nonNeg_reachable",
    "MS.StreamLoop.C12_unplayable_livelock"
   ],
   "note": "False for a non-empty playlist without playable songs (livelock, proved for every such playlist) and for negative jumps (C07). Proved: for empty playlists and playlists with a playable song if the sessions do nothing meanwhile; for playlists of playable songs under every interference (at least one sample in any 15 steps of the loop). Positive break size."
  },
  {
   "property": "C13",
   "status": "proved",
   "theorems": [
    "MS.StreamMusic.C13_stamps",
    "MS.StreamMusic.C13_drift",
    "MS.StreamMusic.C13_chunks_abut",
    "MS.StreamMusic.C13_due_times"
   ],
   "note": "drift: the start of chunk n is at most n ns before the exact sample clock, never after"
  },
  {
   "property": "C14",
   "status": "proved",
   "theorems": [
    "MS.Streamer.C14_length",
    "MS.Streamer.C14_every_sample_accounted",
    "MS.Streamer.C14_in_order",
    "MS.Streamer.C14_direct_exact",
    "MS.Streamer.C14_blocking_is_waiting"
   ],
   "note": ""
  },
  {
   "property": "C15",
   "status": "proved",
   "theorems": [
    "MS.Streamer.C15_leaves_sync_aligned",
    "MS.Streamer.C15_sync_is_silent",
    "MS.Streamer.C15_contiguous_output_on_time"
   ],
   "note": "aligned w.r.t. the player's own running output clock; time spent blocked inside a Stream call is not part of that clock (as in the code)"
  },
  {
   "property": "C16",
   "status": "partial",
   "theorems": [
    "MS.Streamer.C16_middle_branch_dead",
    "MS.Streamer.C16_first_sample_never_played",
    "MS.Streamer.C16_cut_only_overdue_partial"
   ],
   "note": "the property is false of the code: the wrong comparison at streamer.go:66 makes the on-time branch dead; proved for all inputs that the first sample is never played, and that only overdue samples are cut"
  },
  {
   "property": "C17",
   "status": "partial",
   "theorems": [
    "MS.Pcm.C17_value",
    "MS.Pcm.C17_bytes",
    "MS.Pcm.C17_clip_low",
    "MS.Pcm.C17_full_scale_flips_sign",
    "MS.Pcm.C17_monotone_partial",
    "MS.Pcm.C17_levels_preserved",
    "MS.Pcm.C17_buffer_layout"
   ],
   "note": "everything holds below +1; at and above +1 the sign flips (proved), so the full statement is false"
  },
  {
   "property": "C18",
   "status": "proved",
   "theorems": [
    "MS.ReadChunks.C18_combine"
   ],
   "note": ""
  },
  {
   "property": "C19",
   "status": "partial",
   "theorems": [
    "MS.ReadChunks.C19_out_of_order_arrival",
    "MS.ReadChunks.C19_in_order_arrival_partial"
   ],
   "note": "false for out-of-order arrival (proved); proved for in-order arrival"
  },
  {
   "property": "C20",
   "status": "proved",
   "theorems": [
    "MS.ReadChunks.C20_adds_exact",
    "MS.ReadChunks.C20_adds_prefix",
    "MS.ReadChunks.C20_all_added",
    "MS.ReadChunks.C20_reader_never_stuck",
    "MS.ReadChunks.C20_reader_progress"
   ],
   "note": ""
  },
  {
   "property": "C21",
   "status": "proved",
   "theorems": [
    "MS.Timing.C21_single_error",
    "MS.Timing.C21_symmetric_exact",
    "MS.Timing.C21_mean_error",
    "MS.Timing.C21_synced_clock_error"
   ],
   "note": "constant clock difference D; no int64 overflow"
  },
  {
   "property": "C22",
   "status": "partial",
   "theorems": [
    "MS.Timing.C22_unchanged_before_cycle_end",
    "MS.Timing.C22_cycle_sets_mean",
    "MS.Timing.C22_no_intermediate_value",
    "MS.Timing.C22_extra_response_loses_update"
   ],
   "note": "proved for every interleaving of the n responses of the cycle; with one extra (late) response racing in, the update is lost (proved)"
  },
  {
   "property": "C23",
   "status": "proved",
   "theorems": [
    "MS.Wire.C23_send_exact",
    "MS.Wire.C23_send_completes",
    "MS.Wire.C23_send_fails",
    "MS.Wire.C23_round_trip",
    "MS.Proto.C23_utf8",
    "MS.Proto.C23_unpacked",
    "MS.Proto.C23_field_number_refused",
    "MS.Proto.C23_field_number_range"
   ],
   "note": "Under the stated laws of zlib and for messages that fit in memory (hypotheses of the theorem)."
  },
  {
   "property": "C24",
   "status": "proved",
   "theorems": [
    "MS.Wire.C24_boundaries",
    "MS.Wire.C24_two_senders"
   ],
   "note": "Concurrent senders under the assumption, stated in the property, that each write is atomic."
  },
  {
   "property": "C25",
   "status": "partial",
   "theorems": [
    "MS.Wire.C25_negative_size_crashes",
    "MS.Wire.C25_empty_data_crashes",
    "MS.Wire.C25_crash_iff_partial",
    "MS.Wire.C25_connection_partial"
   ],
   "note": "False of the code: a size field of 2^63 or more, or a known type with data zlib cannot open, crashes the process. Proved: exactly these inputs crash."
  },
  {
   "property": "C26",
   "status": "proved",
   "theorems": [
    "MS.Wire.C26_incomplete_frame",
    "MS.Wire.C26_every_cut"
   ],
   "note": ""
  },
  {
   "property": "C27",
   "status": "proved",
   "theorems": [
    "MS.Sender.C27_audience",
    "MS.Sender.C27_numbers"
   ],
   "note": "Connections are compared by identity (numbers in the model)."
  },
  {
   "property": "C28",
   "status": "proved",
   "theorems": [
    "MS.Sender.C28_error_complete",
    "MS.Sender.C28_terminates",
    "MS.Sender.C28_text",
    "MS.Sender.numbered_get"
   ],
   "note": "Every schedule of the broadcast goroutines. C28_text: the text lists the failures in order with their index, but contains a literal \"%d\" (finding)."
  },
  {
   "property": "C29",
   "status": "proved",
   "theorems": [
    "MS.Sender.C29_own_handler",
    "MS.Sender.C29_each_once",
    "MS.Sender.C29_server_replies",
    "MS.Sender.C29_server_silent"
   ],
   "note": "Handlers run in their own goroutines; a handler call takes effect in one step."
  },
  {
   "property": "C30",
   "status": "proved",
   "theorems": [
    "MS.Server.C30_replay"
   ],
   "note": "Histories whose songs are handled one after the other and in order of start; the schedules are C58, C59, C61."
  },
  {
   "property": "C31",
   "status": "proved",
   "theorems": [
    "MS.Server.C31_retained_suffice"
   ],
   "note": "Sequential histories, chronological toggles; the schedules are C32."
  },
  {
   "property": "C32",
   "status": "partial",
   "theorems": [
    "MS.Server.C32_calm_partial",
    "MS.Server.C32_double_pruning",
    "MS.Server.C32_pruning_crash",
    "MS.Server.C32_out_of_order"
   ],
   "note": "False in general (three refuting executions: needed toggle dropped, crash, appends out of order). Proved for every schedule in which at most one pruning is between its two critical sections, toggles are appended in order and stored songs do not go back."
  },
  {
   "property": "C33",
   "status": "partial",
   "theorems": [
    "MS.Commands.C33_rejected_unchanged_partial",
    "MS.Commands.C33_rejected_iff",
    "MS.Commands.C33_volume_rejected_sets_zero"
   ],
   "note": "Proved for every command but volume; false for volume: a rejected volume command sets the stored volume to 0."
  },
  {
   "property": "C34",
   "status": "partial",
   "theorems": [
    "MS.Commands.C34_append",
    "MS.Commands.C34_insert_partial",
    "MS.Commands.C34_negative_exact",
    "MS.Commands.C34_overflow_exact",
    "MS.Commands.C34_no_match"
   ],
   "note": "Proved for appending and for positions >= 0 whose last insertion does not overflow. False for negative positions and at the top of the integers; exactly what happens there is proved for every position and match list."
  },
  {
   "property": "C35",
   "status": "partial",
   "theorems": [
    "MS.Shell.C35_round_trip_iff",
    "MS.Shell.C35_round_trip_partial",
    "MS.Shell.C35_backslash_lost",
    "MS.Shell.C35_empty_lost"
   ],
   "note": "Exact characterisation of when the round trip succeeds (C35_round_trip_iff); the property as stated is false: a parameter with a backslash before a backslash or space, or ending in one, and empty or untrimmed parameters, are lost (counterexamples proved)."
  },
  {
   "property": "C36",
   "status": "partial",
   "theorems": [
    "MS.Shell.C36_parse",
    "MS.Shell.C36_exact_partial",
    "MS.Shell.C36_edge_spaces_lost"
   ],
   "note": "The parser equals a declarative specification for every ASCII line up to trimming; exactly the documented rules hold for lines whose words have no leading/trailing white space; escaped spaces at the edges of a parameter are lost (proved)."
  },
  {
   "property": "C37",
   "status": "partial",
   "theorems": [
    "MS.Shell.C37_survives_iff",
    "MS.Shell.C37_word",
    "MS.Shell.C37_mangled",
    "MS.Shell.C37_latin_partial"
   ],
   "note": "False as stated: a character survives iff it is ASCII (or a C1 control / U+0080..U+00BF, see C37_survives_iff); every other character is replaced."
  },
  {
   "property": "C38",
   "status": "partial",
   "theorems": [
    "MS.Session.C38_argument_partial",
    "MS.Session.C38_argument_meaning_partial",
    "MS.Session.C38_command_partial",
    "MS.Session.C38_crash_accents",
    "MS.Session.C38_crash_escapes",
    "MS.Session.C38_crash_spaces",
    "MS.Session.C38_exact",
    "MS.Session.C38_right_iff"
   ],
   "note": "Exactly what completion does for every line and cursor (C38_exact: crashes iff a candidate is shorter than the cursor position) and exactly when completing at the end of a line is right (C38_right_iff: the line begins every candidate). Holds for plainly spelled lines; refuted in general: panics for accents, escaped spaces and extra spaces, wrong text with the cursor inside the line."
  },
  {
   "property": "C39",
   "status": "proved",
   "theorems": [
    "MS.Session.C39_dispatch",
    "MS.Session.C39_session",
    "MS.Session.C39_printed"
   ],
   "note": "Command bodies are arbitrary; the readline library is modelled by the sequence of its results."
  },
  {
   "property": "C40",
   "status": "proved",
   "theorems": [
    "MS.Session.C40_registry",
    "MS.Session.C40_registers",
    "MS.Session.C40_lookup",
    "MS.Session.C40_help",
    "MS.Session.C40_unique",
    "MS.Session.C40_help_target",
    "MS.Session.C40_usage"
   ],
   "note": "sort.Sort is any sorted permutation."
  },
  {
   "property": "C41",
   "status": "proved",
   "theorems": [
    "MS.Infoer.C41_position",
    "MS.Infoer.C41_monotone_and_continuous",
    "MS.Infoer.C41_no_chunk",
    "MS.Infoer.chunkTime_bounds"
   ],
   "note": "Chunks with the time the server computes from the chunk size, no divisibility assumed: at chunk borders the position steps by at most one sample (exactly continuous if the division is exact)."
  },
  {
   "property": "C42",
   "status": "proved",
   "theorems": [
    "MS.Infoer.C42_newest_started"
   ],
   "note": ""
  },
  {
   "property": "C43",
   "status": "proved",
   "theorems": [
    "MS.Infoer.C43_chrono",
    "MS.Infoer.C43_any_arrival_order",
    "MS.Infoer.stateAt_unique"
   ],
   "note": "Sample indices below 2^63. stateAt_unique: the specification determines the display when toggle indices are distinct."
  },
  {
   "property": "C44",
   "status": "partial",
   "theorems": [
    "MS.Infoer.C44_pruning_invisible_partial",
    "MS.Infoer.C44_run",
    "MS.Infoer.C44_query",
    "MS.Infoer.C44_backwards_visible"
   ],
   "note": "Histories of arrivals and queries with distinct indices, in which the shown position does not run backwards. C44_backwards_visible: without that the statement is false."
  },
  {
   "property": "C45",
   "status": "proved",
   "theorems": [
    "MS.Display.C45_upcoming",
    "MS.Display.C45_view",
    "MS.Display.C45_words_stay",
    "MS.Display.C45_sublist"
   ],
   "note": ""
  },
  {
   "property": "C46",
   "status": "partial",
   "theorems": [
    "MS.EndToEnd.C46_displayed_time_partial",
    "MS.EndToEnd.C46_break_counted"
   ],
   "note": "Server loop and infoer composed: for every playlist, schedule of jumps, edits and pauses, and every arrival order, at a position inside a block of a song not starting at index 0 the time shown is exactly the playing time of the song's audio streamed so far, and the play state shown says whether the last sample is audio. Missing: pause or resume falling between the loop's reads of the play state for one block (false there, C10), song breaks (false: C46_break_counted shows a time beyond the length), first song at index 0 (time shown is 0, C60)."
  },
  {
   "property": "C47",
   "status": "proved",
   "theorems": [
    "MS.Display.C47_duration"
   ],
   "note": "Negative durations are printed with the sign at a later field (example)."
  },
  {
   "property": "C48",
   "status": "proved",
   "theorems": [
    "MS.Display.C48_progress",
    "MS.Display.C48_grows",
    "MS.Display.C48_accurate",
    "MS.Display.C48_box",
    "MS.Display.C48_box_inside",
    "MS.Display.C48_empty_box_outside"
   ],
   "note": "The product length*progress is any rational; its floating point rounding is not modelled (rounding is monotone)."
  },
  {
   "property": "C49",
   "status": "proved",
   "theorems": [
    "MS.Logging.C49_level_by_name",
    "MS.Logging.C49_names_invert",
    "MS.Logging.C49_filter"
   ],
   "note": "strings.ToLower assumed right on ASCII, arbitrary elsewhere."
  },
  {
   "property": "C50",
   "status": "partial",
   "theorems": [
    "MS.Logging.C50_flags_ineffective",
    "MS.Logging.C50_default_partial",
    "MS.Logging.C50_flags_misplaced"
   ],
   "note": "False as stated: HandleLoggingFlags stores the level under the flag name (\"comm-logging\") that no logger uses; refuted for all flag assignments. Only --logging works. C50_flags_misplaced: exactly what the five flags set instead."
  },
  {
   "property": "C51",
   "status": "proved",
   "theorems": [
    "MS.Sender.C51_no_error_lost",
    "MS.Sender.C51_exact",
    "MS.Sender.C51_progress"
   ],
   "note": "Every interleaving of Add goroutines and one Err call."
  },
  {
   "property": "C52",
   "status": "partial",
   "theorems": [
    "MS.Files.C52_list_partial",
    "MS.Files.C52_subdirs_partial",
    "MS.Files.C52_glob_partial",
    "MS.Files.C52_songs",
    "MS.Files.C52_dot_slash",
    "MS.Files.C52_working_dir",
    "MS.Files.C52_escape",
    "MS.Files.C52_prefix_confusion",
    "MS.Files.C52_glob_no_dir",
    "MS.Files.C52_up"
   ],
   "note": "False as stated, and refuted: with --music-dir=./audio listed names open other files, hidden files in the working directory lose their dot, `ls ..` lists files outside the music directory under names that open others. Proved for every tree when the music directory is spelled in the shortest way and is not the working directory, and the sub directory has no '..'. Symbolic links and I/O errors are not modelled."
  },
  {
   "property": "C53",
   "status": "proved",
   "theorems": [
    "MS.Auth.C53_password",
    "MS.Auth.C53_key",
    "MS.Auth.C53_login",
    "MS.Auth.C53_no_credentials",
    "MS.Auth.C53_own_credentials",
    "MS.Auth.C53_users_file"
   ],
   "note": "For every table and every sequence of attempts. Key parsing and marshalling are arbitrary functions; the ssh library is assumed to grant a login iff the callback accepts."
  },
  {
   "property": "C54",
   "status": "partial",
   "theorems": [
    "MS.SongInfo.C54_lossless",
    "MS.SongInfo.C54_reaches_infoer_partial",
    "MS.SongInfo.C54_sent_iff"
   ],
   "note": "False for songs with a text (e.g. the file name) that is not UTF-8: such a song is not announced at all (C54_sent_iff). Proved for all others, for any fragmentation and handling order; composes C23/C24/C55."
  },
  {
   "property": "C55",
   "status": "proved",
   "theorems": [
    "MS.Proto.C55_round_trip",
    "MS.Proto.C55_encodes_iff",
    "MS.Proto.C55_unknown_fields_ignored",
    "MS.Proto.C55_song_strings",
    "MS.Proto.C55_varint"
   ],
   "note": "A message with a string that is not valid UTF-8 does not encode (the sender gets an error); the codec is a model of golang/protobuf for the messages of packages.proto."
  },
  {
   "property": "C56",
   "status": "partial",
   "theorems": [
    "MS.Sender.C56_volume_reordered",
    "MS.Sender.C56_some_sent_volume_partial",
    "MS.Sender.C56_single_volume_partial",
    "MS.Sender.C56_last_wins_partial"
   ],
   "note": "The full statement is false (C56_volume_reordered): each message is handled in its own goroutine. Proved: the volume is one of those sent; the last one wins if the earlier volume messages have been handled when it arrives; with one volume message it is that one."
  },
  {
   "property": "C57",
   "status": "partial",
   "theorems": [
    "MS.Sender.C57_early_subscribe_crashes",
    "MS.ServerConn.C57_crash_reachable",
    "MS.ServerConn.C57_crash_cause",
    "MS.ServerConn.C57_no_crash_partial"
   ],
   "note": "The full statement is false: NewClientHandler is nil until the server state is created; subscribing earlier is a nil call (C57_crash_reachable, for every client and channel). Proved: that is the only cause (C57_crash_cause), and from the moment the handler is set no subscription crashes the server (C57_no_crash_partial). Malformed frames: C25."
  },
  {
   "property": "C58",
   "status": "partial",
   "theorems": [
    "MS.Server.C58_volume_partial",
    "MS.Server.C58_stale_volume"
   ],
   "note": "False in general (refuted); proved when the volume is not set between reading and sending it to the new client."
  },
  {
   "property": "C59",
   "status": "partial",
   "theorems": [
    "MS.Server.C59_later_toggles_partial",
    "MS.Server.C59_missed_toggle"
   ],
   "note": "False in general (refuted); proved for every toggle whose handler starts after the subscription."
  },
  {
   "property": "C60",
   "status": "partial",
   "theorems": [
    "MS.Infoer.C60_time_in_song_partial",
    "MS.Infoer.C60_song_at_zero"
   ],
   "note": "Proved for songs that do not start at sample index 0; for those the statement is false (C60_song_at_zero). Progress as exact fraction, Go computes it in float64."
  },
  {
   "property": "C61",
   "status": "partial",
   "theorems": [
    "MS.Server.C61_current_song_partial",
    "MS.Server.C61_stored_song_sent",
    "MS.Server.C61_older_song"
   ],
   "note": "False in general (refuted: concurrent song handlers); the stored song is always sent; the last started song is sent if song handlers do not overlap."
  },
  {
   "property": "C62",
   "status": "proved",
   "theorems": [
    "MS.Commands.C62_listing"
   ],
   "note": ""
  },
  {
   "property": "C63",
   "status": "partial",
   "theorems": [
    "MS.StreamLoop.C63_completes_partial",
    "MS.StreamLoop.C63_hangs"
   ],
   "note": "Proved for playable playlists (bounded wait); false when no song can be decoded, e.g. for an empty playlist."
  },
  {
   "property": "C64",
   "status": "partial",
   "theorems": [
    "MS.StreamLoop.C64_cuts_current_partial",
    "MS.StreamLoop.C64_one_cut_per_jump",
    "MS.StreamLoop.C64_stale_request"
   ],
   "note": "Every interruption is due to one jump; a jump issued in the middle of a song interrupts that song; false for jumps issued while no song plays."
  },
  {
   "property": "C65",
   "status": "proved",
   "theorems": [
    "MS.Commands.C65_effects"
   ],
   "note": ""
  },
  {
   "property": "C66",
   "status": "partial",
   "theorems": [
    "MS.Session.C66_interrupted_line_runs",
    "MS.Session.C66_empty_partial"
   ],
   "note": "False as stated: readLoop runs the text returned with ErrInterrupt. Proved where it holds: nothing typed."
  },
  {
   "property": "C67",
   "status": "partial",
   "theorems": [
    "MS.Display.C67_exact",
    "MS.Display.C67_no_gaps_iff",
    "MS.Display.C67_text_partial",
    "MS.Display.C67_gap"
   ],
   "note": "False as stated: range over a string yields byte offsets. Proved for all texts: exactly which cell shows which character (C67_exact), and that exactly the texts that are ASCII up to their last character are drawn without gaps (C67_no_gaps_iff); C67_gap is the refutation."
  },
  {
   "property": "C68",
   "status": "proved",
   "theorems": [
    "MS.Display.C68_playback_frame",
    "MS.Display.C68_lyrics_frame",
    "MS.Display.C68_title",
    "MS.Display.C68_lyrics",
    "MS.Display.C68_bar",
    "MS.Display.C68_time",
    "MS.Display.C68_status"
   ],
   "note": "For all texts and all windows at least 2 columns wide. Characters sit at the offsets of C67_exact. Double-width characters are not modelled."
  },
  {
   "property": "C69",
   "status": "proved",
   "theorems": [
    "MS.Logging.C69_verbatim",
    "MS.Logging.C69_placeholders"
   ],
   "note": ""
  },
  {
   "property": "C70",
   "status": "proved",
   "theorems": [
    "MS.Pipeline.C70_buffer_content",
    "MS.Pipeline.C70_played_in_order"
   ],
   "note": "Composes C08, C11, C13, C14, C18, C20. Out-of-order handling of audio messages is possible in the code and reorders the buffer (C19)."
  },
  {
   "property": "C71",
   "status": "proved",
   "theorems": [
    "MS.InSync.C71_on_schedule",
    "MS.InSync.C71_players_in_sync",
    "MS.InSync.C71_synchronised_players"
   ],
   "note": "Buffer contents as in C70_buffer_content. The delay of the sound device is not modelled; clocks run at the same speed (the offset is taken as constant between synchronisation and playing)."
  },
  {
   "property": "C72",
   "status": "proved",
   "theorems": [
    "MS.ServerConn.C72_exactly_once",
    "MS.ServerConn.C72_subscriptions",
    "MS.ServerConn.C72_adds_once"
   ],
   "note": "All clients, lock, overlapping broadcasts; composes with C27 through C72_adds_once."
  },
  {
   "property": "C73",
   "status": "proved",
   "theorems": [
    "MS.ServerConn.C73_list",
    "MS.ServerConn.C73_gone",
    "MS.ServerConn.C73_settles"
   ],
   "note": "Progress (C73_settles) while no client stalls: a decreasing measure and a possible step; scheduling of the goroutines by Go is not modelled."
  },
  {
   "property": "C74",
   "status": "partial",
   "theorems": [
    "MS.ServerConn.C74_stalled_client_blocks_all",
    "MS.ServerConn.C74_reachable",
    "MS.ServerConn.C74_others_served_partial"
   ],
   "note": "False as stated: SendMessage holds the read lock while it writes, so with one client not reading, the next connect, disconnect or subscription blocks all broadcasts (no write deadline). Proved where it holds: other clients' writes of a broadcast under way, and new broadcasts while no change waits. Assumes that a write to a client that never reads eventually blocks (full TCP buffers)."
  },
  {
   "property": "C75",
   "status": "partial",
   "theorems": [
    "MS.ServerConn.C75_kept_for_ever",
    "MS.ServerConn.C75_unbounded",
    "MS.ServerConn.C73_list"
   ],
   "note": "False as stated: DelConn does not delete the subscriptions. Proved where it holds: the broadcast list (C73_list)."
  },
  {
   "property": "C76",
   "status": "partial",
   "theorems": [
    "MS.Concurrent.C76_nothing_lost",
    "MS.Concurrent.C76_append_order_partial",
    "MS.Concurrent.C76_progress",
    "MS.Concurrent.C76_positions_reordered"
   ],
   "note": "Listing order is proved for queue without a position; with a position it is false, and the refutation is proved."
  },
  {
   "property": "C77",
   "status": "partial",
   "theorems": [
    "MS.Concurrent.C77_remove_safe_partial",
    "MS.Concurrent.C77_two_removals_crash"
   ],
   "note": "False in general: two sessions removing the last song crash the server (proved for every playlist of two or more songs). Safe when every position is at least as far from the end as there are concurrent removals."
  },
  {
   "property": "C78",
   "status": "partial",
   "theorems": [
    "MS.Glob.C78_select_partial",
    "MS.Glob.C78_select_exact_partial",
    "MS.Glob.C78_queue_partial",
    "MS.Glob.C78_malformed",
    "MS.Glob.C78_malformed_silent",
    "MS.Glob.C78_escape",
    "MS.Glob.C78_meta_dir",
    "MS.Glob.C78_bytes",
    "MS.Glob.C78_bytes_bound"
   ],
   "note": "True for a music directory given in the shortest way and without pattern characters, well-formed patterns without .., where either the names are ASCII or no ? or class comes behind a star: exactly the matching songs, each once, in order, under names that open them. For all names: every matching song is selected, and everything selected matches by bytes. The full statement is false: the library's matcher lets a star end inside a character (C78_bytes: *[^é].mp3 adds é.mp3), patterns with .. select songs outside the directory (C78_escape), a directory with pattern characters hides its songs (C78_meta_dir), malformed patterns may be reported as matching nothing (C78_malformed_silent)."
  },
  {
   "property": "C79",
   "status": "partial",
   "theorems": [
    "MS.Glob.C79_plain_partial",
    "MS.Glob.C79_escaped",
    "MS.Glob.C79_bracket_never",
    "MS.Glob.C79_wildcards"
   ],
   "note": "True for names without * ? [ \\; false for names with [ or \\ (never selected, proved for all trees and names without *); names with * or ? select themselves and possibly more. Every listed song can be queued with its pattern characters escaped."
  },
  {
   "property": "C80",
   "status": "partial",
   "theorems": [
    "MS.StreamLoop.C80_next_exact",
    "MS.StreamLoop.C80_index_of_current",
    "MS.StreamLoop.C80_add",
    "MS.StreamLoop.C80_insert_behind_partial",
    "MS.StreamLoop.C80_remove_behind_partial",
    "MS.StreamLoop.C80_insert_before_repeats",
    "MS.StreamLoop.C80_remove_before_skips"
   ],
   "note": "Full for AddSong and for insertions/removals behind the playing song; proved false for edits at or before it: the loop remembers an index, so an insertion makes the playing song play twice and a removal skips the next song. C80_next_exact says what is announced after any sequence of edits."
  },
  {
   "property": "C81",
   "status": "proved",
   "theorems": [
    "MS.Timing.C81_offset_is_a_mean",
    "MS.Timing.C81_synced_clock_error"
   ],
   "note": "Every schedule of cycles, response goroutines and late responses; constant difference of the raw clocks, no int64 overflow. Crashes are C82."
  },
  {
   "property": "C82",
   "status": "partial",
   "theorems": [
    "MS.Timing.C82_reset_crashes",
    "MS.Timing.C82_no_crash_partial"
   ],
   "note": "False: a new cycle that begins between the unlocked test and the averaging of a response goroutine makes the averaging divide by zero (for every cycle length and responses). Proved when no cycle begins at such a moment."
  },
  {
   "property": "C83",
   "status": "partial",
   "theorems": [
    "MS.InSync.C83_clock_ignored_in_song",
    "MS.InSync.C83_back_after_marker_partial"
   ],
   "note": "False inside a song: the output does not depend on the clock there (proved for all clock readings and due times). Proved: after the next marker (end of song, pause) the player is on schedule again."
  },
  {
   "property": "C84",
   "status": "partial",
   "theorems": [
    "MS.InSync.C84_unsynced_start_hangs",
    "MS.InSync.C84_unsynced_start_loses",
    "MS.InSync.C84_slow_clock_partial"
   ],
   "note": "False for a client clock that is ahead: everything due in the time it is ahead is thrown away, even if the clock is synchronised meanwhile. Proved for clocks that are behind or ahead by less than the lead of the music."
  },
  {
   "property": "C85",
   "status": "partial",
   "theorems": [
    "MS.Ticker.C85_never_early",
    "MS.Ticker.C85_on_time_exact",
    "MS.Ticker.C85_lead_partial",
    "MS.Ticker.C85_stall_never_made_up",
    "MS.Ticker.C85_stall_all_late"
   ],
   "note": "Lead proved, with the exact hand-over times, while no iteration takes longer than a chunk time. False after a stall: the ticker drops ticks, the chunk counter does not, so the lead lost is never regained; a stall of the stream delay plus a chunk time makes every later chunk late, forever."
  },
  {
   "property": "C86",
   "status": "partial",
   "theorems": [
    "MS.PlayerStart.C86_exact",
    "MS.PlayerStart.C86_volume_overwritten",
    "MS.PlayerStart.C86_takes_over_partial",
    "MS.PlayerStart.C86_before_init"
   ],
   "note": "False: Init writes its default volume .1 in a goroutine and overwrites a volume message handled earlier, for every volume. Exact value proved for every schedule; the property holds if no volume message is handled before Init begins."
  },
  {
   "property": "C87",
   "status": "partial",
   "theorems": [
    "MS.PlayerStart.C87_exact",
    "MS.PlayerStart.C87_chunk_lost",
    "MS.PlayerStart.C87_all_queued_partial",
    "MS.PlayerStart.C87_nothing_before_subscription",
    "MS.PlayerStart.C87_others_any_time"
   ],
   "note": "False: chunks handled while the sound device is being opened are dropped. Exactly which chunks are queued is proved for every schedule."
  },
  {
   "property": "C88",
   "status": "partial",
   "theorems": [
    "MS.Startup.C88_complete_iff",
    "MS.Startup.C88_orderly_partial",
    "MS.Startup.C88_zero_rate_panics",
    "MS.Startup.C88_negative_rate_panics",
    "MS.Startup.C88_silent_without_chunks",
    "MS.Startup.C88_no_control",
    "MS.Startup.C88_rejected_after_listening"
   ],
   "note": "Exactly when the start is complete is proved (chunk sizes up to 58 hours). False in general: rate 0 or negative crashes, chunk size 0 never streams, an unusable ssh port leaves a server without control interface."
  },
  {
   "property": "C89",
   "status": "partial",
   "theorems": [
    "MS.Startup.C89_player_partial",
    "MS.Startup.C89_infoer_panics",
    "MS.Startup.C89_infoer_no_screen",
    "MS.Startup.C89_infoer_runs"
   ],
   "note": "True for the player. False for the infoer: the error is created and dropped (`cli.NewExitError` without return), then a nil sender is used."
  },
  {
   "property": "C90",
   "status": "proved",
   "theorems": [
    "MS.Startup.C90_running_iff",
    "MS.Startup.C90_ctrlC"
   ],
   "note": "Which kinds of events tcell sends is not modelled."
  },
  {
   "property": "C91",
   "status": "partial",
   "theorems": [
    "MS.LateJoin.C91_same_display_partial",
    "MS.LateJoin.C91_song_missing",
    "MS.LateJoin.C91_position"
   ],
   "note": "Proved once the song that was newest at the subscription has begun to play; before that it is false (proved for all histories): only the newest announced song is replayed, the one playing is not. Positions computed from chunks not yet due agree up to two samples. Sequential server histories (schedules: C58, C59, C61)."
  },
  {
   "property": "C92",
   "status": "proved",
   "theorems": [
    "MS.Console.C92_commands",
    "MS.Console.C92_other",
    "MS.Console.C92_help",
    "MS.Console.C92_help_entry",
    "MS.Console.C92_help_unknown",
    "MS.Console.C92_usage"
   ],
   "note": "For every registry the registrations can lead to and every line: the command named is run with the other words and its text or usage is printed; other lines change nothing; literal texts of help and of the usages. What the words of a line are is C36, what the commands do C33, C34, C62, C65, C78. Terminal escapes of readline and the log are not modelled."
  },
  {
   "property": "C93",
   "status": "partial",
   "theorems": [
    "MS.Console.C93_queue_partial",
    "MS.Console.C93_ls_partial",
    "MS.Console.C93_help_partial",
    "MS.Console.C93_nothing_partial"
   ],
   "note": "The offers are exactly the songs, directories and names with the text typed, for a line spelled plainly (one space between words, cursor at the end, characters below U+00C0). Otherwise completing can crash the server (C38)."
  },
  {
   "property": "C94",
   "status": "partial",
   "theorems": [
    "MS.Console.C94_choose_song_partial",
    "MS.Console.C94_choose_dir_partial",
    "MS.Console.C94_brackets",
    "MS.Console.C94_accents"
   ],
   "note": "Holds for songs whose names have no pattern characters and no letters from U+00C0 on; refuted for brackets and backslashes (never added) and for accents (another song is added)."
  },
  {
   "property": "C95",
   "status": "partial",
   "theorems": [
    "MS.Speed.C95_recorded_speed_partial",
    "MS.Speed.C95_other_rate",
    "MS.Speed.C95_48k_is_slow",
    "MS.Speed.C95_heard_at_player_rate",
    "MS.Speed.C95_refuted"
   ],
   "note": "holds exactly (to rounding) for files recorded at the server rate; refuted for other rates, with the exact deviation (C95_other_rate) and the default-server 48 kHz case (C95_48k_is_slow, C95_refuted)"
  },
  {
   "property": "C96",
   "status": "partial",
   "theorems": [
    "MS.Machine.C96_server",
    "MS.Machine.C96_clock",
    "MS.Machine.C96_synced_time",
    "MS.Machine.C96_stamp",
    "MS.Machine.C96_player",
    "MS.Machine.C96_player_output",
    "MS.Machine.C96_infoer",
    "MS.Machine.C96_time_shown",
    "MS.Machine.C96_long_song",
    "MS.Machine.C96_refuted",
    "MS.Machine.C96_unsynchronised"
   ],
   "note": "64 bit versions of the four arithmetic models proved equal to the exact ones within explicit bounds (clocks 73 years, stream 146 years, songs 54 hours); outside them refuted"
  },
  {
   "property": "C97",
   "status": "partial",
   "theorems": [
    "MS.StreamLoop.C97_catches_up_partial",
    "MS.StreamLoop.C97_stuck",
    "MS.StreamLoop.C97_refuted"
   ],
   "note": "Proved for every schedule in which no pause or resume falls between the two statements of the announcement, and for every later schedule. The full property is false (C97_stuck: in every state about to announce, a race makes the announcement wrong, and it stays wrong for all later schedules without a pause or resume; C97_refuted: reachable)."
  },
  {
   "property": "C98",
   "status": "proved",
   "theorems": [
    "MS.Shell.C98_reads_everything",
    "MS.Shell.C98_contracts_met"
   ],
   "note": "The serialized ATNs are decoded in Lean from the numbers in /repo; the generated recursive descent functions and the listener are modelled statement by statement and proved equal to the direct parser model of C35-C37. The ANTLR runtime enters as two contracts, shown satisfiable."
  },
  {
   "property": "C99",
   "status": "partial",
   "theorems": [
    "MS.Flags.C99_accepted_iff",
    "MS.Flags.C99_server_partial",
    "MS.Flags.C99_clients_partial",
    "MS.Flags.C99_time_sync_ignored",
    "MS.Flags.C99_host_key_file_rejected"
   ],
   "note": "Every option but the time-sync ones (and logging, C50) proved effective for every command line; the time-sync options are proved to have no effect on any program, and the host key option of the README is rejected. urfave/cli is modelled as far as it decides which value is read."
  },
  {
   "property": "C100",
   "status": "partial",
   "theorems": [
    "MS.InfoRace.C100_consistent_partial",
    "MS.InfoRace.C100_late_chunk"
   ],
   "note": "Proved for every interleaving in which no message about an already ended chunk is handled exactly between the removal of old chunks and the reading of the position; false there (C100_late_chunk, every clock reading). Distinct indices, clock and positions not running backwards (C44)."
  },
  {
   "property": "C101",
   "status": "partial",
   "theorems": [
    "MS.Bounded.C101_infoer_chunks",
    "MS.Bounded.C101_infoer_toggles",
    "MS.Bounded.C101_server_toggles",
    "MS.Bounded.C101_songs_kept"
   ],
   "note": "Bounds proved for the infoer's chunks and toggles (after each display) and for the toggles the server keeps (things handled one after the other; for concurrent pruning see C32). For songs the property is false: C101_songs_kept shows that every song ever announced stays stored. Subscriptions of ended connections also stay (C75). Bytes of lyrics etc. are not counted, only the number of entries."
  },
  {
   "property": "C102",
   "status": "partial",
   "theorems": [
    "MS.Commands.C102_queue",
    "MS.Commands.C102_remove_partial",
    "MS.Commands.C102_remove_elsewhere",
    "MS.Commands.C102_jump",
    "MS.Commands.C102_volume",
    "MS.Commands.C102_pause_resume"
   ],
   "note": "True for queue, jump, pause, resume, for volume when the broadcast succeeds and for remove of a position in the playlist. C102_remove_elsewhere: false for remove of other positions (claims the position asked for, or that a nameless song was removed from an empty playlist). C102_volume: after \"failed to set volume\" the stored volume has changed."
  },
  {
   "property": "C103",
   "status": "partial",
   "theorems": [
    "MS.VolumeRace.C103_values",
    "MS.VolumeRace.C103_told",
    "MS.VolumeRace.C103_one_at_a_time_partial",
    "MS.VolumeRace.C103_stale",
    "MS.VolumeRace.C103_disagree",
    "MS.VolumeRace.C103_reply_of_other"
   ],
   "note": "Proved when no two accepted volume commands are under way at the same time. False otherwise, for all volumes and numbers of players: players can keep a volume that is not the stored one (C103_stale), players can differ from each other (C103_disagree), and a reply can name the other session's volume (C103_reply_of_other). In every schedule players are only told volumes that were asked for, and each has been told the stored one at some time. Connections fixed, writes do not fail; order of handling on the player: C56."
  },
  {
   "property": "C104",
   "status": "partial",
   "theorems": [
    "MS.Registry.C104_missed_only_if",
    "MS.Registry.C104_found_partial",
    "MS.Registry.C104_sound",
    "MS.Registry.C104_missed",
    "MS.Registry.C104_order",
    "MS.Registry.C104_registered"
   ],
   "note": "the full statement is false for the code: C104_missed constructs, for every table with room for one more, the miss of its last command; proved: a miss needs at least as many additions during the lookup as there are names from the command on, and only registered names are found; between registrations the table is exactly the registered commands in the order of names (C104_order)"
  },
  {
   "property": "C105",
   "status": "partial",
   "theorems": [
    "MS.Position.C105_current",
    "MS.Position.C105_pos_partial",
    "MS.Position.C105_pos_after_insert",
    "MS.Position.C105_pos_after_jump",
    "MS.Position.C105_current_stale"
   ],
   "note": "the full statement is false for the code (C105_pos_after_insert, C105_pos_after_jump, C105_current_stale); what holds is C105_current for every schedule and C105_pos_partial"
  },
  {
   "property": "C106",
   "status": "partial",
   "theorems": [
    "MS.ClientEnd.C106_status",
    "MS.ClientEnd.C106_stays",
    "MS.ClientEnd.C106_ends",
    "MS.ClientEnd.C106_player_says_so",
    "MS.ClientEnd.C106_infoer_silent",
    "MS.ClientEnd.C106_received_unhandled",
    "MS.ClientEnd.C106_quit_player",
    "MS.ClientEnd.C106_quit_infoer"
   ],
   "note": "statuses, causes, termination and the message of the player proved for every byte stream and schedule; the full statement is false: C106_infoer_silent, C106_received_unhandled Ctrl-C ends either client with status 0 (quit theorems), the infoer giving the terminal back."
  },
  {
   "property": "C107",
   "status": "partial",
   "theorems": [
    "MS.Acceptor.C107_served_partial",
    "MS.Acceptor.C107_greeted",
    "MS.Acceptor.C107_reported",
    "MS.Acceptor.C107_locked_out"
   ],
   "note": "false after a failed Accept (C107_locked_out, for every history); proved otherwise"
  },
  {
   "property": "C108",
   "status": "partial",
   "theorems": [
    "MS.Float64.C108_silent",
    "MS.Float64.C108_unchanged",
    "MS.Float64.C108_scaled_partial",
    "MS.Float64.C108_monotone_partial",
    "MS.Float64.C108_flips",
    "MS.Float64.C108_clipped",
    "MS.Float64.C108_special",
    "MS.Float64.C108_buffer",
    "MS.Float64.round_nearest",
    "MS.Float64.round_is_float64"
   ],
   "note": "Full statement fails where sample x volume >= 1 (C108_flips)."
  },
  {
   "property": "C109",
   "status": "partial",
   "theorems": [
    "MS.Float64.C109_bit_for_bit_partial",
    "MS.Float64.C109_peaks",
    "MS.Float64.decoded_exists"
   ],
   "note": "Full statement fails for levels 32767 and -32767 (C109_peaks). The decoder (faiface/beep) is assumed to divide by 32767."
  },
  {
   "property": "C110",
   "status": "proved",
   "theorems": [
    "MS.Float64.C110_grows",
    "MS.Float64.C110_ends",
    "MS.Float64.C110_marker",
    "MS.Float64.C110_marker_low",
    "MS.Float64.C110_inside",
    "MS.Float64.C110_true",
    "MS.Float64.C110_none",
    "MS.Float64.C110_screen",
    "MS.Float64.bar_eq",
    "MS.Float64.const_03",
    "MS.Float64.const_07"
   ],
   "note": "IEEE 754 arithmetic modelled for all operands; sizes up to width x length = 2^48."
  },
  {
   "property": "C111",
   "status": "proved",
   "theorems": [
    "MS.Float64.C111_near",
    "MS.Float64.C111_monotone",
    "MS.Float64.C111_typed",
    "MS.Float64.C111_reply",
    "MS.Float64.C111_special",
    "MS.Float64.C111_screen",
    "MS.Float64.sixDigits_value"
   ],
   "note": "strconv and fmt are modelled (correctly rounding), not verified."
  },
  {
   "property": "C112",
   "status": "proved",
   "theorems": [
    "MS.SoundPath.C112_bytes",
    "MS.SoundPath.C112_bit_for_bit"
   ],
   "note": "Composes C08, C11, C13, C14, C20, C24, C55, C108, C109. Order of handling is assumed as in C70; the decoder conversion (level / 32767) is assumed of the library."
  },
  {
   "property": "C113",
   "status": "partial",
   "theorems": [
    "MS.Screen.C113_song",
    "MS.Screen.C113_status",
    "MS.Screen.C113_title",
    "MS.Screen.C113_time",
    "MS.Screen.C113_bar",
    "MS.Screen.C113_lyrics",
    "MS.Screen.C113_volume",
    "MS.Screen.C113_first_song",
    "MS.Screen.C113_idle"
   ],
   "note": "Composes C10, C45, C46, C47, C54, C68, C110, C111: from the server's streaming loop and the files beside the songs to the cells of the infoer's window. Missing: the race of C10 (Quiet), positions in breaks (C46_break_counted shows the time going on), and the song at index 0, for which C113_first_song shows that the time stays 0:00/0:00 (code as it is)."
  },
  {
   "property": "C114",
   "status": "proved",
   "theorems": [
    "MS.SshSession.C114_transcript",
    "MS.SshSession.C114_end",
    "MS.SshSession.C114_over",
    "MS.SshSession.C114_no_terminal",
    "MS.SshSession.C114_no_editor",
    "MS.SshSession.C114_answered"
   ],
   "note": "For every registry, input and history, with arbitrary commands. Echo, prompt and escapes of readline are left out of what is written."
  },
  {
   "property": "C115",
   "status": "proved",
   "theorems": [
    "MS.Json.C115_users",
    "MS.Json.C115_login",
    "MS.Json.C115_accepted_iff",
    "MS.Json.C115_errors",
    "MS.Json.C115_every_table"
   ],
   "note": "encoding/json as far as these types need it is modelled; a key given as a JSON array of bytes is an arbitrary function (its acceptance is a hypothesis); the text of the decoder's error is arbitrary"
  },
  {
   "property": "C116",
   "status": "proved",
   "theorems": [
    "MS.Json.C116_lyrics",
    "MS.Json.C116_utf8",
    "MS.Json.C116_announced",
    "MS.Json.C116_all_or_nothing",
    "MS.Json.C116_sent_iff",
    "MS.Json.C116_every_lyrics"
   ],
   "note": "C116_lyrics is exact for every content of the file; composes with C54 through Known"
  },
  {
   "property": "C117",
   "status": "proved",
   "theorems": [
    "MS.Numbers.C117_atoi",
    "MS.Numbers.C117_jump",
    "MS.Numbers.C117_remove",
    "MS.Numbers.C117_queue",
    "MS.Numbers.C117_every_position"
   ],
   "note": "strconv.Atoi as in Go 1.14 (from memory): fast path with 64 bit arithmetic, ParseInt/ParseUint with their overflow tests. That queue appends silently when the position is no number is part of the statement."
  },
  {
   "property": "C118",
   "status": "proved",
   "theorems": [
    "MS.Numbers.C118_number",
    "MS.Numbers.C118_other",
    "MS.Numbers.C118_volume",
    "MS.Numbers.C118_volume_named",
    "MS.Numbers.C118_volume_refused",
    "MS.Numbers.C118_reply",
    "MS.Numbers.C118_shown",
    "MS.Numbers.C118_heard"
   ],
   "note": "strconv.ParseFloat as in Go 1.14 (from memory): syntax as it is, correct rounding taken from its documentation. Grammar Numeral independent of the parser."
  },
  {
   "property": "C119",
   "status": "proved",
   "theorems": [
    "MS.CommandLine.C119_server",
    "MS.CommandLine.C119_clients",
    "MS.CommandLine.C119_refused",
    "MS.CommandLine.C119_unambiguous",
    "MS.CommandLine.C119_numbers",
    "MS.CommandLine.C119_leading_zero",
    "MS.CommandLine.C119_ignored",
    "MS.CommandLine.C119_logging"
   ],
   "note": "The flag package, urfave/cli and strconv are modelled from memory (Go 1.14, cli 1.22.4). C119_server/C119_clients are equivalences for all words; what a time stands for is C120."
  },
  {
   "property": "C120",
   "status": "proved",
   "theorems": [
    "MS.CommandLine.C120_refused",
    "MS.CommandLine.C120_exact",
    "MS.CommandLine.C120_near"
   ],
   "note": "time.ParseDuration modelled from memory (Go 1.14) with float64 rounding. C120_near bounds the error of long fractions by one nanosecond per part for all texts; an example shows the bound is reached."
  },
  {
   "property": "C121",
   "status": "proved",
   "theorems": [
    "MS.Launch.C121_settings",
    "MS.Launch.C121_started",
    "MS.Launch.C121_complete",
    "MS.Launch.C121_crash",
    "MS.Launch.C121_messages",
    "MS.Launch.C121_decided",
    "MS.Launch.C121_client_settings",
    "MS.Launch.C121_player",
    "MS.Launch.C121_infoer",
    "MS.Launch.C121_defaults",
    "MS.Launch.C121_version"
   ],
   "note": "Composition of C119 with C88/C89. The infoer crashes instead of saying why it cannot connect (C89_infoer_panics). Player: sample rates between -9*10^10 and 9*10^10 (no overflow of the buffer size)."
  },
  {
   "property": "C122",
   "status": "proved",
   "theorems": [
    "MS.Slices.C122_values",
    "MS.Slices.C122_server",
    "MS.Slices.C122_given_shared",
    "MS.Slices.C122_queues",
    "MS.Slices.C122_connections",
    "MS.Slices.C122_chunks"
   ],
   "note": "Memory-level model (arrays, slices with offset, length and capacity; append with arbitrary spare room; memmove) refines the list models. The slice handed to NewPlaylist is shared (C122_given_shared); the server hands in an empty one."
  },
  {
   "property": "C123",
   "status": "partial",
   "theorems": [
    "MS.Slices.C123_cut_off_is_gone",
    "MS.Slices.C123_connections_kept",
    "MS.Slices.C123_chunks_bounded",
    "MS.Slices.C123_chunks_kept"
   ],
   "note": "Proved for toggles (server, infoer) and chunks of infoers. Refuted for connections (a removed one stays referenced until its place is reused) and for chunks of players, where the number kept is bounded instead."
  },
  {
   "property": "C124",
   "status": "proved",
   "theorems": [
    "MS.ServerStart.C124_announced",
    "MS.ServerStart.C124_as_after_start",
    "MS.ServerStart.C124_commands_in_order",
    "MS.ServerStart.C124_starts"
   ],
   "note": "Server, the stream and the sessions interleaved statement by statement, from the first statement of Server on. The schedule is arbitrary, so the statement covers sessions that queue songs while Server still registers the commands after it. C124_as_after_start carries C06-C12, C63, C64, C80 and C97 over to the start-up, discharging the assumption of Model/StreamLoop that both handlers are set. Memory is taken to be sequentially consistent."
  },
  {
   "property": "C125",
   "status": "proved",
   "theorems": [
    "MS.PlaylistRun.C125_stream",
    "MS.PlaylistRun.C125_chunks",
    "MS.PlaylistRun.C125_lead",
    "MS.PlaylistRun.C125_goes_on"
   ],
   "note": "StreamLoop and Fill as one machine with every channel operation as a step; forward simulation by Model/StreamLoop (which pushes blocks at once) and projection to Model/Fill, so that their theorems hold for the composed program. Safety holds for every capacity; C125_goes_on needs room for one sample (a capacity of 0, sample rate 0, is an unbuffered channel, which the model of a channel does not cover)."
  },
  {
   "property": "C126",
   "status": "proved",
   "theorems": [
    "MS.PlaylistRun.C126_pause",
    "MS.PlaylistRun.C126_resume",
    "MS.PlaylistRun.C126_jump"
   ],
   "note": "Bounds in samples beyond what Fill has returned or is reading at that moment: capacity of the channels (the sample rate, one second) plus one block for pause and resume, two blocks for a jump accepted while a song is streamed. A jump accepted while no song is streamed cuts the next song (C07)."
  },
  {
   "property": "C127",
   "status": "partial",
   "theorems": [
    "MS.StreamLoop64.C127_no_crash_partial",
    "MS.StreamLoop64.C127_exact",
    "MS.StreamLoop64.C127_last_position",
    "MS.StreamLoop64.C127_refuted"
   ],
   "note": "Proved for positions 0 to 2^63-2 and every schedule, and equality with the unbounded model in that range (negative positions included). The full statement is false: 9223372036854775807 stored just when a song ends is advanced to the smallest integer, and choosing the next song crashes unless the number of songs is a power of two (exact, C127_last_position)."
  },
  {
   "property": "C128",
   "status": "proved",
   "theorems": [
    "MS.PauseHeard.C128_pause",
    "MS.PauseHeard.C128_jump",
    "MS.PauseHeard.C128_resume"
   ],
   "note": "Composes the sample-by-sample playlist (C125/C126) with the ticker (C55) and the stamps of the chunks (C13). Times are readings of the server's clock; At says which Fill calls have got their tick by T."
  },
  {
   "property": "C129",
   "status": "proved",
   "theorems": [
    "MS.OnTime.C129_on_time",
    "MS.OnTime.C129_clock",
    "MS.OnTime.C129_players"
   ],
   "note": "The buffer is any part of the stream with its due times, which C70 and C130 show it is. Steady is the assumption on the sound device. C129_players: two players hear every common sample at the same time, up to their clocks, jitters and roundings."
  },
  {
   "property": "C130",
   "status": "partial",
   "theorems": [
    "MS.OnTime.C130_pause_partial",
    "MS.OnTime.C130_jump_partial",
    "MS.OnTime.C130_held_back"
   ],
   "note": "Full statement refuted by C130_held_back: a call of Stream that has written some samples when the pause begins does not return however many NaN samples come, so these samples reach the device only after the resume. Proved: every slot with music in a call that returns is within the bound."
  },
  {
   "property": "C131",
   "status": "proved",
   "theorems": [
    "MS.Lost.C131_lost"
   ],
   "note": "Quantifies C16 (refuted: the first sample is never played). The song has to last beyond the bound."
  },
  {
   "property": "C132",
   "status": "proved",
   "theorems": [
    "MS.Queued.C132_stream",
    "MS.Queued.C132_heard",
    "MS.Queued.C132_idle"
   ],
   "note": "Composition of PlaylistRun (C125), the ticker (C55) and the stamps (C13). The playlist is a queue of decodable, named songs; it may be edited further. That the samples are sent at all is C85/C125; that a player plays what is sent on time is C129. C132_idle: an empty playlist meets the hypothesis, from the start of the server on."
  },
  {
   "property": "C133",
   "status": "partial",
   "theorems": [
    "MS.ShownInTime.C133_pause_partial",
    "MS.ShownInTime.C133_jump_partial",
    "MS.ShownInTime.C133_resume_partial",
    "MS.ShownInTime.C133_queue_partial"
   ],
   "note": "Composition of C46 (what an infoer shows at a position) with C126/C132 (the server in samples), C55 and C13 (when chunks are cut and due) and C41 (position from the time). Missing: a pause or resume between the server's reads of the play state for one block (C10: the announcement is then off by a block), positions in breaks between songs (there the play state is the last one announced, C46), servers without breaks, jumps accepted between two songs. The infoer's and the server's clock are the same (C11). Non-vacuity: ex_viewer."
  },
  {
   "property": "C134",
   "status": "proved",
   "theorems": [
    "MS.InfoRate.C134_crash",
    "MS.InfoRate.C134_position",
    "MS.InfoRate.C134_lag",
    "MS.InfoRate.C134_back"
   ],
   "note": "Info with Go's integer division as an Option (none: panic), equal to Infoer.info at every rate but 0; the chunks are those the server schedules at its own rate (C13), received in any order. Negative rates, overflow and the times shown (divided by the infoer's rate) are left out. Non-vacuity: ex_lag, ex_back, ex_crash."
  },
  {
   "property": "C135",
   "status": "proved",
   "theorems": [
    "MS.WrongRate.C135_order",
    "MS.WrongRate.C135_song",
    "MS.WrongRate.C135_drift",
    "MS.WrongRate.C135_player"
   ],
   "note": "C135_order: any part of any stream with breaks; C135_song: a song without a break, sample after sample with the drift after m samples; C135_drift: the drift is m*(1/own - 1/rate) seconds up to a nanosecond; C135_player: composed with server, messages and reader. The lag is counted from the time of a slot within its call, as in C129; a call that blocks for lack of samples does not return. Rate zero is outside (playback.Init)."
  },
  {
   "property": "C136",
   "status": "proved",
   "theorems": [
    "MS.Kept.C136_bounded",
    "MS.Kept.C136_grows",
    "MS.Kept.C136_player"
   ],
   "note": "Number of samples kept, as the time they last; for calls that return and times between calls that fit the device's rate up to jitter (a device that stops calling keeps nothing from growing). C136_player: composed with server, messages and reader, at the right rate; C136_grows: any other rate, in a song without a break."
  },
  {
   "property": "C137",
   "status": "proved",
   "theorems": [
    "MS.Gapless.C137_next",
    "MS.Gapless.C137_songs"
   ],
   "note": "For calls that return. Songs must decode to music (a NaN in the first channel counts as silence, C14) and have a name. Which samples the stream consists of: C06 to C10, C125."
  },
  {
   "property": "C138",
   "status": "proved",
   "theorems": [
    "MS.VolumeTurn.C138_levels",
    "MS.VolumeTurn.C138_change",
    "MS.VolumeTurn.C138_mute",
    "MS.VolumeTurn.C138_device"
   ],
   "note": "Reading and writing the volume is taken to be atomic (64 bit machines; the code does not synchronise). Volumes that are not finite are excluded (C108_special says what they do). Calls of Stream that return. Which volume message is handled last: C56, C103."
  },
  {
   "property": "C139",
   "status": "partial",
   "theorems": [
    "MS.ShownState.C139_shows_announced",
    "MS.ShownState.C139_recovers_partial",
    "MS.ShownState.C139_stuck",
    "MS.ShownState.ex_stuck",
    "MS.ShownState.ex_recovers"
   ],
   "note": "Composes C97 and C44/C46/C60 without the assumption of C46 that there was never a race. Full statement refuted by C139_stuck (every state about to announce); reachable and watched: ex_stuck. Positions in breaks are not covered (C46)."
  },
  {
   "property": "C140",
   "status": "proved",
   "theorems": [
    "MS.ListedNumbers.C140_listed",
    "MS.ListedNumbers.ex_listed"
   ],
   "note": "Composes C62, C38, C92, C117 for the console. For jump: while fewer than two jumps wait (C102); the numbers are those of the state listed, edits in between shift them."
  }
 ]
}