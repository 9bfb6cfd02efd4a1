import Verif.Model.Startup
import Verif.Props.Commands
/-!
# Properties C88, C89, C90: starting the programs, the infoer's event loop
-/
namespace MS.Startup

/-- The chunk time, for settings that do not overflow. -/
theorem chunkTime_eq {size rate : Int} (hr : 0 < rate) (hs0 : 0 ≤ size) (hs : size ≤ 9223372036) :
    chunkTime size rate = some (size * 1000000000 / rate) := by
  have h1 : wrap64 (size * 1000000000) = size * 1000000000 := Commands.wrap64_id (by omega) (by omega)
  have h2 : (size * 1000000000).tdiv rate = size * 1000000000 / rate := Int.tdiv_eq_ediv_of_nonneg (by omega)
  have h3 : 0 ≤ size * 1000000000 / rate := Int.ediv_nonneg (by omega) (by omega)
  have h4 : size * 1000000000 / rate ≤ size * 1000000000 := Int.ediv_le_self _ (by omega)
  unfold chunkTime
  rw [if_neg (by omega), h1, h2, Commands.wrap64_id (by omega) (by omega)]

theorem time_pos_iff {size rate : Int} (hr : 0 < rate) : 0 < size * 1000000000 / rate ↔ rate ≤ size * 1000000000 := by
  rw [show (0 : Int) < size * 1000000000 / rate ↔ 1 ≤ size * 1000000000 / rate by omega, Int.le_ediv_iff_mul_le hr]
  omega

/-- C88: exactly when the server comes up completely, for chunk sizes up to 9223372036 samples (58 hours at 44100 Hz):
all four operations succeed, and a chunk takes at least a nanosecond. -/
theorem C88_complete_iff (s : Server) (hs0 : 0 ≤ s.size) (hs : s.size ≤ 9223372036) :
    (.listening ∈ serverRun s ∧ .control ∈ serverRun s ∧ .streaming ∈ serverRun s) ↔
    s.musicDir = none ∧ s.listen = none ∧ s.users = none ∧ s.ssh = none ∧ 0 < s.rate ∧ s.rate ≤ s.size * 1000000000 := by
  obtain ⟨rate, size, md, l, u, ssh⟩ := s
  simp only at hs0 hs
  cases md with
  | some e => simp [serverRun]
  | none =>
    by_cases hr0 : rate = 0
    · simp [serverRun, chunkTime, hr0]
    · cases hc : chunkTime size rate with
      | none => simp [chunkTime, hr0] at hc
      | some t =>
        simp only [serverRun, hc]
        cases l with
        | some e => simp
        | none =>
          cases u with
          | some e => simp
          | none =>
            by_cases hneg : rate < 0
            · simp [scheduleServer, hneg]
              cases ssh <;> simp [startSSH] <;> omega
            · have hpos : 0 < rate := by omega
              rw [chunkTime_eq hpos hs0 hs] at hc
              simp only [Option.some.injEq] at hc
              have hi := time_pos_iff (size := size) hpos
              rw [hc] at hi
              cases ssh with
              | some e =>
                have hz : ¬ size < 0 := by omega
                by_cases ht : t ≤ 0 <;> simp [startSSH, scheduleServer, hneg, ht, hz]
              | none =>
                simp only [startSSH, scheduleServer, if_neg hneg]
                by_cases ht : t ≤ 0
                · simp [ht]; omega
                · simp [ht, show ¬ size < 0 by omega]; omega

/-- C88, the part that holds: with a sample rate and chunk size that make sense and the ssh port available, the start
either comes up completely or ends with status 1 and the message of the first operation that failed; clients can have
connected only if it was the users file.
Missing from the full property: the settings of the next theorems. -/
theorem C88_orderly_partial (s : Server) (hs0 : 0 ≤ s.size) (hs : s.size ≤ 9223372036) (hr : 0 < s.rate)
    (hsz : s.rate ≤ s.size * 1000000000) (hssh : s.ssh = none) :
    serverRun s = match s.musicDir, s.listen, s.users with
      | some e, _, _ => [.exit 1 ("invalid music dir: ".toList ++ e)]
      | none, some e, _ => [.exit 1 e]
      | none, none, some e => [.listening, .exit 1 e]
      | none, none, none => [.listening, .control, .streaming] := by
  obtain ⟨rate, size, md, l, u, ssh⟩ := s
  simp only at hs0 hs hr hsz hssh
  subst hssh
  have hc := chunkTime_eq hr hs0 hs
  have ht := (time_pos_iff (size := size) hr).2 hsz
  cases md with
  | some e => rfl
  | none =>
    cases l with
    | some e => simp [serverRun, hc]
    | none =>
      cases u with
      | some e => simp [serverRun, hc]
      | none =>
        simp only [serverRun, hc, startSSH, scheduleServer]
        rw [if_neg (by omega), if_neg (by omega), if_neg (by omega)]
        rfl

/-- C88 fails: `--sample-rate=0` crashes the server, whatever else is set. -/
theorem C88_zero_rate_panics (s : Server) (h : s.rate = 0) (hd : s.musicDir = none) : serverRun s = [.panic] := by
  simp [serverRun, hd, chunkTime, h]

/-- C88 fails: a negative sample rate crashes the server after clients could connect. -/
theorem C88_negative_rate_panics (s : Server) (h : s.rate < 0) (hd : s.musicDir = none) (hl : s.listen = none)
    (hu : s.users = none) : .listening ∈ serverRun s ∧ .panic ∈ serverRun s := by
  have : ¬ s.rate = 0 := by omega
  simp [serverRun, hd, chunkTime, this, hl, hu, scheduleServer, h]

/-- C88 fails: with a chunk size of 0 the server accepts clients and commands, and never sends any music, without a
message. -/
theorem C88_silent_without_chunks (s : Server) (h : s.size = 0) (hr : 0 < s.rate) (hd : s.musicDir = none)
    (hl : s.listen = none) (hu : s.users = none) (hh : s.ssh = none) : serverRun s = [.listening, .control] := by
  have : ¬ s.rate = 0 := by omega
  have h3 : ¬ s.rate < 0 := by omega
  simp [serverRun, hd, chunkTime, this, hl, hu, hh, scheduleServer, h, h3, startSSH, wrap64, Int.bmod]

/-- C88 fails: if the ssh port or the host key cannot be used, the server goes on without control interface. -/
theorem C88_no_control (s : Server) (e : List Char) (hs0 : 0 ≤ s.size) (hs : s.size ≤ 9223372036) (hr : 0 < s.rate)
    (hsz : s.rate ≤ s.size * 1000000000) (hd : s.musicDir = none) (hl : s.listen = none) (hu : s.users = none)
    (hh : s.ssh = some e) : serverRun s = [.listening, .streaming] := by
  have hc := chunkTime_eq hr hs0 hs
  have ht := (time_pos_iff (size := s.size) hr).2 hsz
  simp only [serverRun, hd, hl, hu, hh, hc, startSSH, scheduleServer]
  rw [if_neg (by omega), if_neg (by omega), if_neg (by omega)]
  rfl

/-- C88: a server that cannot read its users file has already accepted clients when it gives up. -/
theorem C88_rejected_after_listening (s : Server) (e : List Char) (hr : s.rate ≠ 0) (hd : s.musicDir = none)
    (hl : s.listen = none) (hu : s.users = some e) : serverRun s = [.listening, .exit 1 e] := by
  simp [serverRun, hd, chunkTime, hr, hl, hu]

/-- The default settings. -/
example : serverRun ⟨44100, 176400, none, none, none, none⟩ = [.listening, .control, .streaming] := by decide
/-- 63 hours in one chunk overflow: no music is sent. -/
example : serverRun ⟨44100, 10000000000, none, none, none, none⟩ = [.listening, .control] := by decide

/-! ## C89 -/

/-- C89, player: if the server cannot be reached, the player ends with status 1 and the reason. -/
theorem C89_player_partial (e : List Char) : playerRun (some e) = [.exit 1 e] ∧ playerRun none = [.connected, .running] :=
  ⟨rfl, rfl⟩

/-- C89 fails for the infoer: it takes over the terminal and crashes, the reason is never shown and the terminal is not
given back (unless the user presses Ctrl-C faster than the goroutines start). -/
theorem C89_infoer_panics (e : List Char) :
    infoerRun none (some e) false = [.screenOn, .panic] ∧
    (∀ quit st msg, Ev.exit st msg ∉ infoerRun none (some e) quit) := by
  refine ⟨rfl, ?_⟩
  intro quit st msg
  cases quit <;> simp [infoerRun, infoer]

/-- C89: an infoer that cannot use the terminal ends with status 1 and the reason, before it connects. -/
theorem C89_infoer_no_screen (e : List Char) (connect : Option (List Char)) (quit : Bool) :
    infoerRun (some e) connect quit = [.exit 1 e] := rfl

/-- C89: an infoer that reaches the server runs with the terminal taken over; if the user ends it at once, it has given
the terminal back. -/
theorem C89_infoer_runs (connect : Option (List Char)) :
    infoerRun none none false = [.screenOn, .connected, .running] ∧ infoerRun none connect true = [.screenOn, .screenOff] :=
  ⟨rfl, rfl⟩

/-! ## C90 -/

theorem fold_quit (evs : List TEv) : evs.foldl event .quit = .quit := by
  induction evs with
  | nil => rfl
  | cons e es ih => exact ih

theorem fold_crashed (evs : List TEv) : evs.foldl event .crashed = .crashed := by
  induction evs with
  | nil => rfl
  | cons e es ih => exact ih

/-- The last size among events, starting from `(w, h)`. -/
def lastSize (w h : Int) (evs : List TEv) : Int × Int :=
  (evs.filterMap (fun | .resize a b => some (a, b) | _ => none)).getLast?.getD (w, h)

theorem lastSize_cons (w h : Int) (e : TEv) (es : List TEv) : lastSize w h (e :: es) =
    (match e with | .resize a b => lastSize a b es | _ => lastSize w h es) := by
  cases e with
  | resize a b =>
    simp [lastSize, List.getLast?_cons]
  | key c => simp [lastSize]
  | other => simp [lastSize]

/-- C90: the infoer keeps running, drawing in the last size of the window, exactly as long as neither Ctrl-C nor an
event that is neither key nor resize has come. For every sequence of events. -/
theorem C90_running_iff (w h a b : Int) (evs : List TEv) :
    eventLoop w h evs = .running a b ↔ (.key true ∉ evs ∧ .other ∉ evs ∧ (a, b) = lastSize w h evs) := by
  unfold eventLoop
  induction evs generalizing w h with
  | nil => simp [lastSize]; exact ⟨fun ⟨x, y⟩ => ⟨x.symm, y.symm⟩, fun ⟨x, y⟩ => ⟨x.symm, y.symm⟩⟩
  | cons e es ih =>
    rw [List.foldl_cons, lastSize_cons]
    cases e with
    | key c =>
      cases c with
      | true => simp [event, fold_quit]
      | false => simp only [event]; rw [ih]; simp
    | resize x y => simp only [event]; rw [ih]; simp
    | other => simp [event, fold_crashed]

/-- C90: Ctrl-C ends it, whatever comes afterwards, and nothing else does; it crashes exactly if another kind of event
comes before. -/
theorem C90_ctrlC (w h : Int) (before after : List TEv) (hk : .key true ∉ before) (ho : .other ∉ before) :
    eventLoop w h (before ++ .key true :: after) = .quit ∧ eventLoop w h (before ++ .other :: after) = .crashed := by
  have := (C90_running_iff w h _ _ before).2 ⟨hk, ho, rfl⟩
  unfold eventLoop at this ⊢
  rw [List.foldl_append, List.foldl_append, this]
  exact ⟨fold_quit after, fold_crashed after⟩

example : eventLoop 80 24 [.key false, .resize 100 30, .resize 90 20, .key false] = .running 90 20 ∧
    eventLoop 80 24 [.resize 100 30, .key true, .other] = .quit := by decide

end MS.Startup
