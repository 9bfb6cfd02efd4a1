import Verif.Model.Commands

/-!
# Several ssh sessions changing the playlist at the same time

Every ssh session runs its commands in its own goroutine (ssh/session_handler.go:129-142). A command changes the playlist by
calls of AddSong, InsertSong and RemoveSong, each of which holds `songsMutex` for its whole duration, so a call is one step,
but between two calls of one command other sessions may make theirs.
-/

namespace MS.Concurrent

/-- A call that changes the playlist: playback/playlist.go:165-211. -/
inductive Call where
  | add (song : String)
  | insert (song : String) (index : Int)
  | remove (index : Int)
deriving DecidableEq, Repr

/-- The call's effect on the list (playback/playlist.go:165-211); the song RemoveSong returns is dropped. -/
def Call.run (pl : List String) : Call → Res (List String)
  | .add s => .ok (Playlist.addSong pl s)
  | .insert s i => Playlist.insertSong pl s i
  | .remove i => (Playlist.removeSong pl i).map Prod.snd

/-- schedule/server_state_commands.go:57-66: the calls of `queue`, from song number `i` on -/
def queueCalls (pos : Option Int) : Nat → List String → List Call
  | _, [] => []
  | i, s :: ss =>
    (match pos with
      | some p => .insert s (wrap64 (p + i))
      | none => .add s) :: queueCalls pos (i + 1) ss

/-- The playlist and, for each session, the calls its command still has to make. The process has `crashed` after a panic.
(playback/playlist.go:16-17, schedule/server_state_commands.go:64-66) -/
structure St where
  songs : List String
  sessions : List (List Call)
  crashed : Bool

/-- A session makes its next call (schedule/server_state_commands.go:64-66, 137). -/
inductive Step : St → St → Prop
  | call (s : St) (k : Nat) (c : Call) (rest : List Call) (pl : List String) (hc : s.crashed = false)
      (hk : s.sessions[k]? = some (c :: rest)) (h : c.run s.songs = .ok pl) :
      Step s { s with songs := pl, sessions := s.sessions.set k rest }
  | panic (s : St) (k : Nat) (c : Call) (rest : List Call) (hc : s.crashed = false)
      (hk : s.sessions[k]? = some (c :: rest)) (h : c.run s.songs = .panic) :
      Step s { s with crashed := true }

/-- Executions (schedule/server_state_commands.go:64-66, 137). -/
inductive Steps : St → St → Prop
  | refl (s : St) : Steps s s
  | tail {s t u : St} (h : Steps s t) (h' : Step t u) : Steps s u

/-- All commands have returned (schedule/server_state_commands.go:67). -/
def St.finished (s : St) : Prop := ∀ cs ∈ s.sessions, cs = []

end MS.Concurrent
