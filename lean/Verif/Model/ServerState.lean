import Verif.Model.Infoer
import Verif.Model.PlaylistEdit
/-!
# schedule/server_state.go: what the server keeps for new clients

Songs and toggles are those of the infoer's model (`MS.Infoer`): the fields of NewSongInfo and PauseInfo that matter
here. Volume is the bit pattern of the float64.
-/
set_option linter.unusedVariables false
namespace MS.Server
open MS.Infoer

/-- comm/packages.proto:41-44; a fresh connection is reported with channel -1 (comm/conn_handler.go:63) -/
def AUDIO : Int := 0
/-- comm/packages.proto:43 -/
def META : Int := 1

/-- schedule/server_state.go:12-25, the fields replayed to new clients -/
structure Ss (σ : Type) where
  volume : UInt64
  newest : Option (Song σ)
  pauses : List Toggle

/-- schedule/server.go:13-24; 0x3FB999999999999A is 0.1 -/
def Ss.init {σ : Type} : Ss σ := ⟨0x3FB999999999999A, none, []⟩

/-- The messages the server sends a subscriber. (schedule/server_state.go:28, 33, 40) -/
inductive Sent (σ : Type) where
  | volume (v : UInt64)
  | song (s : Song σ)
  | pause (t : Toggle)
  deriving DecidableEq, Repr

/-- schedule/server_state.go:27-29 -/
def sendVolume {σ : Type} (ss : Ss σ) : List (Sent σ) := [.volume ss.volume]

/-- schedule/server_state.go:31-35 -/
def sendNewestSong {σ : Type} (ss : Ss σ) : List (Sent σ) :=
  match ss.newest with
  | some s => [.song s]
  | none => []

/-- schedule/server_state.go:37-43 -/
def sendPauses {σ : Type} (ss : Ss σ) : List (Sent σ) := ss.pauses.map .pause

/-- schedule/server_state.go:45-56 `createClientHandler` -/
def clientHandler {σ : Type} (ch : Int) (ss : Ss σ) : List (Sent σ) :=
  if ch = AUDIO then sendVolume ss
  else if ch = META then sendVolume ss ++ sendNewestSong ss ++ sendPauses ss
  else []

/-- schedule/server_state.go:119-128, the loop of `removablePauses` -/
def removableLoop (first : Nat) : Nat → Nat → List Toggle → Nat
  | _, passed, [] => passed
  | i, passed, p :: ps =>
    let inPast := decide (first < p.toggleIndex)
    if !inPast && p.playing then removableLoop first (i + 1) i ps
    else if inPast then passed
    else removableLoop first (i + 1) passed ps

/-- schedule/server_state.go:111-129 `removablePauses` -/
def removable {σ : Type} (ss : Ss σ) : Nat :=
  match ss.newest with
  | none => 0
  | some s => removableLoop s.startIndex 0 0 ss.pauses

/-- schedule/server_state.go:137-141: the second section of `removeOldPauses`. The removed places are set to nil and cut
off; their content does not matter and is left. -/
def cut (pauses : List Toggle) (k : Nat) : Res (List Toggle) :=
  (Playlist.goCopy pauses 0 k).map fun l => l.take (l.length - k)

/-- schedule/server_state.go:131-143 `removeOldPauses`, when nothing happens between its two sections -/
def removeOldPauses {σ : Type} (ss : Ss σ) : Res (Ss σ) :=
  if 0 < removable ss then (cut ss.pauses (removable ss)).map fun l => { ss with pauses := l } else .ok ss

/-! ## One thing after the other -/

/-- What changes the state: a volume command (`none`: its argument is no number, see C33), a song that starts, a
toggle. (schedule/server_state_commands.go:164-174, schedule/server_state.go:73-109) -/
inductive Op (σ : Type) where
  | volume (v : Option UInt64)
  | song (s : Song σ)
  | toggle (t : Toggle)

/-- server_state_commands.go:166, server_state.go:80-90, server_state.go:101-106 followed by `removeOldPauses` -/
def apply {σ : Type} (ss : Ss σ) : Op σ → Res (Ss σ)
  | .volume v => .ok { ss with volume := v.getD 0 }
  | .song s => .ok { ss with newest := some s }
  | .toggle t => removeOldPauses { ss with pauses := ss.pauses ++ [t] }

/-- a history of changes, schedule/server_state.go:73-109 -/
def applyAll {σ : Type} : Ss σ → List (Op σ) → Res (Ss σ)
  | ss, [] => .ok ss
  | ss, o :: os => (apply ss o).bind fun ss' => applyAll ss' os

/-! ## All schedules -/

/-- Where the handler for the subscription of the observed client (META) is: comm/package_handler.go:102-105 and
server_state.go:50-53. -/
inductive Rp (σ : Type) where
  | notYet
  | subscribed
  | volumeRead (v : UInt64)
  | volumeSent
  | songRead (s : Option (Song σ))
  | songSent
  | done

/-- The server's goroutines and one client that subscribes at some time. (schedule/server_state.go:12-25) -/
structure Cfg (σ : Type) where
  ss : Ss σ
  crashed : Bool
  /-- handlers of songs: not yet stored (`false`) or stored but not yet broadcast -/
  songs : List (Song σ × Bool)
  /-- goroutines of server_state.go:101-106 that have not appended yet -/
  appends : List Toggle
  /-- toggle handlers that have not broadcast yet, server_state.go:107 -/
  toggleSends : List Toggle
  /-- `removeOldPauses` before its first section -/
  looks : Nat
  /-- `removeOldPauses` between its sections, with the number to remove -/
  cuts : List Nat
  /-- volume commands that have not broadcast yet -/
  volumeSends : Nat
  rp : Rp σ
  /-- what the client has been sent -/
  inbox : List (Sent σ)
  /-- all toggles in the order appended (history, not a variable of the program) -/
  appended : List Toggle
  /-- all songs in the order started, and all toggles whose handler was started after the client subscribed (history) -/
  begun : List (Song σ)
  late : List Toggle

/-- schedule/server.go:13-24 -/
def Cfg.init {σ : Type} : Cfg σ := ⟨Ss.init, false, [], [], [], 0, [], 0, .notYet, [], [], [], []⟩

/-- A broadcast to META: it reaches the client iff it has subscribed (C27). (comm/message_sender.go:25-55) -/
def bcast {σ : Type} (c : Cfg σ) (m : List (Sent σ)) : List (Sent σ) :=
  match c.rp with
  | .notYet => c.inbox
  | _ => c.inbox ++ m

/-- The history variable `late` when the handler of `t` starts. (schedule/server_state.go:95-109) -/
def Cfg.lateWith {σ : Type} (c : Cfg σ) (t : Toggle) : List Toggle :=
  match c.rp with
  | .notYet => c.late
  | _ => c.late ++ [t]

/-- One step of some goroutine of a server that has not crashed.
(schedule/server_state.go:27-143, schedule/server_state_commands.go:164-174) -/
inductive Step {σ : Type} : Cfg σ → Cfg σ → Prop
  /-- playback/playlist.go:77 starts a song handler -/
  | songStart (c : Cfg σ) (hc : c.crashed = false) (s : Song σ) :
      Step c { c with songs := c.songs ++ [(s, false)], begun := c.begun ++ [s] }
  /-- server_state.go:74-90 -/
  | songStore (c : Cfg σ) (hc : c.crashed = false) (x y : List (Song σ × Bool)) (s : Song σ)
      (h : c.songs = x ++ (s, false) :: y) :
      Step c { c with songs := x ++ (s, true) :: y, ss := { c.ss with newest := some s } }
  /-- server_state.go:91: reads the field again -/
  | songSend (c : Cfg σ) (hc : c.crashed = false) (x y : List (Song σ × Bool)) (s : Song σ)
      (h : c.songs = x ++ (s, true) :: y) :
      Step c { c with songs := x ++ y, inbox := bcast c (sendNewestSong c.ss) }
  /-- playback/playlist.go:135 starts a toggle handler -/
  | toggle (c : Cfg σ) (hc : c.crashed = false) (t : Toggle) :
      Step c { c with appends := c.appends ++ [t], toggleSends := c.toggleSends ++ [t],
                      late := c.lateWith t }
  /-- server_state.go:102-105 -/
  | append (c : Cfg σ) (hc : c.crashed = false) (x y : List Toggle) (t : Toggle) (h : c.appends = x ++ t :: y) :
      Step c { c with appends := x ++ y, ss := { c.ss with pauses := c.ss.pauses ++ [t] }, looks := c.looks + 1,
                      appended := c.appended ++ [t] }
  /-- server_state.go:107 -/
  | toggleSend (c : Cfg σ) (hc : c.crashed = false) (x y : List Toggle) (t : Toggle) (h : c.toggleSends = x ++ t :: y) :
      Step c { c with toggleSends := x ++ y, inbox := bcast c [.pause t] }
  /-- server_state.go:132-133 -/
  | look (c : Cfg σ) (hc : c.crashed = false) (n : Nat) (h : c.looks = n + 1) :
      Step c { c with looks := n, cuts := if 0 < removable c.ss then c.cuts ++ [removable c.ss] else c.cuts }
  /-- server_state.go:134-141 -/
  | cut (c : Cfg σ) (hc : c.crashed = false) (x y : List Nat) (k : Nat) (l : List Toggle) (h : c.cuts = x ++ k :: y)
      (hk : cut c.ss.pauses k = .ok l) : Step c { c with cuts := x ++ y, ss := { c.ss with pauses := l } }
  /-- the same, out of range -/
  | cutPanic (c : Cfg σ) (hc : c.crashed = false) (x y : List Nat) (k : Nat) (h : c.cuts = x ++ k :: y)
      (hk : cut c.ss.pauses k = .panic) : Step c { c with cuts := x ++ y, crashed := true }
  /-- server_state_commands.go:166 -/
  | volumeSet (c : Cfg σ) (hc : c.crashed = false) (v : UInt64) :
      Step c { c with ss := { c.ss with volume := v }, volumeSends := c.volumeSends + 1 }
  /-- server_state_commands.go:170 -/
  | volumeSend (c : Cfg σ) (hc : c.crashed = false) (n : Nat) (h : c.volumeSends = n + 1) :
      Step c { c with volumeSends := n, inbox := bcast c (sendVolume c.ss) }
  /-- comm/package_handler.go:103 -/
  | subscribe (c : Cfg σ) (hc : c.crashed = false) (h : c.rp = .notYet) : Step c { c with rp := .subscribed }
  /-- server_state.go:28, in two steps: the field is read, then the message is written -/
  | readVolume (c : Cfg σ) (hc : c.crashed = false) (h : c.rp = .subscribed) :
      Step c { c with rp := .volumeRead c.ss.volume }
  | writeVolume (c : Cfg σ) (hc : c.crashed = false) (v : UInt64) (h : c.rp = .volumeRead v) :
      Step c { c with rp := .volumeSent, inbox := c.inbox ++ [.volume v] }
  /-- server_state.go:32-34 -/
  | readSong (c : Cfg σ) (hc : c.crashed = false) (h : c.rp = .volumeSent) :
      Step c { c with rp := .songRead c.ss.newest }
  | writeSong (c : Cfg σ) (hc : c.crashed = false) (s : Option (Song σ)) (h : c.rp = .songRead s) :
      Step c { c with rp := .songSent, inbox := c.inbox ++ s.toList.map .song }
  /-- server_state.go:38-42: under the read lock -/
  | sendPauses (c : Cfg σ) (hc : c.crashed = false) (h : c.rp = .songSent) :
      Step c { c with rp := .done, inbox := c.inbox ++ sendPauses c.ss }

/-- Reachability in any number of steps. (executions of schedule/server_state.go:27-143) -/
inductive Star {α : Type} (r : α → α → Prop) : α → α → Prop
  | refl (a : α) : Star r a a
  | tail {a b c : α} (h : Star r a b) (hs : r b c) : Star r a c

/-- Nothing is under way. (schedule/server_state.go:73-143) -/
def Quiet {σ : Type} (c : Cfg σ) : Prop :=
  c.crashed = false ∧ c.songs = [] ∧ c.appends = [] ∧ c.toggleSends = [] ∧ c.looks = 0 ∧ c.cuts = [] ∧ c.volumeSends = 0

end MS.Server
