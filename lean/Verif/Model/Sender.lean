import Verif.Model.Proto
/-!
# comm/message_sender.go, util/collector.go, util/multi_error.go, comm/package_handler.go

The broadcast sender, the error collector it uses, and the dispatch of received messages. A connection is a number (Go:
an interface value compared by identity). `AddConn`, `DelConn` and `Subscribe` hold the write lock and `SendMessage` the
read lock for their whole duration, so the first three are atomic and the state does not change during a broadcast;
the goroutines of a broadcast are modelled step by step.
-/
set_option linter.unusedVariables false
namespace MS.Sender
open MS.Proto

/-- comm/message_sender.go:20: a net.Conn, identified by a number -/
abbrev Conn := Nat

/-- comm/packages.proto:41-44 -/
def AUDIO : Int32 := 0
/-- comm/packages.proto:43 -/
def META : Int32 := 1

/-- comm/message_sender.go:19-23. `channels` is a Go map: `none` is an absent key. -/
structure St where
  connections : List Conn
  channels : Conn → Option (List Int32)

/-- comm/conn_handler.go:43 -/
def St.init : St := ⟨[], fun _ => none⟩

/-- comm/package_util.go:17-28 `channelOf` -/
def channelOf : Msg → List Int32 × Bool
  | .queueChunkRequest _ => ([AUDIO], true)
  | .setVolumeRequest _ => ([AUDIO, META], true)
  | .chunkInfo _ => ([META], true)
  | .newSongInfo _ => ([META], true)
  | .pauseInfo _ => ([META], true)
  | _ => ([], false)

/-- comm/message_sender.go:57-61 -/
def addConn (s : St) (c : Conn) : St := { s with connections := s.connections ++ [c] }

/-- comm/message_sender.go:63-79: the first occurrence is overwritten with the last element, then the last is cut. -/
def delConn (s : St) (c : Conn) : St :=
  match s.connections.findIdx? (· == c) with
  | none => s
  | some index => { s with connections := (s.connections.set index (s.connections.getLastD 0)).dropLast }

/-- comm/message_sender.go:81-89 -/
def subscribe (s : St) (c : Conn) (ch : Int32) : St :=
  { s with channels := fun x =>
      if x = c then (match s.channels c with | some l => some (l ++ [ch]) | none => some [ch]) else s.channels x }

/-- comm/message_sender.go:102-109 -/
def containsChannel (channels : List Int32) (ch : Int32) : Bool := channels.any (fun c => ch == c)

/-- comm/message_sender.go:91-100 -/
def isSubscribed (s : St) (c : Conn) (channels : List Int32) : Bool :=
  match s.channels c with
  | some l => l.any (fun ch => containsChannel channels ch)
  | none => false

/-- comm/message_sender.go:50-55, the condition under which `sendMessageTo` writes -/
def eligible (s : St) (m : Msg) (c : Conn) : Bool := !(channelOf m).2 || isSubscribed s c (channelOf m).1

/-- The operations that change the sender. (comm/message_sender.go:57-89) -/
inductive Op where
  | add (c : Conn)
  | del (c : Conn)
  | sub (c : Conn) (ch : Int32)
  deriving DecidableEq, Repr

/-- comm/message_sender.go:57-89 -/
def apply (s : St) : Op → St
  | .add c => addConn s c
  | .del c => delConn s c
  | .sub c ch => subscribe s c ch

/-- a history of operations, comm/message_sender.go:57-89 -/
def run (h : List Op) : St := h.foldl apply St.init

/-! ## One broadcast, comm/message_sender.go:25-48 -/

/-- A goroutine of the broadcast: not started, write returned (`some e`: failed), finished.
(comm/message_sender.go:36-41) -/
inductive W (ε : Type) where
  | start
  | sent (r : Option ε)
  | done
  deriving DecidableEq, Repr

/-- Where `SendMessage` itself is. (comm/message_sender.go:25-48) -/
inductive Main (ε : Type) where
  | wgWait
  | errWait
  | returned (r : Option (List ε))
  deriving DecidableEq, Repr

/-- State of a broadcast: the goroutines (one per connection, in order), the writes made so far, and the error
collector (goroutines of `Add` that have not inserted yet, and `errs`). (comm/message_sender.go:25-48) -/
structure Bc (ε : Type) where
  ws : List (W ε)
  writes : List Conn
  adding : List ε
  errs : List ε
  main : Main ε

/-- comm/message_sender.go:29-33 -/
def Bc.init {ε : Type} (s : St) : Bc ε := ⟨s.connections.map (fun _ => .start), [], [], [], .wgWait⟩

/-- One step of some goroutine. `out i` is the result of the write of goroutine `i`. (comm/message_sender.go:35-47) -/
inductive Bc.Step {ε : Type} (s : St) (m : Msg) (out : Nat → Option ε) : Bc ε → Bc ε → Prop
  /-- :51-52: an eligible connection is written to -/
  | write (b : Bc ε) (i : Nat) (c : Conn) (hi : b.ws[i]? = some .start) (hc : s.connections[i]? = some c)
      (he : eligible s m c = true) :
      Step s m out b { b with ws := b.ws.set i (.sent (out i)), writes := b.writes ++ [c] }
  /-- :54: not eligible -/
  | skip (b : Bc ε) (i : Nat) (c : Conn) (hi : b.ws[i]? = some .start) (hc : s.connections[i]? = some c)
      (he : eligible s m c = false) :
      Step s m out b { b with ws := b.ws.set i (.sent none) }
  /-- :37-38: no error, `wg.Done` -/
  | ok (b : Bc ε) (i : Nat) (hi : b.ws[i]? = some (.sent none)) :
      Step s m out b { b with ws := b.ws.set i .done }
  /-- :37-41: `errCol.Add` starts a goroutine (util/collector.go:13-15), `wg.Done` -/
  | add (b : Bc ε) (i : Nat) (e : ε) (hi : b.ws[i]? = some (.sent (some e))) :
      Step s m out b { b with ws := b.ws.set i .done, adding := b.adding ++ [e] }
  /-- util/collector.go:15-24: the goroutine of an `Add` inserts its error -/
  | insert (b : Bc ε) (x y : List ε) (e : ε) (ha : b.adding = x ++ e :: y) :
      Step s m out b { b with adding := x ++ y, errs := b.errs ++ [e] }
  /-- :44 `wg.Wait` returns: all goroutines are done -/
  | wait (b : Bc ε) (hm : b.main = .wgWait) (hd : ∀ w ∈ b.ws, w = .done) :
      Step s m out b { b with main := .errWait }
  /-- :44-47 and util/collector.go:34-42: no `Add` is pending; nil without errors, else a copy of them -/
  | ret (b : Bc ε) (hm : b.main = .errWait) (ha : b.adding = []) :
      Step s m out b { b with main := .returned (if b.errs = [] then none else some b.errs) }

/-- Reachability in any number of steps. (executions of comm/message_sender.go:25-48) -/
inductive Star {α : Type} (r : α → α → Prop) : α → α → Prop
  | refl (a : α) : Star r a a
  | tail {a b c : α} (h : Star r a b) (hs : r b c) : Star r a c

/-! ## The error collector alone, util/collector.go, with one observed call of `Err` -/

/-- Where the observed call of `Err` is. (util/collector.go:34-42) -/
inductive EPhase (ε : Type) where
  | idle
  | waiting
  | passed
  | returned (r : Option (List ε))
  deriving DecidableEq, Repr

/-- `added`: errors passed to calls of `Add` so far (history, not a variable of the program); `before`: the value of
`added` when `Err` was called. (util/collector.go:6-10) -/
structure Col (ε : Type) where
  adding : List ε
  errs : List ε
  phase : EPhase ε
  added : List ε
  before : List ε

/-- util/collector.go:6-10: the zero value -/
def Col.init {ε : Type} : Col ε := ⟨[], [], .idle, [], []⟩

/-- util/collector.go:13-42: one step of some goroutine -/
inductive Col.Step {ε : Type} : Col ε → Col ε → Prop
  /-- :13-15 `Add`, from any goroutine at any time -/
  | add (s : Col ε) (e : ε) : Step s { s with adding := s.adding ++ [e], added := s.added ++ [e] }
  /-- :16-23 -/
  | insert (s : Col ε) (x y : List ε) (e : ε) (h : s.adding = x ++ e :: y) :
      Step s { s with adding := x ++ y, errs := s.errs ++ [e] }
  /-- :35 `Err` is called -/
  | call (s : Col ε) (h : s.phase = .idle) : Step s { s with phase := .waiting, before := s.added }
  /-- :30-32 `wg.Wait` returns: the counter is 0 -/
  | pass (s : Col ε) (h : s.phase = .waiting) (ha : s.adding = []) : Step s { s with phase := .passed }
  /-- :36-41 -/
  | ret (s : Col ε) (h : s.phase = .passed) :
      Step s { s with phase := .returned (if s.errs = [] then none else some s.errs) }

/-- util/multi_error.go:15-21 `Error`; texts are lists of characters. -/
def numbered : Nat → List (List Char) → List (List Char)
  | _, [] => []
  | i, e :: es => ((toString i).toList ++ [':', ' '] ++ e) :: numbered (i + 1) es

/-- `strings.Join`, util/multi_error.go:20 -/
def join (sep : List Char) : List (List Char) → List Char
  | [] => []
  | [x] => x
  | x :: y :: r => x ++ sep ++ join sep (y :: r)

/-- util/multi_error.go:15-21 -/
def errorText (base : List Char) (errs : List (List Char)) : List Char :=
  base ++ [':', ' '] ++ join [';', ' '] (numbered 0 errs)

/-- comm/message_sender.go:47, the base message -/
def baseMessage : List Char := "failed to send to %d clients: ".toList

/-! ## Dispatch, comm/package_handler.go:62-85 -/

/-- The methods of TypedPackageHandlerInterface, :50-61. -/
inductive Handler where
  | HandleTimeSyncRequest | HandleTimeSyncResponse | HandleQueueChunkRequest | HandlePingMessage | HandlePongMessage
  | HandleSetVolumeRequest | HandleSubscribeChannelRequest | HandleNewSongInfo | HandleChunkInfo | HandlePauseInfo
  deriving DecidableEq, Repr

/-- A call of a handler method. (comm/package_handler.go:48-59) -/
structure Call where
  handler : Handler
  message : Msg
  sender : Conn
  deriving DecidableEq, Repr

/-- comm/package_handler.go:62-85 `Handle`: the goroutine it starts, if any. -/
def handle (m : Msg) (sender : Conn) : Option Call :=
  match m with
  | .timeSyncRequest _ => some ⟨.HandleTimeSyncRequest, m, sender⟩
  | .timeSyncResponse _ => some ⟨.HandleTimeSyncResponse, m, sender⟩
  | .queueChunkRequest _ => some ⟨.HandleQueueChunkRequest, m, sender⟩
  | .pingMessage => some ⟨.HandlePingMessage, m, sender⟩
  | .pongMessage => some ⟨.HandlePongMessage, m, sender⟩
  | .setVolumeRequest _ => some ⟨.HandleSetVolumeRequest, m, sender⟩
  | .subscribeChannelRequest _ => some ⟨.HandleSubscribeChannelRequest, m, sender⟩
  | .newSongInfo _ => some ⟨.HandleNewSongInfo, m, sender⟩
  | .chunkInfo _ => some ⟨.HandleChunkInfo, m, sender⟩
  | .pauseInfo _ => some ⟨.HandlePauseInfo, m, sender⟩
  | _ => none

/-- A connection being handled: messages still to come, started goroutines that have not run, calls that have run.
Simplification: a handler call takes effect in one step (each handler of the program does its effect under one lock or
in one write). (comm/conn_handler.go:15-25, comm/package_handler.go:62-85) -/
structure Disp where
  incoming : List Msg
  started : List Call
  ran : List Call

/-- comm/conn_handler.go:15-25 with `Handle` starting a goroutine for each message. -/
inductive Disp.Step (conn : Conn) : Disp → Disp → Prop
  | receive (d : Disp) (m : Msg) (ms : List Msg) (h : d.incoming = m :: ms) :
      Step conn d { d with incoming := ms, started := d.started ++ (handle m conn).toList }
  | run (d : Disp) (x y : List Call) (c : Call) (h : d.started = x ++ c :: y) :
      Step conn d { d with started := x ++ y, ran := d.ran ++ [c] }

/-- Effects of the server's handlers. (comm/package_handler.go:94-118) -/
inductive Effect where
  | write (conn : Conn) (m : Msg)
  | subscribe (conn : Conn) (ch : Int32)
  | newClient (ch : Int32) (conn : Conn)
  | crash
  deriving DecidableEq, Repr

/-- comm/package_handler.go:94-107, 113-118: what the server does for a call. `t1`, `t2`: the two clock readings;
`ready`: NewClientHandler has been set (otherwise calling it is a nil dereference). The other handlers are the empty
methods of BaseTypedPackageHandler, :15-47. -/
def serverEffects (t1 t2 : Int64) (ready : Bool) (c : Call) : List Effect :=
  match c.handler, c.message with
  | .HandleTimeSyncRequest, .timeSyncRequest r =>
    [.write c.sender (.timeSyncResponse ⟨r.clientSend, t1, t2⟩)]
  | .HandlePingMessage, _ => [.write c.sender .pongMessage]
  | .HandleSubscribeChannelRequest, .subscribeChannelRequest r =>
    [.subscribe c.sender r.channel, if ready then .newClient r.channel c.sender else .crash]
  | _, _ => []

/-- playback/playback.go:116-119 with cmd/music-sync-player/main.go:69-71: the volume of a player after the calls that
have run, starting from `v`. -/
def playerVolume (v : UInt64) (ran : List Call) : UInt64 :=
  ran.foldl (fun v c => match c.handler, c.message with
    | .HandleSetVolumeRequest, .setVolumeRequest r => r.volume
    | _, _ => v) v

end MS.Sender
