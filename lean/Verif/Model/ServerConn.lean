import Verif.Model.Sender
/-!
# comm/conn_handler.go: the server's connections, with the lock of comm/message_sender.go

All connections of a server together, the lock that protects the list of connections and subscriptions, broadcasts that
overlap, clients that stop reading, and the start of the server.

Lock (sync.RWMutex): `SendMessage` holds it for reading while it writes to all connections, `AddConn`, `DelConn` and
`Subscribe` hold it for writing. A goroutine that asks for writing first waits for other such goroutines (`queue`), then is
`announced`: from then on nobody gets the lock for reading; it proceeds when those who have it are finished.

Simplifications: the clients' other messages (pings, time requests) only cause replies on their own connection (C29) and are
left out; so are the messages that NewClientHandler sends to the new client alone (C30). A write is one step: it succeeds,
fails, or, while the client does not read, does not return.
-/
namespace MS.ServerConn
open MS.Proto MS.Sender

/-- Where the goroutine of a connection is, comm/conn_handler.go:57-61. -/
inductive Phase where
  /-- not connected yet -/
  | none
  /-- accepted, `AddConn` not finished -/
  | accepted
  /-- `AddConn` finished, messages are read -/
  | opened
  /-- reading failed, the connection is closed, `DelConn` not finished -/
  | closed
  /-- `DelConn` finished -/
  | gone
  deriving DecidableEq, Repr

/-- A call of `SendMessage` that holds the lock, comm/message_sender.go:25-48; `todo`: the connections whose goroutine has
not finished. -/
structure Bcast where
  id : Nat
  msg : Msg
  todo : List Conn

/-- What was the case when a broadcast began (history): the message, where the connections were, and the changes made so
far. (comm/message_sender.go:25-35) -/
structure Begun where
  msg : Msg
  phase : Conn → Phase
  ops : List Op

/-- The state of comm/conn_handler.go:33-66, comm/message_sender.go:19-23, comm/package_handler.go:89-105 -/
structure Srv where
  phase : Conn → Phase
  /-- connections and subscriptions -/
  sender : St
  /-- NewClientHandler is set, schedule/server.go:24 -/
  ready : Bool
  crashed : Bool
  /-- goroutines that are about to lock for writing, and the one that waits for the readers -/
  queue : List Op
  announced : Option Op
  active : List Bcast
  /-- subscriptions made whose NewClientHandler call is still to come, comm/package_handler.go:104 -/
  newClients : List (Conn × Int32)
  /-- clients that do not read -/
  stalled : Conn → Bool
  /-- history: broadcasts begun, successful and failed writes, changes of connections and subscriptions, subscription
  messages received -/
  begun : List Begun
  delivered : List (Conn × Nat)
  failed : List (Conn × Nat)
  ops : List Op
  asked : List (Conn × Int32)

/-- comm/conn_handler.go:43 -/
def Srv.init : Srv :=
  ⟨fun _ => .none, St.init, false, false, [], none, [], [], fun _ => false, [], [], [], [], []⟩

/-- comm/conn_handler.go:57-61: the goroutine of connection `c` goes on -/
def setPhase (f : Conn → Phase) (c : Conn) (p : Phase) : Conn → Phase := fun x => if x = c then p else f x

/-- The phase after a change of the connections: `AddConn` and `DelConn` are called by the connection's goroutine,
comm/conn_handler.go:58-60 -/
def opPhase (f : Conn → Phase) : Op → Conn → Phase
  | .add c => setPhase f c .opened
  | .del c => setPhase f c .gone
  | .sub _ _ => f

/-- comm/package_handler.go:104: what comes after a change -/
def opNext : Op → List (Conn × Int32)
  | .sub c ch => [(c, ch)]
  | _ => []

/-- Who makes a step: the world around (clients, the rest of the server), or the code modelled here.
(comm/conn_handler.go:49-66) -/
inductive Label where
  | world
  | code
  | hangup (c : Conn)
  | stall (c : Conn)
  | unstall (c : Conn)
  deriving DecidableEq, Repr

/-- One step of some goroutine or client, while the server runs.
(comm/conn_handler.go:49-66, comm/message_sender.go:25-89, comm/package_handler.go:102-105) -/
inductive Step : Label → Srv → Srv → Prop
  /-- schedule/server.go:24 -/
  | ready (s : Srv) (hc : s.crashed = false) : Step .world s { s with ready := true }
  /-- comm/conn_handler.go:52-58 -/
  | accept (s : Srv) (hc : s.crashed = false) (c : Conn) (h : s.phase c = .none) :
      Step .world s { s with phase := setPhase s.phase c .accepted, queue := s.queue ++ [.add c] }
  /-- comm/conn_handler.go:18, 23, comm/package_handler.go:77, 103: a subscription message, handled in its own goroutine -/
  | receiveSub (s : Srv) (hc : s.crashed = false) (c : Conn) (ch : Int32) (h : s.phase c = .opened) :
      Step .world s { s with queue := s.queue ++ [.sub c ch], asked := s.asked ++ [(c, ch)] }
  /-- comm/conn_handler.go:16, 19-22, 60: the connection cannot be read any more -/
  | hangup (s : Srv) (hc : s.crashed = false) (c : Conn) (h : s.phase c = .opened) :
      Step (.hangup c) s { s with phase := setPhase s.phase c .closed, queue := s.queue ++ [.del c] }
  /-- `Lock`: the next in line is announced -/
  | announce (s : Srv) (hc : s.crashed = false) (x y : List Op) (o : Op) (h : s.queue = x ++ o :: y) (hn : s.announced = none) :
      Step .code s { s with queue := x ++ y, announced := some o }
  /-- comm/message_sender.go:57-89: the lock is held for writing -/
  | exec (s : Srv) (hc : s.crashed = false) (o : Op) (h : s.announced = some o) (ha : s.active = []) :
      Step .code s { s with announced := none, sender := apply s.sender o, phase := opPhase s.phase o, ops := s.ops ++ [o],
                             newClients := s.newClients ++ opNext o }
  /-- comm/package_handler.go:104 -/
  | newClient (s : Srv) (hc : s.crashed = false) (x y : List (Conn × Int32)) (p : Conn × Int32) (h : s.newClients = x ++ p :: y) :
      Step .code s { s with newClients := x ++ y, crashed := !s.ready }
  /-- comm/message_sender.go:26-42: `SendMessage` gets the lock and starts its goroutines -/
  | begin (s : Srv) (hc : s.crashed = false) (m : Msg) (hn : s.announced = none) :
      Step .world s { s with active := s.active ++ [⟨s.begun.length, m, s.sender.connections⟩],
                             begun := s.begun ++ [⟨m, s.phase, s.ops⟩] }
  /-- comm/message_sender.go:51-52: one goroutine writes -/
  | write (s : Srv) (hc : s.crashed = false) (x y : List Bcast) (b : Bcast) (p q : List Conn) (c : Conn)
      (h : s.active = x ++ b :: y) (ht : b.todo = p ++ c :: q) (he : eligible s.sender b.msg c = true)
      (hs : s.stalled c = false) (hp : s.phase c = .opened) :
      Step .code s { s with active := x ++ { b with todo := p ++ q } :: y, delivered := s.delivered ++ [(c, b.id)] }
  /-- the same, failing; a pending write fails when the connection is closed -/
  | writeFails (s : Srv) (hc : s.crashed = false) (x y : List Bcast) (b : Bcast) (p q : List Conn) (c : Conn)
      (h : s.active = x ++ b :: y) (ht : b.todo = p ++ c :: q) (he : eligible s.sender b.msg c = true)
      (hs : s.stalled c = false ∨ s.phase c = .closed) :
      Step .code s { s with active := x ++ { b with todo := p ++ q } :: y, failed := s.failed ++ [(c, b.id)] }
  /-- comm/message_sender.go:54: not for this connection -/
  | skip (s : Srv) (hc : s.crashed = false) (x y : List Bcast) (b : Bcast) (p q : List Conn) (c : Conn)
      (h : s.active = x ++ b :: y) (ht : b.todo = p ++ c :: q) (he : eligible s.sender b.msg c = false) :
      Step .code s { s with active := x ++ { b with todo := p ++ q } :: y }
  /-- comm/message_sender.go:44-47: all goroutines have finished, `RUnlock` -/
  | finish (s : Srv) (hc : s.crashed = false) (x y : List Bcast) (b : Bcast) (h : s.active = x ++ b :: y) (ht : b.todo = []) :
      Step .code s { s with active := x ++ y }
  /-- a client stops or starts reading (or the system gives the connection up) -/
  | stall (s : Srv) (hc : s.crashed = false) (c : Conn) : Step (.stall c) s { s with stalled := fun x => if x = c then true else s.stalled x }
  | unstall (s : Srv) (hc : s.crashed = false) (c : Conn) : Step (.unstall c) s { s with stalled := fun x => if x = c then false else s.stalled x }

/-- Any number of steps, with the labels allowed. (executions of comm/conn_handler.go:49-66) -/
inductive Steps (allow : Label → Prop) : Srv → Srv → Prop
  | refl (s : Srv) : Steps allow s s
  | tail {s t u : Srv} {l : Label} (h : Steps allow s t) (hl : allow l) (hs : Step l t u) : Steps allow s u

/-- The states a server can be in. (executions of comm/conn_handler.go:33-66) -/
def Reachable (s : Srv) : Prop := Steps (fun _ => True) Srv.init s

end MS.ServerConn
