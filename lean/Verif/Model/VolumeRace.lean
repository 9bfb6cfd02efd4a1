import Verif.Model.GoBase
/-!
# schedule/server_state_commands.go `volumeCommand` in several ssh sessions at the same time

Each session runs in its own goroutine; `ss.volume` is not locked and is read anew for the message and for the reply.
`SendMessage` writes to the connections in separate goroutines, in any order, and several broadcasts run side by side (they
share the read lock). Simplifications: the set of subscribed connections, 0 to n-1, does not change and no write fails; one
write to a connection is atomic. A volume is an opaque value (the bits of the float64).
-/
namespace MS.VolumeRace

/-- Where a volume command is. (schedule/server_state_commands.go:164-175) -/
inductive Cmd where
  /-- :166 parsed, `none`: no number -/
  | parsed (v : Option UInt64)
  /-- after the assignment to ss.volume -/
  | assigned
  /-- the message with the volume `u` is being broadcast; connections not yet written to (comm/message_sender.go:35-44) -/
  | sending (u : UInt64) (pending : List Nat)
  /-- :170 the broadcast has returned -/
  | sent
  /-- :173 the reply with the volume `u` has been printed -/
  | replied (u : UInt64)
  /-- :168 usage printed -/
  | rejected
  deriving DecidableEq, Repr

/-- The stored volume, the volume messages written to each connection, the commands.
(schedule/server_state.go:19, schedule/server_state_commands.go:159-176) -/
structure St where
  stored : UInt64
  inbox : Nat → List UInt64
  cmds : List Cmd

/-- schedule/server_state_commands.go:164-175, one step of one session; `n` connections -/
inductive Step (n : Nat) : St → St → Prop
  /-- :166 -/
  | assign (s : St) (A B : List Cmd) (v : UInt64) (h : s.cmds = A ++ .parsed (some v) :: B) :
      Step n s { s with stored := v, cmds := A ++ .assigned :: B }
  /-- :166-169 with an argument that is no number: ParseFloat's result 0 is stored -/
  | reject (s : St) (A B : List Cmd) (h : s.cmds = A ++ .parsed none :: B) :
      Step n s { s with stored := 0, cmds := A ++ .rejected :: B }
  /-- :170, the message is built from ss.volume as it is now -/
  | build (s : St) (A B : List Cmd) (h : s.cmds = A ++ .assigned :: B) :
      Step n s { s with cmds := A ++ .sending s.stored (List.range n) :: B }
  /-- comm/message_sender.go:36-41, the write to one connection -/
  | write (s : St) (A B : List Cmd) (u : UInt64) (P Q : List Nat) (c : Nat)
      (h : s.cmds = A ++ .sending u (P ++ c :: Q) :: B) :
      Step n s { s with inbox := fun x => if x = c then s.inbox c ++ [u] else s.inbox x, cmds := A ++ .sending u (P ++ Q) :: B }
  /-- comm/message_sender.go:44 `wg.Wait` -/
  | wait (s : St) (A B : List Cmd) (u : UInt64) (h : s.cmds = A ++ .sending u [] :: B) :
      Step n s { s with cmds := A ++ .sent :: B }
  /-- :173, the reply is built from ss.volume as it is now -/
  | reply (s : St) (A B : List Cmd) (h : s.cmds = A ++ .sent :: B) :
      Step n s { s with cmds := A ++ .replied s.stored :: B }

/-- Commands with the volumes `vs` have been entered; nothing has been broadcast yet.
(schedule/server_state_commands.go:164) -/
def St.init (v0 : UInt64) (vs : List (Option UInt64)) : St := ⟨v0, fun _ => [], vs.map .parsed⟩

end MS.VolumeRace
