/-!
# Go base notions used by the model

No file of /repo is modelled here: these are the pieces of the Go language the other modules need.
-/
namespace MS

/-- Outcome of a Go call that may panic (index out of range, nil dereference, integer division by zero,
negative `make` length). A panic in any goroutine ends the whole process: nothing in /repo recovers.
(Go language, e.g. playback/playlist.go:69-71, 205) -/
inductive Res (α : Type) where
  | ok (a : α)
  | panic
  deriving Repr, DecidableEq

namespace Res
/-- helper of `Res` (e.g. playback/playlist.go:69-71): apply a function to the value -/
def map {α β : Type} (f : α → β) : Res α → Res β
  | .ok a => .ok (f a)
  | .panic => .panic
/-- helper of `Res` (e.g. playback/playlist.go:69-71): go on with the value -/
def bind {α β : Type} (r : Res α) (f : α → Res β) : Res β :=
  match r with
  | .ok a => f a
  | .panic => .panic
end Res

/-- 64 bit two's complement wrap-around of Go `int`/`int64` arithmetic (amd64).
(Go language, e.g. schedule/server_state_commands.go:59) -/
def wrap64 (x : Int) : Int := Int.bmod x (2 ^ 64)

end MS
