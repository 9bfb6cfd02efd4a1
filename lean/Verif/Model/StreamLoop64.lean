import Verif.Model.StreamLoop
/-!
# playback/playlist.go: the position as a 64 bit integer

`Verif.Model.StreamLoop` has unbounded positions. `position` is an `int`; the only arithmetic that can leave its range is
`position++` (playback/playlist.go:54, 102): the remainder in `nextSong` is smaller than the number of songs, and `SetPos` stores what
`strconv.Atoi` returned.
-/
namespace MS.StreamLoop64
open MS.StreamLoop

/-- As `StreamLoop.loopStep`, except that `position++` wraps around. (playback/playlist.go:41-137, 54, 102) -/
def loopStep {α : Type} (c : Cfg α) (s : St α) : Option (St α) :=
  match s.pc with
  | .incW skip v => some { s with position := wrap64 (v + 1), pc := if skip then .top else .brk }
  | _ => StreamLoop.loopStep c s

/-- As `StreamLoop.step`; a jump to a number that is no `int` cannot be typed (C117). (playback/playlist.go:41-211, 232-234,
schedule/server_state_commands.go:35-38) -/
def step {α : Type} (c : Cfg α) (s : St α) (a : Act) : Option (St α) :=
  match a with
  | .loop => loopStep c s
  | .jumpWrite p => if -2 ^ 63 ≤ p ∧ p < 2 ^ 63 then StreamLoop.step c s (.jumpWrite p) else none
  | a => StreamLoop.step c s a

/-- A schedule. (playback/playlist.go:41-211) -/
def run {α : Type} (c : Cfg α) (s : St α) : List Act → Option (St α)
  | [] => some s
  | a :: as =>
    match step c s a with
    | some s' => run c s' as
    | none => none

end MS.StreamLoop64
