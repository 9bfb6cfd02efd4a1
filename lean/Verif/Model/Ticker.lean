import Verif.Model.StreamMusic
/-!
# schedule/server_state.go: when streamMusic hands its chunks to the network

Go's `time.Tick`: a channel of capacity 1 into which a tick is put at `t0 + P`, `t0 + 2P`, ...; a tick that finds the
channel full is dropped. Simplification: the receive after a tick and the clock readings take no time; all times are
readings of the server's clock in nanoseconds; `P > 0` (for `P ≤ 0` `time.Tick` returns nil and the loop never runs).
-/
namespace MS.Ticker

/-- Number of ticks of a ticker created at `t0` with period `P` up to time `t`. (schedule/server_state.go:149) -/
def ticks (P t0 t : Int) : Int := (t - t0) / P

/-- The loop took its last tick out of the channel at `r` and is back at the `range` at `e`: when it gets the next one.
If a tick came after `r` it is in the channel, and the others that came meanwhile are lost; otherwise the loop waits.
(schedule/server_state.go:149) -/
def recv (P t0 r e : Int) : Int :=
  if ticks P t0 r < ticks P t0 e then e else t0 + (ticks P t0 e + 1) * P

/-- schedule/server_state.go:149-168: for each iteration, which takes `d` until its two messages are handed to the
sender's goroutines (that is `Fill`), the time it gets its tick and the time of handing over. The loop got its last
tick at `r` and comes back to the `range` at `e`. -/
def iterations (P t0 : Int) : (r e : Int) → List Int → List (Int × Int)
  | _, _, [] => []
  | r, e, d :: ds =>
    (recv P t0 r e, recv P t0 r e + d) :: iterations P t0 (recv P t0 r e) (recv P t0 r e + d) ds

/-- schedule/server_state.go:145-169 `streamMusic`, the ticker being created at `t0`: the times at which the chunks are
handed over. -/
def handed (P t0 : Int) (ds : List Int) : List Int := (iterations P t0 t0 t0 ds).map Prod.snd

end MS.Ticker
