import Verif.Model.GoBase
/-!
# timing/timing.go: clock offset estimation

Every response is handled in its own goroutine (comm/package_handler.go `go handler...`), so `UpdateOffset` is three
atomic steps: the locked append (timing.go:39-41), the unlocked test `len == cap` (43), the locked averaging (44-51).
Goroutines are anonymous: the state counts how many are before the test and how many before the averaging.
Simplifications: int64 arithmetic does not wrap (monotonic nanosecond clocks of running machines); the unlocked test
reads length and capacity of one slice value.
-/
namespace MS.Timing

/-- timing/timing.go:38, the estimate of one exchange. -/
def calcOffset (clientSend serverRecv serverSend clientRecv : Int) : Int :=
  ((serverRecv - clientSend) + (serverSend - clientRecv)).tdiv 2

/-- timing/timing.go:13-15, the package variables, and the goroutines inside `UpdateOffset`. -/
structure St where
  offset : Int
  offsets : List Int
  cap : Nat
  nTest : Nat  -- goroutines that have appended and not yet tested
  nAvg : Nat   -- goroutines that have tested successfully and not yet averaged
  deriving DecidableEq, Repr

/-- timing/timing.go:13-14. -/
def init : St := { offset := 0, offsets := [], cap := 0, nTest := 0, nAvg := 0 }

/-- timing/timing.go:45-50: the floor (`big.Int.Div` is Euclidean division) of the mean. `len = 0` would panic, and is
not reachable: the list is not empty after an append unless a reset comes between. -/
def mean (l : List Int) : Int := l.foldl (· + ·) 0 / l.length

/-- The steps of timing/timing.go:28-54 -/
inductive Act where
  | reset (n : Nat)      -- ResetOffsets(n), timing.go:28-32
  | append (o : Int)     -- UpdateOffset up to the unlock, with estimate o
  | test                 -- timing.go:43
  | avg                  -- timing.go:44-51
  deriving DecidableEq, Repr

/-- One step. `grow c` is the capacity Go's `append` gives a full slice of capacity c. `none`: not enabled; the
averaging step with an empty list (possible only when a reset intervenes) is the division by zero panic, also `none`.
(timing/timing.go:28-54) -/
def step (grow : Nat → Nat) (s : St) : Act → Option St
  | .reset n => some { s with offsets := [], cap := n }
  | .append o =>
    some { s with
      offsets := s.offsets ++ [o]
      cap := if s.offsets.length = s.cap then grow s.cap else s.cap
      nTest := s.nTest + 1 }
  | .test =>
    if 0 < s.nTest then
      if s.offsets.length = s.cap then some { s with nTest := s.nTest - 1, nAvg := s.nAvg + 1 }
      else some { s with nTest := s.nTest - 1 }
    else none
  | .avg =>
    if 0 < s.nAvg ∧ s.offsets ≠ [] then some { s with nAvg := s.nAvg - 1, offset := mean s.offsets }
    else none

/-- a history of steps, timing/timing.go:28-54 -/
def run (grow : Nat → Nat) (s : St) : List Act → Option St
  | [] => some s
  | a :: as =>
    match step grow s a with
    | some s' => run grow s' as
    | none => none

/-- The process crashes: the averaging of an empty slice divides by zero, `big.Int.Div` panics.
(timing/timing.go:49) -/
def crashes (s : St) (a : Act) : Prop := a = .avg ∧ 0 < s.nAvg ∧ s.offsets = []

/-- timing/timing.go:18-20 `GetSyncedTime` at raw clock value `raw`. -/
def syncedTime (s : St) (raw : Int) : Int := raw + s.offset

end MS.Timing
