import Verif.Model.GoBase
/-!
# playback/playlist.go: pushSample, Fill, copyFloatChannel over the two channels

One goroutine (StreamLoop) pushes samples, first the low then the high value; `Fill` runs two goroutines, one per
channel. Every channel operation is one step. Simplification: indices do not wrap at 2^64; `low` and `high` have the
same length (documented precondition of Fill, met by schedule/server_state.go:150-151).
-/
namespace MS.Fill

/-- State of the two channels (oldest element first), of the pushing goroutine (`pend`: the high value still to be
pushed) and of a running `Fill` (`cur`: wanted length and what the two goroutines have read). `samples` are the
samples whose push has begun, `chunks` the results (index, low, high) of the returned `Fill` calls.
(playback/playlist.go:16-35, 216-224) -/
structure St (α : Type) where
  cap : Nat
  lowQ : List α
  highQ : List α
  pend : Option α
  cur : Option (Nat × List α × List α)
  readIdx : Nat
  samples : List (α × α)
  chunks : List (Nat × List α × List α)
  deriving DecidableEq, Repr

/-- playback/playlist.go:253-266 `NewPlaylist`. -/
def init {α : Type} (cap : Nat) : St α :=
  { cap, lowQ := [], highQ := [], pend := none, cur := none, readIdx := 0, samples := [], chunks := [] }

/-- The steps of the goroutines at playback/playlist.go:126-130, 216-224, 268-272 -/
inductive Act (α : Type) where
  | pushLow (l h : α)  -- `pl.low <- low` of pushSample(l, h), playback/playlist.go:127
  | pushHigh           -- `pl.high <- high`, playback/playlist.go:128
  | fill (n : Nat)     -- call of Fill with two slices of length n, 216-220
  | readLow            -- one iteration of copyFloatChannel(low, pl.low), 268-272
  | readHigh           -- one iteration of copyFloatChannel(high, pl.high)
  | ret                -- both done: return sampleIndexRead, then advance it, 221-223
  deriving Repr

/-- One step; `none` when blocked. (playback/playlist.go:126-130, 216-224, 268-272) -/
def step {α : Type} (s : St α) : Act α → Option (St α)
  | .pushLow l h =>
    match s.pend with
    | none => if s.lowQ.length < s.cap then
        some { s with lowQ := s.lowQ ++ [l], pend := some h, samples := s.samples ++ [(l, h)] } else none
    | some _ => none
  | .pushHigh =>
    match s.pend with
    | some h => if s.highQ.length < s.cap then some { s with highQ := s.highQ ++ [h], pend := none } else none
    | none => none
  | .fill n =>
    match s.cur with
    | none => some { s with cur := some (n, [], []) }
    | some _ => none
  | .readLow =>
    match s.cur, s.lowQ with
    | some (n, lo, hi), x :: q => if lo.length < n then some { s with lowQ := q, cur := some (n, lo ++ [x], hi) } else none
    | _, _ => none
  | .readHigh =>
    match s.cur, s.highQ with
    | some (n, lo, hi), x :: q => if hi.length < n then some { s with highQ := q, cur := some (n, lo, hi ++ [x]) } else none
    | _, _ => none
  | .ret =>
    match s.cur with
    | some (n, lo, hi) =>
      if lo.length = n ∧ hi.length = n then
        some { s with cur := none, chunks := s.chunks ++ [(s.readIdx, lo, hi)], readIdx := s.readIdx + lo.length }
      else none
    | none => none

/-- A schedule. (playback/playlist.go:126-130, 216-224) -/
def run {α : Type} (s : St α) : List (Act α) → Option (St α)
  | [] => some s
  | a :: as =>
    match step s a with
    | some s' => run s' as
    | none => none

end MS.Fill
