import Verif.Model.GoBase
/-!
# playback/timed_sample_queue.go

The ring buffer the player uses between the chunk reader and the audio output, as a transition system whose steps
are the atomic actions of the goroutines (lock, condition check, sleep, slot access, index update, broadcast).

Simplifications: `timedSample` is an arbitrary element type `α`; `headMutex` admits one Add at a time and
`tailMutex` one Remove at a time, so one "adder" and one "remover" program counter describe any number of
goroutines (goroutines queueing for a mutex have not started yet); concurrent `Peek`s, which share `tailMutex` as
readers and write nothing, are run one after the other; memory is sequentially consistent; capacity 0 (where the
Go code panics on `% 0`) is excluded by hypothesis in the theorems. `sync.Cond` has no spurious wake-ups.
-/
namespace MS.SampleQueue

/-- playback/timed_sample_queue.go:65-67 `inc`: indices run modulo twice the capacity. -/
def inc (cap i : Nat) : Nat := (i + 1) % (2 * cap)

/-- playback/timed_sample_queue.go:69-71 `full`. -/
def full (cap head tail : Nat) : Bool := (tail + cap) % (2 * cap) == head

/-- playback/timed_sample_queue.go:73-75 `empty`. -/
def empty (head tail : Nat) : Bool := head == tail

/-- playback/timed_sample_queue.go:50-59 `Len`. -/
def len (cap head tail : Nat) : Int :=
  if tail ≤ head then (head : Int) - tail else (head : Int) - tail + 2 * cap

/-- Which goroutine holds `cond.L` (playback/timed_sample_queue.go:77-91). -/
inductive Owner where
  | none | adder | remover
  deriving DecidableEq, Repr

/-- Program counter of the goroutine inside `Add` (playback/timed_sample_queue.go:15-25 and 77-83). -/
inductive PcA (α : Type) where
  | idle
  | lock (x : α)    -- about to `cond.L.Lock()` (78), or woken from `Wait` and re-acquiring it
  | check (x : α)   -- holds cond.L, evaluates `q.full()` (79)
  | presleep (x : α)-- saw full, holds cond.L, enters `cond.Wait()` (80): not yet on the notify list
  | asleep (x : α)  -- on the notify list, cond.L released
  | write (x : α)   -- past `waitNotFull`, cond.L released (82); about to write the slot (21)
  | incr (x : α)    -- slot written; about to update head (22)
  | bcast           -- about to `cond.Broadcast()` (24) and return
  deriving DecidableEq, Repr

/-- Whether the consumer call is `Remove` (27-38) or `Peek` (40-48). (playback/timed_sample_queue.go:27-48) -/
inductive Kind where
  | remove | peek
  deriving DecidableEq, Repr

/-- Program counter of the goroutine inside `Remove`/`Peek` (playback/timed_sample_queue.go:27-48 and 85-91). -/
inductive PcR (α : Type) where
  | idle
  | lock (k : Kind)
  | check (k : Kind)
  | presleep (k : Kind)
  | asleep (k : Kind)
  | read (k : Kind)       -- past `waitNotEmpty`; about to read the slot (33, 46)
  | incr (v : α)          -- Remove: slot read; about to update tail (34)
  | bcast (v : α)         -- Remove: about to broadcast (36) and return v
  deriving DecidableEq, Repr

/-- playback/timed_sample_queue.go:5-13, plus program counters and the observable history:
`calls` are the arguments of the Add calls made so far, `doneA` how many of them returned, `rets` the results
of the Remove calls that returned, `peeks` the results of Peek calls (with the number of Removes returned
before). -/
structure State (α : Type) where
  cap : Nat
  buf : Nat → α
  head : Nat
  tail : Nat
  owner : Owner
  a : PcA α
  r : PcR α
  calls : List α
  doneA : Nat
  rets : List α
  peeks : List (Nat × α)

/-- playback/timed_sample_queue.go:93-95 `newTimedSampleQueue`; slots hold the zero sample. -/
def init {α : Type} (cap : Nat) (zero : α) : State α :=
  { cap, buf := fun _ => zero, head := 0, tail := 0, owner := .none, a := .idle, r := .idle,
    calls := [], doneA := 0, rets := [], peeks := [] }

/-- Effect of `cond.Broadcast()` on the adder: if it is on the notify list it becomes runnable and must re-acquire
cond.L (sync.Cond; used at playback/timed_sample_queue.go:24 and 36). -/
def wakeA {α : Type} : PcA α → PcA α
  | .asleep x => .lock x
  | pc => pc

/-- Effect of `cond.Broadcast()` on the remover. (playback/timed_sample_queue.go:24, 37) -/
def wakeR {α : Type} : PcR α → PcR α
  | .asleep k => .lock k
  | pc => pc

/-- The actions of the environment (starting calls) and the scheduler (letting one goroutine take a step).
(playback/timed_sample_queue.go:15-48) -/
inductive Act (α : Type) where
  | callAdd (x : α)
  | callRemove
  | callPeek
  | stepA
  | stepR
  deriving Repr

/-- One atomic action; `none` when it is not enabled (goroutine asleep, lock taken, call still running).
(playback/timed_sample_queue.go:15-48, 77-91) -/
def step {α : Type} (s : State α) : Act α → Option (State α)
  | .callAdd x =>
    match s.a with
    | .idle => some { s with a := .lock x, calls := s.calls ++ [x] }
    | _ => none
  | .callRemove =>
    match s.r with
    | .idle => some { s with r := .lock .remove }
    | _ => none
  | .callPeek =>
    match s.r with
    | .idle => some { s with r := .lock .peek }
    | _ => none
  | .stepA =>
    match s.a with
    | .idle => none
    | .lock x => if s.owner = .none then some { s with owner := .adder, a := .check x } else none
    | .check x =>
      if full s.cap s.head s.tail then some { s with a := .presleep x }
      else some { s with owner := .none, a := .write x }
    | .presleep x => some { s with owner := .none, a := .asleep x }
    | .asleep _ => none
    | .write x => some { s with buf := fun i => if i = s.head % s.cap then x else s.buf i, a := .incr x }
    | .incr _ => some { s with head := inc s.cap s.head, a := .bcast }
    | .bcast => some { s with a := .idle, r := wakeR s.r, doneA := s.doneA + 1 }
  | .stepR =>
    match s.r with
    | .idle => none
    | .lock k => if s.owner = .none then some { s with owner := .remover, r := .check k } else none
    | .check k =>
      if empty s.head s.tail then some { s with r := .presleep k }
      else some { s with owner := .none, r := .read k }
    | .presleep k => some { s with owner := .none, r := .asleep k }
    | .asleep _ => none
    | .read .remove => some { s with r := .incr (s.buf (s.tail % s.cap)) }
    | .read .peek =>
      some { s with r := .idle, peeks := s.peeks ++ [(s.rets.length, s.buf (s.tail % s.cap))] }
    | .incr v => some { s with tail := inc s.cap s.tail, r := .bcast v }
    | .bcast v => some { s with r := .idle, a := wakeA s.a, rets := s.rets ++ [v] }

/-- A schedule: a finite sequence of actions, all of them enabled. (playback/timed_sample_queue.go:15-48) -/
def run {α : Type} (s : State α) : List (Act α) → Option (State α)
  | [] => some s
  | a :: as =>
    match step s a with
    | some s' => run s' as
    | none => none

end MS.SampleQueue
