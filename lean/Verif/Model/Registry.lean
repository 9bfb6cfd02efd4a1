/-!
# ssh/command.go: a session looks a command up while the server still registers its commands

`schedule.Server` registers the control commands while `ssh.StartSSH` already accepts sessions
(cmd/music-sync-server/main.go:104-105). `commands` is a slice without a lock: `RegisterCommand` appends in place or to a
new array and then sorts in place; `commandByName` ranges over the array its copy of the slice header points to. One
registering goroutine and one lookup are modelled, in steps of one read or write. Simplifications: a slice header and a
`Command` are read and written as a whole, and only the name of a command is kept; sort.Sort is the insertion sort Go uses
up to 12 elements, of which only the moves of the last element are modelled (the others are in order already).
-/
namespace MS.Registry

/-- Where `RegisterCommand` is. (ssh/command.go:22-25) -/
inductive W (α : Type) where
  | idle
  /-- :23 the command is written behind the last one, the slice header is not yet -/
  | stored
  /-- :24 the new command is at index `j` -/
  | sorting (j : Nat)
  /-- :19 in `Swap(j, j-1)`: index `j` is written, `x` is to be written at `j - 1` -/
  | half (j : Nat) (x : Option α)

/-- Where `commandByName` is. (ssh/command.go:65-72) -/
inductive R (α : Type) where
  | idle
  /-- :66 index `i` is read next, up to length `k`; `old`: the array, if it is no longer the current one -/
  | scan (i k : Nat) (old : Option (Nat → Option α))
  | found
  | missing

/-- The array of the slice `commands` with its length and capacity, commands still to register, the two goroutines, and
(history) how many slice headers have been written between the lookup's reading of its own and its end. (ssh/command.go:13, 22-25, 65-72) -/
structure St (α : Type) where
  cells : Nat → Option α
  len : Nat
  cap : Nat
  todo : List α
  w : W α
  r : R α
  since : Nat

/-- `m[k] = v` (ssh/command.go:19, 23) -/
def upd {α : Type} (f : Nat → Option α) (k : Nat) (v : Option α) : Nat → Option α := fun x => if x = k then v else f x

/-- A lookup keeps its array when `commands` gets a new one. (ssh/command.go:23, 66) -/
def R.detach {α : Type} (f : Nat → Option α) : R α → R α
  | .scan i k none => .scan i k (some f)
  | r => r

/-- History: a slice header is written, during the lookup or not. (ssh/command.go:23, 66) -/
def R.count {α : Type} (since : Nat) : R α → Nat
  | .scan _ _ _ => since + 1
  | _ => since

/-- One step, when `t` is looked up; `lt` compares names. (ssh/command.go:22-25, 65-72) -/
inductive Step {α : Type} (lt : Option α → Option α → Bool) (t : α) : St α → St α → Prop
  /-- :23 there is room -/
  | store (s : St α) (c : α) (cs : List α) (hw : s.w = .idle) (ht : s.todo = c :: cs) (hc : s.len < s.cap) :
      Step lt t s { s with cells := upd s.cells s.len (some c), todo := cs, w := .stored }
  /-- :23 -/
  | header (s : St α) (hw : s.w = .stored) :
      Step lt t s { s with len := s.len + 1, w := .sorting s.len, since := s.r.count s.since }
  /-- :23 the array is full: a new one -/
  | realloc (s : St α) (c : α) (cs : List α) (cap : Nat) (hw : s.w = .idle) (ht : s.todo = c :: cs) (hc : s.len = s.cap)
      (hcap : s.cap < cap) :
      Step lt t s { s with cells := upd (fun i => if i < s.len then s.cells i else none) s.len (some c), len := s.len + 1,
                           cap := cap, todo := cs, w := .sorting s.len, r := s.r.detach s.cells, since := s.r.count s.since }
  /-- :18-19 -/
  | swap (s : St α) (j : Nat) (hw : s.w = .sorting (j + 1)) (hl : lt (s.cells (j + 1)) (s.cells j) = true) :
      Step lt t s { s with cells := upd s.cells (j + 1) (s.cells j), w := .half (j + 1) (s.cells (j + 1)) }
  /-- :19 -/
  | swapped (s : St α) (j : Nat) (x : Option α) (hw : s.w = .half (j + 1) x) :
      Step lt t s { s with cells := upd s.cells j x, w := .sorting j }
  /-- :24 the new command is in its place -/
  | sorted (s : St α) (j : Nat) (hw : s.w = .sorting j) (hl : j = 0 ∨ lt (s.cells j) (s.cells (j - 1)) = false) :
      Step lt t s { s with w := .idle }
  /-- :66 the slice header is read -/
  | begin (s : St α) (hr : s.r = .idle) : Step lt t s { s with r := .scan 0 s.len none, since := 0 }
  /-- :67-68 -/
  | hit (s : St α) (i k : Nat) (old : Option (Nat → Option α)) (hr : s.r = .scan i k old) (hi : i < k)
      (he : (old.getD s.cells) i = some t) : Step lt t s { s with r := .found }
  /-- :67 another name -/
  | pass (s : St α) (i k : Nat) (old : Option (Nat → Option α)) (hr : s.r = .scan i k old) (hi : i < k)
      (he : (old.getD s.cells) i ≠ some t) : Step lt t s { s with r := .scan (i + 1) k old }
  /-- :71 -/
  | fail (s : St α) (i k : Nat) (old : Option (Nat → Option α)) (hr : s.r = .scan i k old) (hi : k ≤ i) :
      Step lt t s { s with r := .missing }

/-- `names` are registered, in this order in an array of capacity `cap`; `todo` are to come; the session has not looked
yet. (ssh/command.go:13, 155-158) -/
def St.start {α : Type} (names todo : List α) (cap : Nat) : St α :=
  ⟨fun i => names[i]?, names.length, cap, todo, .idle, .idle, 0⟩

end MS.Registry
