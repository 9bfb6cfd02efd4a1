import Verif.Model.GoBase
/-!
# playback/streamer.go: the player's output side

The buffer of timed samples is the list of samples that are or will be added to it, oldest first (FIFO: property C01).
`Peek` and `Remove` block on an empty buffer; a call that needs more samples than the list holds is `none`, and
`stream_more` (Lemmas) shows that samples arriving later never change a result. Sample values are an abstract type
with a separate NaN (`none`); the time of the synced clock is an argument. Simplifications: int64 does not wrap; the
silence produced by `beep.Silence(-1)` is `none` in the output.
-/
set_option linter.unusedVariables false
namespace MS.Streamer

/-- playback/streamer.go:13-16 `timedSample`: `val = none` is a sample whose first channel is NaN. -/
structure TS (α : Type) where
  val : Option α
  time : Int
  deriving DecidableEq, Repr

/-- playback/streamer.go:99-101 `samplesDuration`, with beep's `SampleRate.D`: `time.Second * n / rate`. -/
def samplesDuration (rate : Nat) (n : Nat) : Int := (1000000000 * (n : Int)).tdiv rate

/-- playback/streamer.go:103-105 `samplesCount`, with beep's `SampleRate.N`: `d * rate / time.Second`. -/
def samplesCount (rate : Nat) (d : Int) : Int := (d * rate).tdiv 1000000000

/-- playback/streamer.go:48-57 `streamDirect` on a slice of `len` samples: the samples written, `drained`, and the
buffer afterwards. -/
def streamDirect {α : Type} : (len : Nat) → List (TS α) → Option (List α × Bool × List (TS α))
  | 0, q => some ([], false, q)
  | _ + 1, [] => none
  | k + 1, s :: q =>
    match s.val with
    | none => some ([], true, q)
    | some v =>
      match streamDirect k q with
      | some (out, d, r) => some (v :: out, d, r)
      | none => none

/-- playback/streamer.go:60-64, the first loop of `streamSync`: the buffer from the first non-NaN sample on. -/
def skipNaN {α : Type} : List (TS α) → Option (TS α × List (TS α))
  | [] => none
  | s :: q =>
    match s.val with
    | none => skipNaN q
    | some _ => some (s, q)

/-- playback/streamer.go:73-76, the last loop of `streamSync`; the argument is the buffer after the Peek. -/
def dropLate {α : Type} (now : Int) : List (TS α) → Option (List (TS α))
  | [] => none
  | s :: q => if s.time < now then dropLate now q else some (s :: q)

/-- playback/streamer.go:59-79 `streamSync` on a slice of `len` samples: number of silent samples written, `drained`,
and the buffer afterwards. (`samples[:silence]` of a negative or too large length would panic: `C16_middle_branch_dead` shows
the middle branch is never taken.) -/
def streamSync {α : Type} (rate len : Nat) (now : Int) (q : List (TS α)) : Option (Nat × Bool × List (TS α)) :=
  match skipNaN q with
  | none => none
  | some (s, q') =>
    if now < s.time + samplesDuration rate len then some (len, false, s :: q')
    else if now < s.time then some ((samplesCount rate (s.time - now)).toNat, true, s :: q')
    else
      match dropLate now (s :: q') with
      | some r => some (0, true, r)
      | none => none

theorem streamDirect_len {α : Type} (k : Nat) (q : List (TS α)) :
    ∀ out d r, streamDirect k q = some (out, d, r) → (d = true → r.length < q.length) ∧ r.length ≤ q.length := by
  induction k generalizing q with
  | zero => intro out d r h; simp [streamDirect] at h; grind
  | succ k ih =>
    intro out d r h
    cases q with
    | nil => simp [streamDirect] at h
    | cons s q =>
      simp only [streamDirect] at h
      split at h
      · simp at h; simp [h]
      · split at h
        · rename_i o d' r' h'
          have := ih q _ _ _ h'
          simp at h
          grind
        · simp at h

theorem skipNaN_len {α : Type} (q : List (TS α)) : ∀ s r, skipNaN q = some (s, r) → r.length < q.length := by
  induction q with
  | nil => simp [skipNaN]
  | cons x q ih =>
    intro s r h
    simp only [skipNaN] at h
    split at h
    · have := ih _ _ h; simp; omega
    · simp at h; simp [h]

theorem dropLate_len {α : Type} (now : Int) (q : List (TS α)) : ∀ r, dropLate now q = some r → r.length ≤ q.length := by
  induction q with
  | nil => simp [dropLate]
  | cons x q ih =>
    intro r h
    simp only [dropLate] at h
    split at h
    · have := ih _ h; simp; omega
    · simp at h; simp [← h]

theorem streamSync_len {α : Type} (rate len : Nat) (now : Int) (q : List (TS α)) :
    ∀ n d r, streamSync rate len now q = some (n, d, r) → r.length ≤ q.length := by
  intro n d r h
  simp only [streamSync] at h
  split at h
  · simp at h
  · rename_i s q' hs
    have h1 := skipNaN_len _ _ _ hs
    split at h
    · simp at h; simp [← h]; omega
    · split at h
      · simp at h; simp [← h]; omega
      · split at h
        · rename_i r' hr
          have := dropLate_len _ _ _ hr
          simp at h this
          simp [← h]; omega
        · simp at h

/-- playback/streamer.go:28-46 `Stream` for a slice of `len` samples started at clock time `now`: the samples written
(`none` is silence), the mode afterwards and the buffer afterwards. -/
def stream {α : Type} (rate : Nat) (len : Nat) (now : Int) (syncing : Bool) (q : List (TS α)) :
    Option (List (Option α) × Bool × List (TS α)) :=
  if len = 0 then some ([], syncing, q)
  else if hs : syncing then
    match h : streamSync rate len now q with
    | none => none
    | some (n, drained, r) =>
      if drained then
        if r = [] then none
        else
          match stream rate (len - n) (now + samplesDuration rate n) false r with
          | none => none
          | some (out, sy, q') => some (List.replicate n none ++ out, sy, q')
      else some (List.replicate n none, true, r)
  else
    match h : streamDirect len q with
    | none => none
    | some (vs, drained, r) =>
      if hd : drained then
        if r = [] then none
        else
          match stream rate (len - vs.length) (now + samplesDuration rate vs.length) true r with
          | none => none
          | some (out, sy, q') => some (vs.map some ++ out, sy, q')
      else some (vs.map some, false, r)
termination_by 2 * q.length + (if syncing then 1 else 0)
decreasing_by
  · have := streamSync_len rate len now q _ _ _ h
    simp [hs]; omega
  · have := (streamDirect_len len q _ _ _ h).1 hd
    simp [hs]; omega

/-- playback/playback.go:121-132 `playLoop`: one `Stream` of the same slice after the other, the i-th one started at
clock time `nows[i]`; the outputs are concatenated. -/
def playLoop {α : Type} (rate len : Nat) : List Int → (syncing : Bool) → List (TS α) → Option (List (Option α) × Bool × List (TS α))
  | [], sy, q => some ([], sy, q)
  | now :: nows, sy, q =>
    match stream rate len now sy q with
    | none => none
    | some (out, sy', q') =>
      match playLoop rate len nows sy' q' with
      | none => none
      | some (out', sy'', q'') => some (out ++ out', sy'', q'')

end MS.Streamer
