import Verif.Model.Proto
/-!
# comm/package_util.go and comm/conn_handler.go: framing

A connection that is read is the list of the pieces in which the transport delivers its bytes (each `Read` returns the
rest of one piece or as much of it as fits; an empty piece is a `Read` of 0 bytes); after the last piece `Read` fails.
A connection that is written is a list of results of the successive `Write` calls.

zlib is external: see `Zlib`. Not modelled: contents of error values, logging, `r.Close()`.
-/
set_option linter.unusedVariables false
namespace MS.Wire
open MS.Proto

/-- compress/zlib, assumed behaviour. `read d` is what reading everything from `zlib.NewReader(d)` yields (errors after
the header are ignored by the code); `none` means NewReader returned a nil reader with an error.
(comm/package_util.go:36-39, 77-79) -/
structure Zlib where
  compress : Bytes → Bytes
  read : Bytes → Option Bytes
  /-- decompression inverts compression -/
  inverse : ∀ b, read (compress b) = some b
  /-- empty input has no zlib header -/
  empty : read [] = none

/-- comm/package_util.go:30-56 `toWire`; `none` is an error. -/
def toWire (z : Zlib) (m : Msg) : Option Bytes :=
  match marshal m with
  | none => none
  | some inner =>
    match marshal (.envelope { type := typeName m.mtype, data := z.compress inner }) with
    | none => none
    | some env => some (leBytes 8 env.length ++ env)

/-- comm/package_util.go:90-104, the loop of `sendWire`: the bytes that reach the transport and whether nil is
returned. Each element is the result of a `Write`: how many bytes it took and whether it failed. `none`: the call does
not return with the given writes. -/
def sendLoop (data : Bytes) : List (Nat × Bool) → Option (Bytes × Bool)
  | [] => if data = [] then some ([], true) else none
  | (n, failed) :: ws =>
    if data = [] then some ([], true)
    else if failed then some (data.take n, false)
    else
      match sendLoop (data.drop n) ws with
      | some (sent, ok) => some (data.take n ++ sent, ok)
      | none => none

/-- comm/package_util.go:106-117 `readBytes` for `n` bytes: the bytes and the rest of the connection; `none` is an
error. -/
def readBytes : Nat → List Bytes → Option (Bytes × List Bytes)
  | 0, segs => some ([], segs)
  | _ + 1, [] => none
  | n + 1, s :: segs =>
    if s.length ≤ n + 1 then
      match readBytes (n + 1 - s.length) segs with
      | some (bs, r) => some (s ++ bs, r)
      | none => none
    else some (s.take (n + 1), s.drop (n + 1) :: segs)

/-- Result of `readWire`. (comm/package_util.go:58-88) -/
inductive Rd where
  | msg (m : Msg) (rest : List Bytes)
  | err
  | panic
  deriving DecidableEq, Repr

/-- comm/package_util.go:58-88 `readWire`. `make([]byte, size)` panics (or the process runs out of memory) for a
negative size or one above `maxAlloc`. The error of the second `readBytes` is ignored: the envelope is then empty. A
nil zlib reader is dereferenced: panic. -/
def readWire (z : Zlib) (maxAlloc : Nat) (segs : List Bytes) : Rd :=
  match readBytes 8 segs with
  | none => .err
  | some (sizeBuf, r) =>
    if 2 ^ 63 ≤ leNat sizeBuf ∨ maxAlloc < leNat sizeBuf then .panic
    else
      match (readBytes (leNat sizeBuf) r).getD ([], []) with
      | (env, r') =>
        match unmarshal .envelope env with
        | some (.envelope e) =>
          match messageType e.type with
          | none => .err
          | some t =>
            match z.read e.data with
            | none => .panic
            | some data =>
              match unmarshal t data with
              | some m => .msg m r'
              | none => .err
        | _ => .err

theorem readBytes_spec : ∀ (segs : List Bytes) (n : Nat),
    (n ≤ segs.flatten.length → ∃ r, readBytes n segs = some (segs.flatten.take n, r) ∧ r.flatten = segs.flatten.drop n) ∧
    (segs.flatten.length < n → readBytes n segs = none) := by
  intro segs
  induction segs with
  | nil =>
    intro n
    cases n with
    | zero => simp [readBytes]
    | succ n => simp [readBytes]
  | cons s segs ih =>
    intro n
    cases n with
    | zero => simp [readBytes]
    | succ n =>
      simp only [readBytes, List.flatten_cons, List.length_append]
      by_cases hs : s.length ≤ n + 1
      · rw [if_pos hs]
        have h := ih (n + 1 - s.length)
        refine ⟨fun hle => ?_, fun hlt => ?_⟩
        · obtain ⟨r, h1, h2⟩ := h.1 (by omega)
          refine ⟨r, ?_, ?_⟩
          · rw [h1]; simp [List.take_append, List.take_of_length_le hs]
          · rw [h2]; simp [List.drop_append, List.drop_of_length_le hs]
        · rw [h.2 (by omega)]
      · rw [if_neg hs]
        refine ⟨fun _ => ⟨s.drop (n + 1) :: segs, ?_, ?_⟩ , fun hlt => by omega⟩
        · rw [List.take_append_of_le_length (by omega)]
        · simp [List.drop_append_of_le_length (show n + 1 ≤ s.length by omega)]

theorem readBytes_drop {n : Nat} {segs : List Bytes} {bs r} (h : readBytes n segs = some (bs, r)) :
    n ≤ segs.flatten.length ∧ bs = segs.flatten.take n ∧ r.flatten = segs.flatten.drop n := by
  rcases Nat.lt_or_ge segs.flatten.length n with hlt | hge
  · rw [(readBytes_spec segs n).2 hlt] at h; simp at h
  · obtain ⟨r', h1, h2⟩ := (readBytes_spec segs n).1 hge
    rw [h1] at h
    simp at h
    obtain ⟨rfl, rfl⟩ := h
    exact ⟨hge, rfl, h2⟩

theorem readWire_len {z : Zlib} {maxAlloc : Nat} {segs : List Bytes} {m : Msg} {rest : List Bytes}
    (h : readWire z maxAlloc segs = .msg m rest) : rest.flatten.length < segs.flatten.length := by
  simp only [readWire] at h
  split at h
  · simp at h
  · rename_i sz r h8
    obtain ⟨a1, a2, a3⟩ := readBytes_drop h8
    split at h
    · simp at h
    · generalize hg : (readBytes (leNat sz) r).getD ([], []) = p at h
      have hl : p.2.flatten.length < segs.flatten.length := by
        cases hx : readBytes (leNat sz) r with
        | some x =>
          rw [hx] at hg; simp only [Option.getD_some] at hg
          obtain ⟨b1, b2, b3⟩ := readBytes_drop (bs := x.1) (r := x.2) hx
          rw [← hg, b3, a3, List.length_drop, List.length_drop]; omega
        | none => rw [hx] at hg; simp only [Option.getD_none] at hg; rw [← hg]; show 0 < segs.flatten.length; omega
      obtain ⟨env, r'⟩ := p
      simp only at h hl
      split at h
      · split at h
        · simp at h
        · split at h
          · simp at h
          · split at h
            · simp at h; rw [← h.2]; exact hl
            · simp at h
      · simp at h

/-- How a connection handler ends: connection closed, or the whole process crashed. (comm/conn_handler.go:15-25) -/
inductive End where
  | closed
  | crashed
  deriving DecidableEq, Repr

/-- comm/conn_handler.go:15-25 `handleConnection`: the messages handed to the handler, in order, and the end. -/
def handleConnection (z : Zlib) (maxAlloc : Nat) (segs : List Bytes) : List Msg × End :=
  match h : readWire z maxAlloc segs with
  | .err => ([], .closed)
  | .panic => ([], .crashed)
  | .msg m rest =>
    match handleConnection z maxAlloc rest with
    | (ms, e) => (m :: ms, e)
termination_by segs.flatten.length
decreasing_by exact readWire_len h

end MS.Wire
