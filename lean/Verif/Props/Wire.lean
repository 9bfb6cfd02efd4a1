import Verif.Model.Wire
import Verif.Props.Proto
/-!
# Properties C23-C26: framing
-/
namespace MS.Wire
open MS.Proto

attribute [-simp] List.length_flatten

/-- The frame of a message: 8 bytes little-endian length and the envelope. -/
theorem toWire_form {z : Zlib} {m : Msg} {w : Bytes} (h : toWire z m = some w) :
    ∃ inner env, marshal m = some inner ∧
      marshal (.envelope { type := typeName m.mtype, data := z.compress inner }) = some env ∧
      w = leBytes 8 env.length ++ env := by
  simp only [toWire] at h
  split at h
  · simp at h
  · rename_i inner hi
    split at h
    · simp at h
    · rename_i env he
      simp at h
      exact ⟨inner, env, hi, he, h.symm⟩

theorem leNat_size (n : Nat) (h : n < 2 ^ 64) : leNat (leBytes 8 n) = n := by
  rw [leNat_leBytes, Nat.mod_eq_of_lt (by have : 256 ^ 8 = 2 ^ 64 := by decide
                                          omega)]

/-- Reading one complete frame, whatever comes after it. `fits`: the message fits in memory on both sides. -/
theorem readWire_frame (z : Zlib) (maxAlloc : Nat) (ha : maxAlloc < 2 ^ 63) (m : Msg) (w inner : Bytes)
    (hi : marshal m = some inner) (hil : inner.length < 2 ^ 64) (hw : toWire z m = some w) (hwl : w.length ≤ maxAlloc)
    (segs : List Bytes) (more : Bytes) (hs : segs.flatten = w ++ more) :
    ∃ rest, readWire z maxAlloc segs = .msg m rest ∧ rest.flatten = more := by
  obtain ⟨inner', env, h1, h2, rfl⟩ := toWire_form hw
  rw [hi] at h1
  injection h1 with h1
  subst h1
  have hl8 := leBytes_length 8 env.length
  simp only [List.length_append, hl8] at hwl
  obtain ⟨r, e1, e2⟩ := (readBytes_spec segs 8).1 (by rw [hs]; simp [hl8])
  rw [hs, List.append_assoc, List.take_left' hl8] at e1
  rw [hs, List.append_assoc, List.drop_left' hl8] at e2
  obtain ⟨r2, f1, f2⟩ := (readBytes_spec r env.length).1 (by rw [e2]; simp)
  rw [e2, List.take_left' rfl] at f1
  rw [e2, List.drop_left' rfl] at f2
  refine ⟨r2, ?_, f2⟩
  have henv := C55_round_trip _ _ h2 (by omega)
  have hin := C55_round_trip _ _ hi hil
  have henv : unmarshal .envelope env = some (.envelope { type := typeName m.mtype, data := z.compress inner }) := henv
  simp only [readWire, e1]
  rw [leNat_size _ (by omega), if_neg (by omega), f1]
  simp only [Option.getD_some, Option.getD_none, henv, messageType_typeName, z.inverse, hin]

/-- C23, the sending side: if `sendWire` reports success then exactly the bytes of the frame have been written, in
order, each once, however the transport split the writes; if it fails, a prefix of them has been written. -/
theorem C23_send_exact (data : Bytes) (writes : List (Nat × Bool)) (sent : Bytes) (ok : Bool)
    (h : sendLoop data writes = some (sent, ok)) : (ok = true → sent = data) ∧ sent <+: data := by
  induction writes generalizing data sent with
  | nil =>
    rw [sendLoop] at h
    split at h
    · rename_i hd; simp at h; simp [hd, h]
    · simp at h
  | cons w ws ih =>
    obtain ⟨n, failed⟩ := w
    rw [sendLoop] at h
    split at h
    · rename_i hd; simp at h; simp [hd, h]
    · split at h
      · simp at h
        obtain ⟨rfl, rfl⟩ := h
        exact ⟨by simp, List.take_prefix _ _⟩
      · split at h
        · rename_i sent' ok' h'
          simp at h
          obtain ⟨rfl, rfl⟩ := h
          obtain ⟨i1, i2⟩ := ih _ _ h'
          refine ⟨fun hok => by rw [i1 hok]; simp, ?_⟩
          have := (List.prefix_append_right_inj (data.take n)).2 i2
          rwa [List.take_append_drop] at this
        · simp at h

/-- C23, the sending side, completeness: if no write fails and the writes together take at least the frame, the whole
frame is written and success is reported. -/
theorem C23_send_completes (data : Bytes) (writes : List (Nat × Bool)) (hf : ∀ w ∈ writes, w.2 = false)
    (hsum : data.length ≤ (writes.map (·.1)).sum) : sendLoop data writes = some (data, true) := by
  induction writes generalizing data with
  | nil =>
    have : data = [] := by simpa using hsum
    simp [sendLoop, this]
  | cons w ws ih =>
    obtain ⟨n, failed⟩ := w
    have h0 : failed = false := hf (n, failed) (by simp)
    subst h0
    rw [sendLoop]
    by_cases hd : data = []
    · simp [hd]
    · rw [if_neg hd, if_neg (by simp), ih (data.drop n) (fun w hw => hf w (by simp [hw]))
        (by simp only [List.map_cons, List.sum_cons] at hsum; rw [List.length_drop]; omega)]
      simp

/-- C23, a failing write: the sender gets an error as soon as a write fails before everything is written. -/
theorem C23_send_fails (data : Bytes) (ok : List Nat) (n : Nat) (more : List (Nat × Bool))
    (hsum : ok.sum < data.length) :
    ∃ sent, sendLoop data (ok.map (fun k => (k, false)) ++ (n, true) :: more) = some (sent, false) := by
  induction ok generalizing data with
  | nil =>
    have hd : data ≠ [] := by intro h; simp [h] at hsum
    exact ⟨data.take n, by simp [sendLoop, hd]⟩
  | cons k ok ih =>
    have hd : data ≠ [] := by intro h; simp [h] at hsum
    simp only [List.sum_cons] at hsum
    obtain ⟨sent, hs⟩ := ih (data.drop k) (by rw [List.length_drop]; omega)
    exact ⟨data.take k ++ sent, by simp [sendLoop, hd, hs]⟩

/-- C23. A message that was sent (through writes split in any way) is received as the equal message, whatever the
pieces in which the bytes arrive. -/
theorem C23_round_trip (z : Zlib) (maxAlloc : Nat) (ha : maxAlloc < 2 ^ 63) (m : Msg) (inner w : Bytes)
    (hi : marshal m = some inner) (hil : inner.length < 2 ^ 64) (hw : toWire z m = some w) (hwl : w.length ≤ maxAlloc)
    (writes : List (Nat × Bool)) (sent : Bytes) (hsend : sendLoop w writes = some (sent, true)) (segs : List Bytes)
    (hs : segs.flatten = sent) :
    ∃ rest, readWire z maxAlloc segs = .msg m rest ∧ rest.flatten = [] := by
  have := (C23_send_exact w writes sent true hsend).1 rfl
  subst this
  exact readWire_frame z maxAlloc ha m sent inner hi hil hw hwl segs [] (by simpa using hs)

/-- Specification: `ms` are messages with frames `ws`, each of which fits in memory. -/
inductive Frames (z : Zlib) (maxAlloc : Nat) : List Msg → List Bytes → Prop
  | nil : Frames z maxAlloc [] []
  | cons {m ms w ws inner} (hi : marshal m = some inner) (hil : inner.length < 2 ^ 64) (hw : toWire z m = some w)
      (hwl : w.length ≤ maxAlloc) (h : Frames z maxAlloc ms ws) : Frames z maxAlloc (m :: ms) (w :: ws)

theorem handle_eq (z : Zlib) (maxAlloc : Nat) (segs : List Bytes) :
    handleConnection z maxAlloc segs =
      match readWire z maxAlloc segs with
      | .err => ([], .closed)
      | .panic => ([], .crashed)
      | .msg m rest => (m :: (handleConnection z maxAlloc rest).1, (handleConnection z maxAlloc rest).2) := by
  conv => lhs; rw [handleConnection]
  split <;> (rename_i hx; rw [hx])

/-- Frames are read one after the other; what follows them is read next. -/
theorem handle_frames (z : Zlib) (maxAlloc : Nat) (ha : maxAlloc < 2 ^ 63) (ms : List Msg) (ws : List Bytes)
    (hf : Frames z maxAlloc ms ws) : ∀ (segs : List Bytes) (more : Bytes), segs.flatten = ws.flatten ++ more →
    ∃ rest, rest.flatten = more ∧ (handleConnection z maxAlloc segs) =
      (ms ++ (handleConnection z maxAlloc rest).1, (handleConnection z maxAlloc rest).2) := by
  induction hf with
  | nil => intro segs more h; exact ⟨segs, by simpa using h, by simp⟩
  | @cons m ms w ws inner hi hil hw hwl _ ih =>
    intro segs more h
    obtain ⟨r1, e1, e2⟩ := readWire_frame z maxAlloc ha m w inner hi hil hw hwl segs (ws.flatten ++ more) (by simpa using h)
    obtain ⟨r2, f1, f2⟩ := ih r1 more e2
    refine ⟨r2, f1, ?_⟩
    rw [handle_eq, e1]
    simp only
    rw [f2]
    simp

/-- A connection whose remaining bytes do not make a complete frame delivers nothing: fewer than 8 bytes, or an
announced (acceptable) size with fewer bytes following. -/
def Incomplete (maxAlloc : Nat) (bs : Bytes) : Prop :=
  bs.length < 8 ∨ (leNat (bs.take 8) ≤ maxAlloc ∧ bs.length < 8 + leNat (bs.take 8))

theorem messageType_nil : messageType [] = none := by simp [messageType, allTypes, typeName, ascii]

theorem unmarshal_empty : unmarshal .envelope [] = some (.envelope {}) := by
  simp only [unmarshal]
  rw [decFields]
  simp [interpret, applyAll]

theorem readWire_incomplete (z : Zlib) (maxAlloc : Nat) (ha : maxAlloc < 2 ^ 63) (segs : List Bytes)
    (h : Incomplete maxAlloc segs.flatten) : readWire z maxAlloc segs = .err := by
  rcases h with h | ⟨h1, h2⟩
  · simp only [readWire]
    rw [(readBytes_spec segs 8).2 h]
  · rcases Nat.lt_or_ge segs.flatten.length 8 with h8 | h8
    · simp only [readWire]
      rw [(readBytes_spec segs 8).2 h8]
    · obtain ⟨r, e1, e2⟩ := (readBytes_spec segs 8).1 h8
      simp only [readWire, e1]
      rw [if_neg (by omega)]
      have : readBytes (leNat (segs.flatten.take 8)) r = none :=
        (readBytes_spec r _).2 (by rw [e2]; simp; omega)
      rw [this]
      simp only [Option.getD_some, Option.getD_none, unmarshal_empty]
      rw [messageType_nil]

/-- C24. Any sequence of messages written one after the other is handed to the handler as exactly that sequence, in
order, whatever the pieces in which the bytes arrive; then the connection is closed. -/
theorem C24_boundaries (z : Zlib) (maxAlloc : Nat) (ha : maxAlloc < 2 ^ 63) (ms : List Msg) (ws : List Bytes)
    (hf : Frames z maxAlloc ms ws) (segs : List Bytes) (hs : segs.flatten = ws.flatten) :
    handleConnection z maxAlloc segs = (ms, .closed) := by
  obtain ⟨rest, h1, h2⟩ := handle_frames z maxAlloc ha ms ws hf segs [] (by simpa using hs)
  rw [h2, handle_eq, readWire_incomplete z maxAlloc ha rest (by rw [h1]; left; simp)]
  simp

/-- C24, concurrent senders: if the writes of the senders are atomic (each whole frame is written at once) the frames
arrive as some interleaving of the senders' sequences; each sender's messages are received in its order. -/
inductive Interleaving {β : Type} : List β → List β → List β → Prop
  | nil : Interleaving [] [] []
  | left {a b c x} (h : Interleaving a b c) : Interleaving (x :: a) b (x :: c)
  | right {a b c x} (h : Interleaving a b c) : Interleaving a (x :: b) (x :: c)

theorem frames_interleave {z : Zlib} {maxAlloc : Nat} {msA msB : List Msg} {wsA wsB ws : List Bytes}
    (hA : Frames z maxAlloc msA wsA) (hB : Frames z maxAlloc msB wsB) (h : Interleaving wsA wsB ws) :
    ∃ ms, Interleaving msA msB ms ∧ Frames z maxAlloc ms ws := by
  induction h generalizing msA msB with
  | nil =>
    cases hA; cases hB
    exact ⟨[], .nil, .nil⟩
  | left _ ih =>
    cases hA with
    | cons hi hil hw hwl hA =>
      obtain ⟨ms, h1, h2⟩ := ih hA hB
      exact ⟨_, .left h1, .cons hi hil hw hwl h2⟩
  | right _ ih =>
    cases hB with
    | cons hi hil hw hwl hB =>
      obtain ⟨ms, h1, h2⟩ := ih hA hB
      exact ⟨_, .right h1, .cons hi hil hw hwl h2⟩

theorem C24_two_senders (z : Zlib) (maxAlloc : Nat) (ha : maxAlloc < 2 ^ 63) (msA msB : List Msg) (wsA wsB ws : List Bytes)
    (hA : Frames z maxAlloc msA wsA) (hB : Frames z maxAlloc msB wsB) (h : Interleaving wsA wsB ws)
    (segs : List Bytes) (hs : segs.flatten = ws.flatten) :
    ∃ ms, Interleaving msA msB ms ∧ handleConnection z maxAlloc segs = (ms, .closed) := by
  obtain ⟨ms, h1, h2⟩ := frames_interleave hA hB h
  exact ⟨ms, h1, C24_boundaries z maxAlloc ha ms ws h2 segs hs⟩

/-- C26. If the connection ends inside a frame (after complete frames of `ms`), exactly `ms` is delivered and the
connection is closed: no message comes from the incomplete frame. -/
theorem C26_incomplete_frame (z : Zlib) (maxAlloc : Nat) (ha : maxAlloc < 2 ^ 63) (ms : List Msg) (ws : List Bytes)
    (hf : Frames z maxAlloc ms ws) (part : Bytes) (hp : Incomplete maxAlloc part) (segs : List Bytes)
    (hs : segs.flatten = ws.flatten ++ part) : handleConnection z maxAlloc segs = (ms, .closed) := by
  obtain ⟨rest, h1, h2⟩ := handle_frames z maxAlloc ha ms ws hf segs part hs
  rw [h2, handle_eq, readWire_incomplete z maxAlloc ha rest (by rw [h1]; exact hp)]
  simp

/-- C26, every cut: a frame of a message cut anywhere before its end is incomplete. -/
theorem C26_every_cut (z : Zlib) (maxAlloc : Nat) (m : Msg) (w : Bytes) (hw : toWire z m = some w)
    (hwl : w.length ≤ maxAlloc) (ha : maxAlloc < 2 ^ 63) (k : Nat) (hk : k < w.length) :
    Incomplete maxAlloc (w.take k) := by
  obtain ⟨inner, env, h1, h2, rfl⟩ := toWire_form hw
  have hl8 := leBytes_length 8 env.length
  simp only [List.length_append, hl8] at hwl hk
  rcases Nat.lt_or_ge k 8 with h | h
  · left; simp; omega
  · right
    have : ((leBytes 8 env.length ++ env).take k).take 8 = leBytes 8 env.length := by
      rw [List.take_take, Nat.min_eq_left h, List.take_left' hl8]
    rw [this, leNat_size _ (by omega)]
    simp [hl8]
    omega

/-- C25, refuted (1): any peer that sends 8 bytes announcing a size of 2^63 or more crashes the process. -/
theorem C25_negative_size_crashes (z : Zlib) (maxAlloc : Nat) (segs : List Bytes) (h8 : 8 ≤ segs.flatten.length)
    (h : 2 ^ 63 ≤ leNat (segs.flatten.take 8)) : handleConnection z maxAlloc segs = ([], .crashed) := by
  obtain ⟨r, e1, _⟩ := (readBytes_spec segs 8).1 h8
  rw [handle_eq]
  simp only [readWire, e1]
  rw [if_pos (.inl h)]

/-- C25, refuted (2): a well-formed frame naming any known message type but carrying no compressed data crashes the
process. -/
theorem C25_empty_data_crashes (z : Zlib) (maxAlloc : Nat) (ha : maxAlloc < 2 ^ 63) (t : MType) (env : Bytes)
    (he : marshal (.envelope { type := typeName t, data := [] }) = some env) (hl : env.length ≤ maxAlloc)
    (segs : List Bytes) (hs : segs.flatten = leBytes 8 env.length ++ env) :
    handleConnection z maxAlloc segs = ([], .crashed) := by
  have hl8 := leBytes_length 8 env.length
  obtain ⟨r, e1, e2⟩ := (readBytes_spec segs 8).1 (by rw [hs]; simp [hl8])
  rw [hs, List.take_left' hl8] at e1
  rw [hs, List.drop_left' hl8] at e2
  obtain ⟨r2, f1, f2⟩ := (readBytes_spec r env.length).1 (by rw [e2]; omega)
  rw [e2, List.take_length] at f1
  have hd := C55_round_trip _ _ he (by omega)
  have hd : unmarshal .envelope env = some (.envelope { type := typeName t, data := [] }) := hd
  rw [handle_eq]
  simp only [readWire, e1]
  rw [leNat_size _ (by omega), if_neg (by omega), f1]
  simp only [Option.getD_some, Option.getD_none, hd, messageType_typeName, z.empty]

/-- Specification: the first frame of the input is malformed in one of the two fatal ways: it announces an impossible
size, or it is complete and names a known type with data zlib cannot open. -/
def Fatal (z : Zlib) (maxAlloc : Nat) (bs : Bytes) : Prop :=
  8 ≤ bs.length ∧
    ((2 ^ 63 ≤ leNat (bs.take 8) ∨ maxAlloc < leNat (bs.take 8)) ∨
     (8 + leNat (bs.take 8) ≤ bs.length ∧
      ∃ e t, unmarshal .envelope ((bs.drop 8).take (leNat (bs.take 8))) = some (.envelope e) ∧ messageType e.type = some t ∧
        z.read e.data = none))

/-- C25, partial: these are the only ways to crash. For every byte stream, however it is fragmented, reading a message
crashes iff the stream begins with a fatal frame; otherwise it yields a message or an error. -/
theorem C25_crash_iff_partial (z : Zlib) (maxAlloc : Nat) (segs : List Bytes) :
    readWire z maxAlloc segs = .panic ↔ Fatal z maxAlloc segs.flatten := by
  rcases Nat.lt_or_ge segs.flatten.length 8 with h8 | h8
  · simp only [readWire, (readBytes_spec segs 8).2 h8, Fatal]
    constructor
    · intro h; simp at h
    · intro h; omega
  · obtain ⟨r, e1, e2⟩ := (readBytes_spec segs 8).1 h8
    simp only [readWire, e1, Fatal]
    generalize leNat (segs.flatten.take 8) = size at *
    by_cases hsz : 2 ^ 63 ≤ size ∨ maxAlloc < size
    · rw [if_pos hsz]
      simp [hsz, h8]
    · rw [if_neg hsz]
      rcases Nat.lt_or_ge segs.flatten.length (8 + size) with hlt | hge
      · rw [(readBytes_spec r size).2 (by rw [e2]; simp; omega)]
        simp only [Option.getD_some, Option.getD_none, unmarshal_empty, messageType_nil]
        constructor
        · intro h; simp at h
        · intro h
          rcases h.2 with h | h
          · exact absurd h hsz
          · omega
      · obtain ⟨r2, f1, f2⟩ := (readBytes_spec r size).1 (by rw [e2]; simp; omega)
        rw [f1, e2]
        simp only [Option.getD_some]
        constructor
        · intro h
          refine ⟨h8, .inr ⟨hge, ?_⟩⟩
          split at h
          · rename_i e he
            split at h
            · simp at h
            · rename_i t ht
              split at h
              · rename_i hz
                exact ⟨e, t, he, ht, hz⟩
              · split at h <;> simp at h
          · simp at h
        · rintro ⟨_, h | ⟨_, e, t, he, ht, hz⟩⟩
          · exact absurd h hsz
          · simp only [he, ht, hz]

/-- C25 for the whole connection: it crashes iff after some complete, valid frames a fatal frame follows. -/
theorem C25_connection_partial (z : Zlib) (maxAlloc : Nat) (segs : List Bytes) :
    (handleConnection z maxAlloc segs).2 = .crashed →
      ∃ k, k ≤ segs.flatten.length ∧ Fatal z maxAlloc (segs.flatten.drop k) := by
  intro h
  generalize hn : segs.flatten.length = n
  induction n using Nat.strongRecOn generalizing segs with
  | ind n ih =>
    rw [handle_eq] at h
    cases hr : readWire z maxAlloc segs with
    | err => rw [hr] at h; simp at h
    | panic => exact ⟨0, by omega, by simpa using (C25_crash_iff_partial z maxAlloc segs).1 hr⟩
    | msg m rest =>
      rw [hr] at h
      simp only at h
      have hlt := readWire_len hr
      obtain ⟨k, hk, hf⟩ := ih _ (by omega) rest h rfl
      -- rest is a suffix of the stream
      have hsuf : ∃ j, rest.flatten = segs.flatten.drop j ∧ j ≤ segs.flatten.length := by
        simp only [readWire] at hr
        split at hr
        · simp at hr
        · rename_i sz r h8
          obtain ⟨a1, a2, a3⟩ := readBytes_drop h8
          split at hr
          · simp at hr
          · generalize hg : (readBytes (leNat sz) r).getD ([], []) = p at hr
            have hp : ∃ j, p.2.flatten = segs.flatten.drop j ∧ j ≤ segs.flatten.length := by
              cases hx : readBytes (leNat sz) r with
              | some x =>
                rw [hx] at hg; simp only [Option.getD_some] at hg
                obtain ⟨b1, b2, b3⟩ := readBytes_drop (bs := x.1) (r := x.2) hx
                refine ⟨8 + leNat sz, by rw [← hg, b3, a3, List.drop_drop], ?_⟩
                rw [a3] at b1; simp at b1; omega
              | none =>
                rw [hx] at hg; simp only [Option.getD_none] at hg
                exact ⟨segs.flatten.length, by rw [← hg]; simp, by omega⟩
            obtain ⟨env, r'⟩ := p
            simp only at hr hp
            split at hr
            · split at hr
              · simp at hr
              · split at hr
                · simp at hr
                · split at hr
                  · rw [Rd.msg.injEq] at hr; rw [← hr.2]; exact hp
                  · simp at hr
            · simp at hr
      obtain ⟨j, hj, hjl⟩ := hsuf
      refine ⟨j + k, ?_, ?_⟩
      · rw [hj] at hk; simp at hk; omega
      · rw [hj, List.drop_drop] at hf; exact hf

/-- A trivial codec showing that the assumptions on zlib are consistent: prefix one byte. -/
def toyZlib : Zlib where
  compress b := 0x78 :: b
  read b := match b with | [] => none | _ :: r => some r
  inverse _ := rfl
  empty := rfl

/-- Non-vacuity: the frame of a pause message, and a connection on which it arrives in three pieces (one empty)
followed by a cut second frame. -/
def examplePause : Msg := .pauseInfo { playing := true, toggleSampleIndex := 300 }

def examplePauseFrame : Bytes :=
  [24, 0, 0, 0, 0, 0, 0, 0] ++ [10, 14] ++ ascii "comm.PauseInfo" ++ [18, 6, 0x78, 8, 1, 16, 0xAC, 2]

theorem examplePauseFrame_eq : toWire toyZlib examplePause = some examplePauseFrame := by
  simp [examplePause, examplePauseFrame, toWire, marshal, validStrings, fields, eBool, eU64, eBytes, encFields, encField,
    encVal, encVarint, wireType, toyZlib, Msg.mtype, typeName, ascii, utf8Valid, leBytes]

theorem exampleFrames : Frames toyZlib 1000 [examplePause] [examplePauseFrame] := by
  refine .cons (inner := [8, 1, 16, 0xAC, 2]) ?_ (by simp) examplePauseFrame_eq ?_ .nil
  · simp [examplePause, marshal, validStrings, fields, eBool, eU64, encFields, encField, encVal, encVarint, wireType]
  · simp [examplePauseFrame, ascii]

example : handleConnection toyZlib 1000 [examplePauseFrame.take 9, [], examplePauseFrame.drop 9 ++ examplePauseFrame.take 20] =
    ([examplePause], .closed) :=
  C26_incomplete_frame toyZlib 1000 (by omega) _ _ exampleFrames _
    (C26_every_cut toyZlib 1000 _ _ examplePauseFrame_eq (by simp [examplePauseFrame, ascii]) (by omega) 20
      (by simp [examplePauseFrame, ascii])) _ (by simp [← List.append_assoc])

example : Incomplete 1000 [1, 2, 3] := .inl (by decide)
example : Incomplete 1000 [5, 0, 0, 0, 0, 0, 0, 0, 1] := .inr (by decide)

example : sendLoop [1, 2, 3] [(2, false), (0, false), (1, false)] = some ([1, 2, 3], true) := by
  simp [sendLoop]

end MS.Wire
