import Verif.Model.GoBase
/-!
# comm/packages.proto: the protobuf encoding of the protocol messages

comm/package_util.go uses `proto.Marshal`/`proto.Unmarshal` (github.com/golang/protobuf v1.4.2) on the messages
generated from comm/packages.proto. The library is not in /repo; this module models the proto3 wire format it
implements, for exactly these messages. `int64`/`uint64`/`int32` are Lean's fixed width types, `double` is its 64 bit
pattern, `string` is its bytes (which must be valid UTF-8), so there are no range side conditions.

Simplifications: a message is decoded in two phases (split into fields, then interpret them), which gives the same
result or failure as the library's single pass; unknown fields are dropped (the library keeps them in a hidden place);
group wire types (never produced by proto3) are an error instead of being skipped.
-/
set_option linter.unusedVariables false
namespace MS.Proto

/-- Go `[]byte`, comm/package_util.go:30 -/
abbrev Bytes := List UInt8

/-! ## Wire format -/

/-- Base 128 varint. (comm/package_util.go:31, 46 (protobuf library)) -/
def encVarint (n : Nat) : Bytes :=
  if n < 128 then [UInt8.ofNat n] else UInt8.ofNat (n % 128 + 128) :: encVarint (n / 128)
termination_by n
decreasing_by omega

/-- Varint decoding; `k` is the number of bytes still allowed (10 at the start, the tenth may only hold one bit).
(comm/package_util.go:67, 82 (protobuf library)) -/
def decVarint : Nat → Bytes → Option (Nat × Bytes)
  | 0, _ => none
  | _ + 1, [] => none
  | k + 1, b :: bs =>
    if b.toNat < 128 then
      if k = 0 ∧ 2 ≤ b.toNat then none else some (b.toNat, bs)
    else
      match decVarint k bs with
      | some (v, r) => some (b.toNat - 128 + 128 * v, r)
      | none => none

/-- `k` little-endian bytes of `n`. (comm/package_util.go:52, and doubles of comm/packages.proto:22-23, 34) -/
def leBytes : Nat → Nat → Bytes
  | 0, _ => []
  | k + 1, n => UInt8.ofNat (n % 256) :: leBytes k (n / 256)

/-- The number with the given little-endian bytes.
(comm/package_util.go:63, and doubles of comm/packages.proto:22-23, 34) -/
def leNat : Bytes → Nat
  | [] => 0
  | b :: bs => b.toNat + 256 * leNat bs

/-- A field value with its wire type. (protobuf wire format of comm/packages.proto:4-76) -/
inductive Val where
  | varint (n : UInt64)   -- wire type 0
  | i64 (n : UInt64)      -- wire type 1
  | len (bs : Bytes)      -- wire type 2
  | i32 (n : UInt32)      -- wire type 5
  deriving DecidableEq, Repr

/-- A field: number and value. (protobuf wire format of comm/packages.proto:4-76) -/
abbrev Field := Nat × Val

/-- protobuf wire format of comm/packages.proto:4-76: the number of a wire type -/
def wireType : Val → Nat
  | .varint _ => 0
  | .i64 _ => 1
  | .len _ => 2
  | .i32 _ => 5

/-- github.com/golang/protobuf (proto.Marshal, comm/package_util.go:31, 46), for one value -/
def encVal : Val → Bytes
  | .varint n => encVarint n.toNat
  | .i64 n => leBytes 8 n.toNat
  | .len bs => encVarint bs.length ++ bs
  | .i32 n => leBytes 4 n.toNat

/-- Tag and payload of one field. (comm/package_util.go:31, 46) -/
def encField (f : Field) : Bytes := encVarint (f.1 * 8 + wireType f.2) ++ encVal f.2

/-- github.com/golang/protobuf (proto.Marshal, comm/package_util.go:31, 46), for all fields -/
def encFields (fs : List Field) : Bytes := fs.flatMap encField

/-- The payload of a field with the given wire type. (comm/package_util.go:67, 82) -/
def decVal (wt : Nat) (bs : Bytes) : Option (Val × Bytes) :=
  match wt with
  | 0 =>
    match decVarint 10 bs with
    | some (n, r) => some (.varint (UInt64.ofNat n), r)
    | none => none
  | 1 => if bs.length < 8 then none else some (.i64 (UInt64.ofNat (leNat (bs.take 8))), bs.drop 8)
  | 2 =>
    match decVarint 10 bs with
    | some (n, r) => if r.length < n then none else some (.len (r.take n), r.drop n)
    | none => none
  | 5 => if bs.length < 4 then none else some (.i32 (UInt32.ofNat (leNat (bs.take 4))), bs.drop 4)
  | _ => none

/-- One field: the tag varint, a field number between 1 and 2^29-1, the payload. (comm/package_util.go:67, 82) -/
def decField (bs : Bytes) : Option (Field × Bytes) :=
  match decVarint 10 bs with
  | none => none
  | some (tag, r) =>
    if tag / 8 = 0 ∨ 2 ^ 29 ≤ tag / 8 then none
    else
      match decVal (tag % 8) r with
      | some (v, r') => some ((tag / 8, v), r')
      | none => none

theorem decVarint_len : ∀ (k : Nat) (bs : Bytes) v r, decVarint k bs = some (v, r) → r.length < bs.length := by
  intro k
  induction k with
  | zero => intro bs v r h; simp [decVarint] at h
  | succ k ih =>
    intro bs v r h
    cases bs with
    | nil => simp [decVarint] at h
    | cons b bs =>
      simp only [decVarint] at h
      split at h
      · split at h
        · simp at h
        · simp at h; simp [h]
      · split at h
        · rename_i v' r' h'
          have := ih bs _ _ h'
          simp at h
          simp [← h.2]; omega
        · simp at h

theorem decVal_len (wt : Nat) (bs : Bytes) : ∀ v r, decVal wt bs = some (v, r) → r.length ≤ bs.length := by
  intro v r h
  simp only [decVal] at h
  split at h
  · split at h
    · rename_i n r' h'
      have := decVarint_len _ _ _ _ h'
      simp at h; rw [← h.2]; omega
    · simp at h
  · split at h
    · simp at h
    · simp at h; rw [← h.2]; simp
  · split at h
    · rename_i n r' h'
      have := decVarint_len _ _ _ _ h'
      split at h
      · simp at h
      · simp at h; rw [← h.2]; simp; omega
    · simp at h
  · split at h
    · simp at h
    · simp at h; rw [← h.2]; simp
  · simp at h

theorem decField_len (bs : Bytes) : ∀ f r, decField bs = some (f, r) → r.length < bs.length := by
  intro f r h
  simp only [decField] at h
  split at h
  · simp at h
  · rename_i tag r1 h1
    have h2 := decVarint_len _ _ _ _ h1
    split at h
    · simp at h
    · split at h
      · rename_i v r' h'
        have := decVal_len _ _ _ _ h'
        simp at h; rw [← h.2]; omega
      · simp at h

/-- All fields of a message. (comm/package_util.go:67, 82) -/
def decFields (bs : Bytes) : Option (List Field) :=
  if bs = [] then some []
  else
    match h : decField bs with
    | none => none
    | some (f, r) =>
      match decFields r with
      | some fs => some (f :: fs)
      | none => none
termination_by bs.length
decreasing_by exact decField_len bs _ _ h

/-- Valid UTF-8 (RFC 3629): proto3 requires it of `string` fields in both directions.
(comm/packages.proto:5, 49, 55-57, 61) -/
def utf8Valid : Bytes → Bool
  | [] => true
  | b0 :: rest =>
    if b0.toNat < 0x80 then utf8Valid rest
    else if 0xC2 ≤ b0.toNat ∧ b0.toNat ≤ 0xDF then
      match rest with
      | b1 :: r => decide (0x80 ≤ b1.toNat ∧ b1.toNat ≤ 0xBF) && utf8Valid r
      | _ => false
    else if 0xE0 ≤ b0.toNat ∧ b0.toNat ≤ 0xEF then
      match rest with
      | b1 :: b2 :: r =>
        decide ((if b0.toNat = 0xE0 then 0xA0 else 0x80) ≤ b1.toNat ∧ b1.toNat ≤ (if b0.toNat = 0xED then 0x9F else 0xBF))
          && decide (0x80 ≤ b2.toNat ∧ b2.toNat ≤ 0xBF) && utf8Valid r
      | _ => false
    else if 0xF0 ≤ b0.toNat ∧ b0.toNat ≤ 0xF4 then
      match rest with
      | b1 :: b2 :: b3 :: r =>
        decide ((if b0.toNat = 0xF0 then 0x90 else 0x80) ≤ b1.toNat ∧ b1.toNat ≤ (if b0.toNat = 0xF4 then 0x8F else 0xBF))
          && decide (0x80 ≤ b2.toNat ∧ b2.toNat ≤ 0xBF) && decide (0x80 ≤ b3.toNat ∧ b3.toNat ≤ 0xBF) && utf8Valid r
      | _ => false
    else false

/-! ## Messages (comm/packages.proto, comm/packages.pb.go) -/

/-- comm/packages.proto:4-7 -/
structure Envelope where
  type : Bytes := []
  data : Bytes := []
  deriving DecidableEq, Repr, Inhabited

/-- comm/packages.proto:9-11 -/
structure TimeSyncRequest where
  clientSend : Int64 := 0
  deriving DecidableEq, Repr, Inhabited

/-- comm/packages.proto:13-17 -/
structure TimeSyncResponse where
  clientSendTime : Int64 := 0
  serverRecvTime : Int64 := 0
  serverSendTime : Int64 := 0
  deriving DecidableEq, Repr, Inhabited

/-- comm/packages.proto:19-25; doubles are bit patterns -/
structure QueueChunkRequest where
  startTime : Int64 := 0
  chunkId : Int64 := 0
  sampleLow : List UInt64 := []
  sampleHigh : List UInt64 := []
  firstSampleIndex : UInt64 := 0
  deriving DecidableEq, Repr, Inhabited

/-- comm/packages.proto:33-35 -/
structure SetVolumeRequest where
  volume : UInt64 := 0
  deriving DecidableEq, Repr, Inhabited

/-- comm/packages.proto:37-44; the enum is an int32 (0 AUDIO, 1 META) -/
structure SubscribeChannelRequest where
  channel : Int32 := 0
  deriving DecidableEq, Repr, Inhabited

/-- comm/packages.proto:47-50 -/
structure Atom where
  timestamp : Int64 := 0
  caption : Bytes := []
  deriving DecidableEq, Repr, Inhabited

/-- comm/packages.proto:51-53 -/
structure Line where
  atoms : List Atom := []
  deriving DecidableEq, Repr, Inhabited

/-- comm/packages.proto:54-58 -/
structure Metadata where
  title : Bytes := []
  artist : Bytes := []
  album : Bytes := []
  deriving DecidableEq, Repr, Inhabited

/-- comm/packages.proto:46-65 -/
structure NewSongInfo where
  firstSampleOfSongIndex : UInt64 := 0
  songFileName : Bytes := []
  songLength : Int64 := 0
  lyrics : List Line := []
  metadata : Option Metadata := none
  deriving DecidableEq, Repr, Inhabited

/-- comm/packages.proto:67-71 -/
structure ChunkInfo where
  startTime : Int64 := 0
  firstSampleIndex : UInt64 := 0
  chunkSize : UInt64 := 0
  deriving DecidableEq, Repr, Inhabited

/-- comm/packages.proto:73-76 -/
structure PauseInfo where
  playing : Bool := false
  toggleSampleIndex : UInt64 := 0
  deriving DecidableEq, Repr, Inhabited

/-- comm/packages.pb.go:405-420: the registered message types. -/
inductive MType where
  | envelope | timeSyncRequest | timeSyncResponse | queueChunkRequest | pingMessage | pongMessage | setVolumeRequest
  | subscribeChannelRequest | newSongInfo | songLyricsAtom | songLyricsLine | songMetadata | chunkInfo | pauseInfo
  deriving DecidableEq, Repr

/-- A message of any registered type. (comm/packages.proto:4-76) -/
inductive Msg where
  | envelope (m : Envelope)
  | timeSyncRequest (m : TimeSyncRequest)
  | timeSyncResponse (m : TimeSyncResponse)
  | queueChunkRequest (m : QueueChunkRequest)
  | pingMessage
  | pongMessage
  | setVolumeRequest (m : SetVolumeRequest)
  | subscribeChannelRequest (m : SubscribeChannelRequest)
  | newSongInfo (m : NewSongInfo)
  | songLyricsAtom (m : Atom)
  | songLyricsLine (m : Line)
  | songMetadata (m : Metadata)
  | chunkInfo (m : ChunkInfo)
  | pauseInfo (m : PauseInfo)
  deriving DecidableEq, Repr

/-- `proto.MessageName`, comm/package_util.go:42: the type of a message -/
def Msg.mtype : Msg → MType
  | .envelope _ => .envelope
  | .timeSyncRequest _ => .timeSyncRequest
  | .timeSyncResponse _ => .timeSyncResponse
  | .queueChunkRequest _ => .queueChunkRequest
  | .pingMessage => .pingMessage
  | .pongMessage => .pongMessage
  | .setVolumeRequest _ => .setVolumeRequest
  | .subscribeChannelRequest _ => .subscribeChannelRequest
  | .newSongInfo _ => .newSongInfo
  | .songLyricsAtom _ => .songLyricsAtom
  | .songLyricsLine _ => .songLyricsLine
  | .songMetadata _ => .songMetadata
  | .chunkInfo _ => .chunkInfo
  | .pauseInfo _ => .pauseInfo

/-- comm/packages.pb.go:405-420 -/
def allTypes : List MType :=
  [.envelope, .timeSyncRequest, .timeSyncResponse, .queueChunkRequest, .pingMessage, .pongMessage, .setVolumeRequest,
   .subscribeChannelRequest, .newSongInfo, .songLyricsAtom, .songLyricsLine, .songMetadata, .chunkInfo, .pauseInfo]

/-- The bytes of an ASCII string. (comm/packages.pb.go:406-419) -/
def ascii (s : String) : Bytes := s.toList.map (fun c => UInt8.ofNat c.toNat)

/-- `proto.MessageName`: comm/packages.pb.go:406-419. -/
def typeName : MType → Bytes
  | .envelope => ascii "comm.Envelope"
  | .timeSyncRequest => ascii "comm.TimeSyncRequest"
  | .timeSyncResponse => ascii "comm.TimeSyncResponse"
  | .queueChunkRequest => ascii "comm.QueueChunkRequest"
  | .pingMessage => ascii "comm.PingMessage"
  | .pongMessage => ascii "comm.PongMessage"
  | .setVolumeRequest => ascii "comm.SetVolumeRequest"
  | .subscribeChannelRequest => ascii "comm.SubscribeChannelRequest"
  | .newSongInfo => ascii "comm.NewSongInfo"
  | .songLyricsAtom => ascii "comm.NewSongInfo.SongLyricsAtom"
  | .songLyricsLine => ascii "comm.NewSongInfo.SongLyricsLine"
  | .songMetadata => ascii "comm.NewSongInfo.SongMetadata"
  | .chunkInfo => ascii "comm.ChunkInfo"
  | .pauseInfo => ascii "comm.PauseInfo"

/-- `proto.MessageType`: `none` for an unknown name. (comm/package_util.go:71) -/
def messageType (name : Bytes) : Option MType := allTypes.find? (fun t => typeName t == name)

/-! ## Encoding: proto3 leaves out zero values -/

/-- a uint64 field, absent if 0 (proto3), comm/packages.proto:24, 60, 69-70, 75 -/
def eU64 (n : Nat) (v : UInt64) : List Field := if v = 0 then [] else [(n, .varint v)]
/-- an int64 field, absent if 0 (proto3), comm/packages.proto:10-21, 48, 62, 68 -/
def eI64 (n : Nat) (v : Int64) : List Field := eU64 n v.toUInt64
/-- an enum field, absent if 0 (proto3), comm/packages.proto:38 -/
def eEnum (n : Nat) (v : Int32) : List Field := eI64 n v.toInt64
/-- a bool field, absent if false (proto3), comm/packages.proto:74 -/
def eBool (n : Nat) (v : Bool) : List Field := if v then [(n, .varint 1)] else []
/-- a string or bytes field, absent if empty (proto3), comm/packages.proto:5-6, 49, 55-57, 61 -/
def eBytes (n : Nat) (v : Bytes) : List Field := if v = [] then [] else [(n, .len v)]
/-- a double field, absent if its bits are 0 (proto3), comm/packages.proto:34 -/
def eDouble (n : Nat) (v : UInt64) : List Field := if v = 0 then [] else [(n, .i64 v)]
/-- a packed field, absent if empty, comm/packages.proto:22-23 -/
def ePacked (n : Nat) (v : List UInt64) : List Field := if v = [] then [] else [(n, .len (v.flatMap (fun x => leBytes 8 x.toNat)))]

/-- comm/packages.proto:47-50 -/
def fAtom (m : Atom) : List Field := eI64 1 m.timestamp ++ eBytes 2 m.caption
/-- comm/packages.proto:51-53 -/
def fLine (m : Line) : List Field := m.atoms.map (fun a => (1, .len (encFields (fAtom a))))
/-- comm/packages.proto:54-58 -/
def fMetadata (m : Metadata) : List Field := eBytes 1 m.title ++ eBytes 2 m.artist ++ eBytes 3 m.album

/-- The fields of a message in the order of their numbers. (comm/packages.proto:4-76) -/
def fields : Msg → List Field
  | .envelope m => eBytes 1 m.type ++ eBytes 2 m.data
  | .timeSyncRequest m => eI64 1 m.clientSend
  | .timeSyncResponse m => eI64 1 m.clientSendTime ++ eI64 2 m.serverRecvTime ++ eI64 3 m.serverSendTime
  | .queueChunkRequest m => eI64 1 m.startTime ++ eI64 2 m.chunkId ++ ePacked 3 m.sampleLow ++ ePacked 4 m.sampleHigh ++
      eU64 5 m.firstSampleIndex
  | .pingMessage => []
  | .pongMessage => []
  | .setVolumeRequest m => eDouble 1 m.volume
  | .subscribeChannelRequest m => eEnum 1 m.channel
  | .newSongInfo m => eU64 1 m.firstSampleOfSongIndex ++ eBytes 2 m.songFileName ++ eI64 3 m.songLength ++
      m.lyrics.map (fun l => (4, .len (encFields (fLine l)))) ++
      (match m.metadata with | none => [] | some md => [(5, .len (encFields (fMetadata md)))])
  | .songLyricsAtom m => fAtom m
  | .songLyricsLine m => fLine m
  | .songMetadata m => fMetadata m
  | .chunkInfo m => eI64 1 m.startTime ++ eU64 2 m.firstSampleIndex ++ eU64 3 m.chunkSize
  | .pauseInfo m => eBool 1 m.playing ++ eU64 2 m.toggleSampleIndex

/-- comm/packages.proto:54-58: the strings are valid UTF-8 -/
def validMetadata (m : Metadata) : Bool := utf8Valid m.title && utf8Valid m.artist && utf8Valid m.album

/-- The `string` fields of a message are valid UTF-8. (comm/packages.proto:4-76) -/
def validStrings : Msg → Bool
  | .envelope m => utf8Valid m.type
  | .newSongInfo m => utf8Valid m.songFileName && m.lyrics.all (fun l => l.atoms.all (fun a => utf8Valid a.caption)) &&
      (match m.metadata with | none => true | some md => validMetadata md)
  | .songLyricsAtom m => utf8Valid m.caption
  | .songLyricsLine m => m.atoms.all (fun a => utf8Valid a.caption)
  | .songMetadata m => validMetadata m
  | _ => true

/-- `proto.Marshal`: `none` is the error for an invalid string. (comm/package_util.go:31, 46) -/
def marshal (m : Msg) : Option Bytes := if validStrings m then some (encFields (fields m)) else none

/-! ## Decoding: last value wins, repeated fields append, embedded messages merge; other fields are ignored -/

/-- Interpret fields one after the other. (comm/package_util.go:67, 82) -/
def applyAll {M : Type} (step : M → Field → Option M) : M → List Field → Option M
  | m, [] => some m
  | m, f :: fs =>
    match step m f with
    | some m' => applyAll step m' fs
    | none => none

/-- 8 byte groups of a packed field; `none` if the length is no multiple of 8. (comm/packages.proto:22-23) -/
def unpack (bs : Bytes) : Option (List UInt64) :=
  if bs = [] then some []
  else if h : bs.length < 8 then none
  else
    match unpack (bs.drop 8) with
    | some vs => some (UInt64.ofNat (leNat (bs.take 8)) :: vs)
    | none => none
termination_by bs.length
decreasing_by simp; omega

/-- github.com/golang/protobuf (proto.Unmarshal, comm/package_util.go:67, 82), for comm/packages.proto:4-7 -/
def sEnvelope (m : Envelope) : Field → Option Envelope
  | (1, .len s) => if utf8Valid s then some { m with type := s } else none
  | (2, .len s) => some { m with data := s }
  | _ => some m

/-- github.com/golang/protobuf (proto.Unmarshal, comm/package_util.go:67, 82), for comm/packages.proto:9-11 -/
def sTimeSyncRequest (m : TimeSyncRequest) : Field → Option TimeSyncRequest
  | (1, .varint v) => some { m with clientSend := v.toInt64 }
  | _ => some m

/-- github.com/golang/protobuf (proto.Unmarshal, comm/package_util.go:67, 82), for comm/packages.proto:13-17 -/
def sTimeSyncResponse (m : TimeSyncResponse) : Field → Option TimeSyncResponse
  | (1, .varint v) => some { m with clientSendTime := v.toInt64 }
  | (2, .varint v) => some { m with serverRecvTime := v.toInt64 }
  | (3, .varint v) => some { m with serverSendTime := v.toInt64 }
  | _ => some m

/-- github.com/golang/protobuf (proto.Unmarshal, comm/package_util.go:67, 82), for comm/packages.proto:19-25 -/
def sQueueChunkRequest (m : QueueChunkRequest) : Field → Option QueueChunkRequest
  | (1, .varint v) => some { m with startTime := v.toInt64 }
  | (2, .varint v) => some { m with chunkId := v.toInt64 }
  | (3, .len s) => match unpack s with | some vs => some { m with sampleLow := m.sampleLow ++ vs } | none => none
  | (3, .i64 v) => some { m with sampleLow := m.sampleLow ++ [v] }
  | (4, .len s) => match unpack s with | some vs => some { m with sampleHigh := m.sampleHigh ++ vs } | none => none
  | (4, .i64 v) => some { m with sampleHigh := m.sampleHigh ++ [v] }
  | (5, .varint v) => some { m with firstSampleIndex := v }
  | _ => some m

/-- github.com/golang/protobuf (proto.Unmarshal, comm/package_util.go:67, 82), for comm/packages.proto:33-35 -/
def sSetVolumeRequest (m : SetVolumeRequest) : Field → Option SetVolumeRequest
  | (1, .i64 v) => some { m with volume := v }
  | _ => some m

/-- github.com/golang/protobuf (proto.Unmarshal, comm/package_util.go:67, 82), for comm/packages.proto:37-39 -/
def sSubscribeChannelRequest (m : SubscribeChannelRequest) : Field → Option SubscribeChannelRequest
  | (1, .varint v) => some { m with channel := v.toInt64.toInt32 }
  | _ => some m

/-- github.com/golang/protobuf (proto.Unmarshal, comm/package_util.go:67, 82), for comm/packages.proto:47-50 -/
def sAtom (m : Atom) : Field → Option Atom
  | (1, .varint v) => some { m with timestamp := v.toInt64 }
  | (2, .len s) => if utf8Valid s then some { m with caption := s } else none
  | _ => some m

/-- Decode an embedded message into `m`. (comm/packages.proto:63-64) -/
def merge {M : Type} (step : M → Field → Option M) (m : M) (bs : Bytes) : Option M :=
  match decFields bs with
  | some fs => applyAll step m fs
  | none => none

/-- github.com/golang/protobuf (proto.Unmarshal, comm/package_util.go:67, 82), for comm/packages.proto:51-53 -/
def sLine (m : Line) : Field → Option Line
  | (1, .len s) => match merge sAtom {} s with | some a => some { m with atoms := m.atoms ++ [a] } | none => none
  | _ => some m

/-- github.com/golang/protobuf (proto.Unmarshal, comm/package_util.go:67, 82), for comm/packages.proto:54-58 -/
def sMetadata (m : Metadata) : Field → Option Metadata
  | (1, .len s) => if utf8Valid s then some { m with title := s } else none
  | (2, .len s) => if utf8Valid s then some { m with artist := s } else none
  | (3, .len s) => if utf8Valid s then some { m with album := s } else none
  | _ => some m

/-- github.com/golang/protobuf (proto.Unmarshal, comm/package_util.go:67, 82), for comm/packages.proto:46-65 -/
def sNewSongInfo (m : NewSongInfo) : Field → Option NewSongInfo
  | (1, .varint v) => some { m with firstSampleOfSongIndex := v }
  | (2, .len s) => if utf8Valid s then some { m with songFileName := s } else none
  | (3, .varint v) => some { m with songLength := v.toInt64 }
  | (4, .len s) => match merge sLine {} s with | some l => some { m with lyrics := m.lyrics ++ [l] } | none => none
  | (5, .len s) => match merge sMetadata (m.metadata.getD {}) s with | some md => some { m with metadata := some md } | none => none
  | _ => some m

/-- github.com/golang/protobuf (proto.Unmarshal, comm/package_util.go:67, 82), for comm/packages.proto:67-71 -/
def sChunkInfo (m : ChunkInfo) : Field → Option ChunkInfo
  | (1, .varint v) => some { m with startTime := v.toInt64 }
  | (2, .varint v) => some { m with firstSampleIndex := v }
  | (3, .varint v) => some { m with chunkSize := v }
  | _ => some m

/-- github.com/golang/protobuf (proto.Unmarshal, comm/package_util.go:67, 82), for comm/packages.proto:73-76 -/
def sPauseInfo (m : PauseInfo) : Field → Option PauseInfo
  | (1, .varint v) => some { m with playing := v != 0 }
  | (2, .varint v) => some { m with toggleSampleIndex := v }
  | _ => some m

/-- Interpret the fields of a message of type `t`. (comm/packages.proto:4-76) -/
def interpret (t : MType) (fs : List Field) : Option Msg :=
  match t with
  | .envelope => (applyAll sEnvelope {} fs).map .envelope
  | .timeSyncRequest => (applyAll sTimeSyncRequest {} fs).map .timeSyncRequest
  | .timeSyncResponse => (applyAll sTimeSyncResponse {} fs).map .timeSyncResponse
  | .queueChunkRequest => (applyAll sQueueChunkRequest {} fs).map .queueChunkRequest
  | .pingMessage => some .pingMessage
  | .pongMessage => some .pongMessage
  | .setVolumeRequest => (applyAll sSetVolumeRequest {} fs).map .setVolumeRequest
  | .subscribeChannelRequest => (applyAll sSubscribeChannelRequest {} fs).map .subscribeChannelRequest
  | .newSongInfo => (applyAll sNewSongInfo {} fs).map .newSongInfo
  | .songLyricsAtom => (applyAll sAtom {} fs).map .songLyricsAtom
  | .songLyricsLine => (applyAll sLine {} fs).map .songLyricsLine
  | .songMetadata => (applyAll sMetadata {} fs).map .songMetadata
  | .chunkInfo => (applyAll sChunkInfo {} fs).map .chunkInfo
  | .pauseInfo => (applyAll sPauseInfo {} fs).map .pauseInfo

/-- `proto.Unmarshal` into a fresh message of type `t`. (comm/package_util.go:67, 82) -/
def unmarshal (t : MType) (bs : Bytes) : Option Msg :=
  match decFields bs with
  | some fs => interpret t fs
  | none => none

end MS.Proto
