import Verif.Model.Proto
import Verif.Model.Auth
import Verif.Model.SongInfo
import Verif.Model.GoBase
/-!
# The two JSON files of the server: users and lyrics

ssh/ssh.go `ReadUsersFile` and metadata/lyrics_provider.go `CollectLyrics` hand the content of a file to
`json.NewDecoder(f).Decode`, which reads one JSON value and stores it in a `map[string]UserAuth` or a `[]LyricsLine`.
encoding/json (Go 1.14, go.mod:3) is modelled as far as these two types need it: one value is read, what follows it is
not looked at; names of fields are found without regard to case; unknown names are skipped; `null` leaves a string or number as it
is; the first mismatch of types makes `Decode` fail as a whole in the end. The scanner of the library, which goes byte by byte with a
stack, is a recursive descent here; the bytes of a key given as a JSON array are an arbitrary function (`ext`).
-/
namespace MS.Json
open MS.Proto MS.SongInfo
open MS.Auth (UserAuth Users readUsers)

/-- A JSON value; numbers as they are spelled. (ssh/ssh.go:31, metadata/lyrics_provider.go:43) -/
inductive J where
  | null
  | bool (b : Bool)
  | num (text : Bytes)
  | str (s : Bytes)
  | arr (l : List J)
  | obj (l : List (Bytes × J))

/-- White space. (ssh/ssh.go:31, metadata/lyrics_provider.go:43) -/
def isWs (b : UInt8) : Bool := b == 32 || b == 9 || b == 13 || b == 10

/-- The next byte that is not white space is `c`. (ssh/ssh.go:31, metadata/lyrics_provider.go:43) -/
def expect (c : UInt8) (t : Bytes) : Option Bytes :=
  match t.dropWhile isWs with
  | b :: r => if b = c then some r else none
  | [] => none

/-- (ssh/ssh.go:31, metadata/lyrics_provider.go:43) -/
def isDigit (b : UInt8) : Bool := 48 ≤ b.toNat && b.toNat ≤ 57

/-- One or more digits. (ssh/ssh.go:31, metadata/lyrics_provider.go:43) -/
def digits (t : Bytes) : Option (Bytes × Bytes) :=
  if t.takeWhile isDigit = [] then none else some (t.takeWhile isDigit, t.dropWhile isDigit)

/-- The part of a number before the point: no leading zeros. (ssh/ssh.go:31, metadata/lyrics_provider.go:43) -/
def intPart (t : Bytes) : Option (Bytes × Bytes) :=
  match t with
  | c :: r => if c = 48 then some ([48], r) else digits t
  | [] => none

/-- The optional part from the point on. (ssh/ssh.go:31, metadata/lyrics_provider.go:43) -/
def fracPart (t : Bytes) : Option (Bytes × Bytes) :=
  match t with
  | c :: r => if c = 46 then (digits r).map fun x => (46 :: x.1, x.2) else some ([], t)
  | [] => some ([], [])

/-- The optional exponent. (ssh/ssh.go:31, metadata/lyrics_provider.go:43) -/
def expPart (t : Bytes) : Option (Bytes × Bytes) :=
  match t with
  | e :: r =>
    if e = 101 ∨ e = 69 then
      match r with
      | s :: r' => if s = 43 ∨ s = 45 then (digits r').map fun x => (e :: s :: x.1, x.2) else (digits r).map fun x => (e :: x.1, x.2)
      | [] => none
    else some ([], t)
  | [] => some ([], [])

/-- A number after its sign. (ssh/ssh.go:31, metadata/lyrics_provider.go:43) -/
def unsigned (t : Bytes) : Option (Bytes × Bytes) :=
  match intPart t with
  | none => none
  | some (a, t1) =>
    match fracPart t1 with
    | none => none
    | some (b, t2) => (expPart t2).map fun x => (a ++ b ++ x.1, x.2)

/-- A number. (ssh/ssh.go:31, metadata/lyrics_provider.go:43) -/
def number (t : Bytes) : Option (Bytes × Bytes) :=
  match t with
  | c :: r => if c = 45 then (unsigned r).map fun x => (45 :: x.1, x.2) else unsigned t
  | [] => none

/-- (ssh/ssh.go:31, metadata/lyrics_provider.go:43) -/
def hexVal (b : UInt8) : Option Nat :=
  let n := b.toNat
  if 48 ≤ n ∧ n ≤ 57 then some (n - 48)
  else if 97 ≤ n ∧ n ≤ 102 then some (n - 87)
  else if 65 ≤ n ∧ n ≤ 70 then some (n - 55)
  else none

/-- The byte a short escape stands for. (ssh/ssh.go:31, metadata/lyrics_provider.go:43) -/
def escVal (b : UInt8) : Option UInt8 :=
  if b = 34 then some 34 else if b = 92 then some 92 else if b = 47 then some 47 else if b = 98 then some 8
  else if b = 102 then some 12 else if b = 110 then some 10 else if b = 114 then some 13 else if b = 116 then some 9 else none

/-- The text of a string up to its closing quote, as it is written. State 0: in the string, 1: behind a backslash, k + 2: k + 1
hexadecimal digits are expected. (ssh/ssh.go:31, metadata/lyrics_provider.go:43) -/
def raw : Nat → Bytes → Option (Bytes × Bytes)
  | _, [] => none
  | 0, b :: t =>
    if b = 34 then some ([], t)
    else if b = 92 then (raw 1 t).map fun x => (b :: x.1, x.2)
    else if b.toNat < 32 then none
    else (raw 0 t).map fun x => (b :: x.1, x.2)
  | 1, b :: t =>
    if b = 117 then (raw 5 t).map fun x => (b :: x.1, x.2)
    else if (escVal b).isSome then (raw 0 t).map fun x => (b :: x.1, x.2)
    else none
  | k + 2, b :: t =>
    if (hexVal b).isSome then (raw (if k = 0 then 0 else k + 1) t).map fun x => (b :: x.1, x.2)
    else none

/-- The number after `\u`, if `t` begins so. (ssh/ssh.go:31, metadata/lyrics_provider.go:43) -/
def getu4 (t : Bytes) : Option Nat :=
  match t with
  | x :: y :: a :: b :: c :: d :: _ =>
    if x = 92 ∧ y = 117 then
      match hexVal a, hexVal b, hexVal c, hexVal d with
      | some a, some b, some c, some d => some (((a * 16 + b) * 16 + c) * 16 + d)
      | _, _, _, _ => none
    else none
  | _ => none

/-- `utf8.EncodeRune`. (ssh/ssh.go:31, metadata/lyrics_provider.go:43) -/
def rune (n : Nat) : Bytes := String.utf8EncodeChar (Char.ofNat n)

/-- U+FFFD, for what is not a character. (ssh/ssh.go:31, metadata/lyrics_provider.go:43) -/
def replacement : Bytes := [0xEF, 0xBF, 0xBD]

/-- The second half of a surrogate pair, if `t` begins with one that fits. (ssh/ssh.go:31, metadata/lyrics_provider.go:43) -/
def low (n : Nat) (t : Bytes) : Option Nat :=
  match getu4 t with
  | some m => if n < 0xDC00 ∧ 0xDC00 ≤ m ∧ m < 0xE000 then some m else none
  | none => none

/-- What a string as it is written stands for; the first argument: bytes already taken care of. Bytes that are not UTF-8 and lone
surrogates become U+FFFD. (ssh/ssh.go:31, metadata/lyrics_provider.go:43) -/
def unq : Nat → Bytes → Option Bytes
  | _, [] => some []
  | k + 1, _ :: t => unq k t
  | 0, b :: t =>
    if b = 92 then
      match t with
      | [] => none
      | c :: r =>
        if c = 117 then
          match getu4 (b :: c :: r) with
          | none => none
          | some n =>
            if 0xD800 ≤ n ∧ n < 0xE000 then
              match low n (r.drop 4) with
              | some m => (unq 11 t).map fun x => rune ((n - 0xD800) * 0x400 + (m - 0xDC00) + 0x10000) ++ x
              | none => (unq 5 t).map fun x => replacement ++ x
            else (unq 5 t).map fun x => rune n ++ x
        else
          match escVal c with
          | some e => (unq 1 t).map fun x => e :: x
          | none => none
    else if b = 34 ∨ b.toNat < 32 then none
    else if b.toNat < 128 then (unq 0 t).map fun x => b :: x
    else if utf8Valid ((b :: t).take 2) then (unq 1 t).map fun x => (b :: t).take 2 ++ x
    else if utf8Valid ((b :: t).take 3) then (unq 2 t).map fun x => (b :: t).take 3 ++ x
    else if utf8Valid ((b :: t).take 4) then (unq 3 t).map fun x => (b :: t).take 4 ++ x
    else (unq 0 t).map fun x => replacement ++ x

/-- A string behind its opening quote. (ssh/ssh.go:31, metadata/lyrics_provider.go:43) -/
def string (t : Bytes) : Option (Bytes × Bytes) :=
  match raw 0 t with
  | none => none
  | some (k, r) => (unq 0 k).map fun s => (s, r)

/-- `null`, `true`, `false` or a number. (ssh/ssh.go:31, metadata/lyrics_provider.go:43) -/
def literal (t : Bytes) : Option (J × Bytes) :=
  match dropPrefix? [110, 117, 108, 108] t with
  | some r => some (.null, r)
  | none =>
    match dropPrefix? [116, 114, 117, 101] t with
    | some r => some (.bool true, r)
    | none =>
      match dropPrefix? [102, 97, 108, 115, 101] t with
      | some r => some (.bool false, r)
      | none => (number t).map fun x => (.num x.1, x.2)
where
  /-- `t` without the word it begins with -/
  dropPrefix? : Bytes → Bytes → Option Bytes
    | [], t => some t
    | _ :: _, [] => none
    | a :: w, b :: t => if a = b then dropPrefix? w t else none

mutual
/-- One value; the first argument bounds the number of calls, twice the length of the text suffices.
(ssh/ssh.go:31, metadata/lyrics_provider.go:43) -/
def value : Nat → Bytes → Option (J × Bytes)
  | 0, _ => none
  | n + 1, t =>
    match expect 123 t with
    | some r =>
      match expect 125 r with
      | some r' => some (.obj [], r')
      | none => (members n r).map fun x => (.obj x.1, x.2)
    | none =>
      match expect 91 t with
      | some r =>
        match expect 93 r with
        | some r' => some (.arr [], r')
        | none => (elems n r).map fun x => (.arr x.1, x.2)
      | none =>
        match expect 34 t with
        | some r => (string r).map fun x => (.str x.1, x.2)
        | none => literal (t.dropWhile isWs)

/-- The elements of an array and its closing bracket. (ssh/ssh.go:31, metadata/lyrics_provider.go:43) -/
def elems : Nat → Bytes → Option (List J × Bytes)
  | 0, _ => none
  | n + 1, t =>
    match value n t with
    | none => none
    | some (v, r) =>
      match expect 93 r with
      | some r' => some ([v], r')
      | none =>
        match expect 44 r with
        | none => none
        | some r' => (elems n r').map fun x => (v :: x.1, x.2)

/-- The members of an object and its closing bracket. (ssh/ssh.go:31, metadata/lyrics_provider.go:43) -/
def members : Nat → Bytes → Option (List (Bytes × J) × Bytes)
  | 0, _ => none
  | n + 1, t =>
    match expect 34 t with
    | none => none
    | some r0 =>
      match string r0 with
      | none => none
      | some (k, r1) =>
        match expect 58 r1 with
        | none => none
        | some r2 =>
          match value n r2 with
          | none => none
          | some (v, r) =>
            match expect 125 r with
            | some r' => some ([(k, v)], r')
            | none =>
              match expect 44 r with
              | none => none
              | some r' => (members n r').map fun x => ((k, v) :: x.1, x.2)
end

/-- The first value in a file. (ssh/ssh.go:31, metadata/lyrics_provider.go:43) -/
def parse (t : Bytes) : Option J := (value (2 * t.length + 2) t).map Prod.fst

/-! ## Storing the value -/

/-- (ssh/ssh.go:17-18, metadata/lyrics_provider.go:13-14) -/
def lower (b : UInt8) : UInt8 := if 65 ≤ b.toNat ∧ b.toNat ≤ 90 then b + 32 else b

/-- The name of a field and a name in the file are equal up to case; the long s and the Kelvin sign count as s and k.
(ssh/ssh.go:17-18, metadata/lyrics_provider.go:13-14) -/
def foldEq : Bytes → Bytes → Bool
  | [], [] => true
  | [], _ :: _ => false
  | _ :: _, [] => false
  | n :: ns, k :: ks =>
    if lower k = lower n then foldEq ns ks
    else if lower n = 115 ∧ k = 0xC5 ∧ ks.take 1 = [0xBF] then foldEq ns (ks.drop 1)
    else if lower n = 107 ∧ k = 0xE2 ∧ ks.take 2 = [0x84, 0xAA] then foldEq ns (ks.drop 2)
    else false

/-- Into a field of type string. (ssh/ssh.go:17, metadata/lyrics_provider.go:14) -/
def setString (cur : Bytes) : J → Option Bytes
  | .null => some cur
  | .str s => some s
  | _ => none

/-- (ssh/ssh.go:18) -/
def b64val (b : UInt8) : Option Nat :=
  let n := b.toNat
  if 65 ≤ n ∧ n ≤ 90 then some (n - 65)
  else if 97 ≤ n ∧ n ≤ 122 then some (n - 71)
  else if 48 ≤ n ∧ n ≤ 57 then some (n + 4)
  else if n = 43 then some 62
  else if n = 47 then some 63
  else none

/-- `base64.StdEncoding` without line breaks. (ssh/ssh.go:18) -/
def b64go : Bytes → Option Bytes
  | [] => some []
  | a :: b :: c :: d :: r =>
    match b64val a, b64val b with
    | some a, some b =>
      if c = 61 then
        if d = 61 ∧ r = [] then some [UInt8.ofNat (a * 4 + b / 16)] else none
      else
        match b64val c with
        | none => none
        | some c =>
          if d = 61 then
            if r = [] then some [UInt8.ofNat (a * 4 + b / 16), UInt8.ofNat (b * 16 + c / 4)] else none
          else
            match b64val d with
            | none => none
            | some d =>
              (b64go r).map fun x => UInt8.ofNat (a * 4 + b / 16) :: UInt8.ofNat (b * 16 + c / 4) :: UInt8.ofNat (c * 64 + d) :: x
    | _, _ => none
  | _ => none

/-- (ssh/ssh.go:18) -/
def base64 (s : Bytes) : Option Bytes := b64go (s.filter fun b => !(b == 13 || b == 10))

/-- Into a field of type []byte. (ssh/ssh.go:18) -/
def setBytes (ext : Bytes → List J → Option Bytes) (cur : Bytes) : J → Option Bytes
  | .null => some []
  | .str s => base64 s
  | .arr l => ext cur l
  | _ => none

/-- The digits of a number. (metadata/lyrics_provider.go:13) -/
def digitsVal (t : Bytes) : Nat := t.foldl (fun a b => a * 10 + (b.toNat - 48)) 0

/-- `strconv.ParseInt(t, 10, 64)` of a JSON number. (metadata/lyrics_provider.go:13) -/
def parseInt (t : Bytes) : Option Int64 :=
  let ds := if t.head? = some 45 then t.drop 1 else t
  if ds.all isDigit then
    let i : Int := if t.head? = some 45 then -digitsVal ds else digitsVal ds
    if -2 ^ 63 ≤ i ∧ i < 2 ^ 63 then some (Int64.ofInt i) else none
  else none

/-- Into a field of type int64. (metadata/lyrics_provider.go:13) -/
def setInt (cur : Int64) : J → Option Int64
  | .null => some cur
  | .num t => parseInt t
  | _ => none

/-- Members are stored one after the other. (ssh/ssh.go:31, metadata/lyrics_provider.go:43) -/
def storeAll {α β : Type} (f : α → β → Option α) : α → List β → Option α
  | a, [] => some a
  | a, b :: l =>
    match f a b with
    | none => none
    | some a' => storeAll f a' l

/-- "password" (ssh/ssh.go:17) -/
def nPassword : Bytes := [112, 97, 115, 115, 119, 111, 114, 100]
/-- "pubKey" (ssh/ssh.go:18) -/
def nPubKey : Bytes := [112, 117, 98, 75, 101, 121]
/-- "timestamp" (metadata/lyrics_provider.go:13) -/
def nTimestamp : Bytes := [116, 105, 109, 101, 115, 116, 97, 109, 112]
/-- "caption" (metadata/lyrics_provider.go:14) -/
def nCaption : Bytes := [99, 97, 112, 116, 105, 111, 110]

/-- A `UserAuth`. (ssh/ssh.go:16-19) -/
def toUser (ext : Bytes → List J → Option Bytes) : J → Option UserAuth
  | .null => some ⟨[], []⟩
  | .obj ms =>
    storeAll (fun a m =>
      if foldEq nPassword m.1 then (setString a.password m.2).map fun p => { a with password := p }
      else if foldEq nPubKey m.1 then (setBytes ext a.pubKey m.2).map fun k => { a with pubKey := k }
      else some a) ⟨[], []⟩ ms
  | _ => none

/-- A `map[string]UserAuth`: the members as `Auth.readUsers` takes them. (ssh/ssh.go:30-31) -/
def toMembers (ext : Bytes → List J → Option Bytes) : List (Bytes × J) → Option (List (Bytes × Option UserAuth))
  | [] => some []
  | (k, v) :: ms =>
    match toUser ext v with
    | none => none
    | some a => (toMembers ext ms).map fun x => (k, some a) :: x

/-- ssh/ssh.go:25-35 `ReadUsersFile`: `file` is the content or why it cannot be opened, `why` the text of the decoder's error. -/
def readUsersFile (ext : Bytes → List J → Option Bytes) (name : Bytes) (file : Except Bytes Bytes) (why : Bytes) : Except Bytes Users :=
  match file with
  | .error e => .error (ascii "failed to open users file (" ++ name ++ ascii "): " ++ e)
  | .ok t =>
    match parse t with
    | some .null => .ok (readUsers [])
    | some (.obj ms) =>
      match toMembers ext ms with
      | some l => .ok (readUsers l)
      | none => .error (ascii "failed to decode users file (" ++ name ++ ascii "): " ++ why)
    | _ => .error (ascii "failed to decode users file (" ++ name ++ ascii "): " ++ why)

/-- All or nothing. (metadata/lyrics_provider.go:43-45) -/
def mapAll {α β : Type} (f : α → Option β) : List α → Option (List β)
  | [] => some []
  | a :: l =>
    match f a with
    | none => none
    | some b => (mapAll f l).map (b :: ·)

/-- A `LyricsAtom`. (metadata/lyrics_provider.go:12-15) -/
def toAtom : J → Option Word
  | .null => some ⟨0, []⟩
  | .obj ms =>
    storeAll (fun a m =>
      if foldEq nTimestamp m.1 then (setInt a.timestamp m.2).map fun x => { a with timestamp := x }
      else if foldEq nCaption m.1 then (setString a.caption m.2).map fun x => { a with caption := x }
      else some a) ⟨0, []⟩ ms
  | _ => none

/-- A `LyricsLine`. (metadata/lyrics_provider.go:18) -/
def toLine : J → Option (List Word)
  | .null => some []
  | .arr l => mapAll toAtom l
  | _ => none

/-- A `[]LyricsLine`. (metadata/lyrics_provider.go:41-47) -/
def toLyrics : J → Option Lyrics
  | .null => some []
  | .arr l => mapAll toLine l
  | _ => none

/-- The decoder `CollectLyrics` uses. (metadata/lyrics_provider.go:43) -/
def lyricsFile (t : Bytes) : Option Lyrics :=
  match parse t with
  | none => none
  | some v => toLyrics v

end MS.Json
