import Verif.Model.GoBase
import Verif.Model.VolumeLine
import Verif.Model.Commands
/-!
# The numbers typed on the console

`strconv.Atoi` and `strconv.ParseFloat` (Go 1.14, see go.mod; from memory) as schedule/server_state_commands.go:17 and 35
call them. Go works on bytes, the model on characters: a character outside ASCII is rejected either way. Simplification of
`ParseFloat`: of its ways to compute the bits (exact float arithmetic, extended floats, multiprecision decimals) only the
documented result is modelled, the nearest float64, ties to even; the syntax is modelled as it is, with the clipping of
exponents.
-/
namespace MS.Numbers
open MS.Float64

/-- A decimal digit (strconv.Atoi, schedule/server_state_commands.go:35) -/
def isDec (c : Char) : Bool := decide (48 ≤ c.toNat ∧ c.toNat ≤ 57)

/-- strconv.Atoi: the loop of the fast path, with 64 bit arithmetic (schedule/server_state_commands.go:35) -/
def fast (n : Int) : List Char → Option Int
  | [] => some n
  | c :: cs => if isDec c then fast (wrap64 (wrap64 (n * 10) + (c.toNat - 48 : Nat))) cs else none

/-- strconv.ParseUint in base 10: the loop, with its two tests for overflow (schedule/server_state_commands.go:35) -/
def parseUint (n : Nat) : List Char → Option Nat
  | [] => some n
  | c :: cs =>
    if isDec c then
      if 1844674407370955162 ≤ n then none
      else
        let n10 := n * 10 % 2 ^ 64
        let n1 := (n10 + (c.toNat - 48)) % 2 ^ 64
        if n1 < n10 then none else parseUint n1 cs
    else none

/-- An optional sign: whether it is a minus, and the rest (strconv.Atoi and strconv.ParseFloat,
schedule/server_state_commands.go:17, 35) -/
def sign : List Char → Bool × List Char
  | '-' :: cs => (true, cs)
  | '+' :: cs => (false, cs)
  | cs => (false, cs)

/-- strconv.ParseInt in base 10 (schedule/server_state_commands.go:35) -/
def parseInt (s : List Char) : Option Int :=
  if s = [] then none
  else
    let (neg, ds) := sign s
    if ds = [] then none
    else
      match parseUint 0 ds with
      | none => none
      | some un =>
        if !neg && decide (2 ^ 63 ≤ un) then none
        else if neg && decide (2 ^ 63 < un) then none
        else if neg then some (wrap64 (-wrap64 un)) else some (wrap64 un)

/-- strconv.Atoi (schedule/server_state_commands.go:35) -/
def atoi (s : List Char) : Option Int :=
  if 0 < s.length ∧ s.length < 19 then
    let (neg, ds) := sign s
    if ds = [] then none
    else (fast 0 ds).map fun n => if neg then wrap64 (-n) else n
  else parseInt s

/-- A digit of base 10 or 16 (strconv.ParseFloat, schedule/server_state_commands.go:17) -/
def digitVal (hex : Bool) (c : Char) : Option Nat :=
  if isDec c then some (c.toNat - 48)
  else if hex && decide (97 ≤ c.toNat ∧ c.toNat ≤ 102) then some (c.toNat - 87)
  else if hex && decide (65 ≤ c.toNat ∧ c.toNat ≤ 70) then some (c.toNat - 55)
  else none

/-- The variables of the loop over the mantissa (strconv.ParseFloat, schedule/server_state_commands.go:17): all digits are
kept, also those beyond the first 19 -/
structure Mant where
  sawdot : Bool := false
  sawdigits : Bool := false
  nd : Nat := 0
  dp : Int := 0
  value : Nat := 0
  underscores : Bool := false

/-- strconv.ParseFloat: the loop over the mantissa, and what is left (schedule/server_state_commands.go:17) -/
def mantissa (hex : Bool) (m : Mant) : List Char → Mant × List Char
  | [] => (m, [])
  | c :: cs =>
    if c = '_' then mantissa hex { m with underscores := true } cs
    else if c = '.' then
      if m.sawdot then (m, c :: cs) else mantissa hex { m with sawdot := true, dp := m.nd } cs
    else
      match digitVal hex c with
      | none => (m, c :: cs)
      | some d =>
        if c = '0' ∧ m.nd = 0 then mantissa hex { m with sawdigits := true, dp := m.dp - 1 } cs
        else mantissa hex { m with sawdigits := true, nd := m.nd + 1, value := m.value * (if hex then 16 else 10) + d } cs

/-- strconv.ParseFloat: the loop over the exponent: exponent, underscores seen, what is left
(schedule/server_state_commands.go:17) -/
def expDigits (e : Nat) (u : Bool) : List Char → Nat × Bool × List Char
  | [] => (e, u, [])
  | c :: cs =>
    if isDec c then expDigits (if e < 10000 then e * 10 + (c.toNat - 48) else e) u cs
    else if c = '_' then expDigits e true cs
    else (e, u, c :: cs)

/-- `lower` (strconv.ParseFloat, schedule/server_state_commands.go:17), for the letters it is used with -/
def isLetter (lo up c : Char) : Bool := c == lo || c == up

/-- strconv.ParseFloat: the optional exponent (schedule/server_state_commands.go:17); a hexadecimal number must have one -/
def exponent (hex : Bool) (s : List Char) : Option (Int × Bool × List Char) :=
  match s with
  | [] => if hex then none else some (0, false, [])
  | c :: cs =>
    if (if hex then isLetter 'p' 'P' c else isLetter 'e' 'E' c) then
      let (neg, ds) := sign cs
      match ds with
      | [] => none
      | d :: _ =>
        if isDec d then
          let (e, u, rest) := expDigits 0 false ds
          some ((if neg then -(e : Int) else e), u, rest)
        else none
    else if hex then none else some (0, false, c :: cs)

/-- What `underscoreOK` has seen last (strconv.ParseFloat, schedule/server_state_commands.go:17) -/
inductive Saw where
  | start
  | digit
  | under
  | other
  deriving DecidableEq

/-- strconv's `underscoreOK`, the loop (schedule/server_state_commands.go:17) -/
def underLoop (hex : Bool) (saw : Saw) : List Char → Bool
  | [] => decide (saw ≠ .under)
  | c :: cs =>
    if (digitVal hex c).isSome then underLoop hex .digit cs
    else if c = '_' then if saw = .digit then underLoop hex .under cs else false
    else if saw = .under then false
    else underLoop hex .other cs

/-- The prefixes of numbers in other bases (strconv.ParseFloat, schedule/server_state_commands.go:17) -/
def basePrefix (s : List Char) : Option (Bool × List Char) :=
  match s with
  | '0' :: c :: cs =>
    if isLetter 'x' 'X' c then some (true, cs)
    else if isLetter 'b' 'B' c || isLetter 'o' 'O' c then some (false, cs)
    else none
  | _ => none

/-- strconv's `underscoreOK` (schedule/server_state_commands.go:17) -/
def underscoreOK (s : List Char) : Bool :=
  let s := (sign s).2
  match basePrefix s with
  | some (hex, cs) => underLoop hex .digit cs
  | none => underLoop false .start s

/-- strconv.ParseFloat: is this the prefix of a hexadecimal number (schedule/server_state_commands.go:17) -/
def hexPrefix (s : List Char) : Option (List Char) :=
  match s with
  | '0' :: x :: c :: cs => if isLetter 'x' 'X' x then some (c :: cs) else none
  | _ => none

/-- strconv's `readFloat`: the sign, the digits, the base of the exponent (10 or 2) and the exponent
(schedule/server_state_commands.go:17) -/
def readFloat (s : List Char) : Option (Bool × Nat × Nat × Int) :=
  let (neg, body) := sign s
  let (hex, ds) := match hexPrefix body with
    | some ds => (true, ds)
    | none => (false, body)
  let (m, rest) := mantissa hex {} ds
  if !m.sawdigits then none
  else
    let dp := if m.sawdot then m.dp else m.nd
    let scale : Int := if hex then 4 else 1
    match exponent hex rest with
    | none => none
    | some (e, u, left) =>
      if left ≠ [] then none
      else if (m.underscores || u) && !underscoreOK s then none
      else some (neg, m.value, if hex then 2 else 10,
        if m.value = 0 then 0 else dp * scale + e - m.nd * scale)

/-- The bits of a finite float64 of `m` units of 2^-1074 (math.Float64frombits in strconv.ParseFloat,
schedule/server_state_commands.go:17) -/
def toBits (neg : Bool) (m : Nat) : UInt64 :=
  UInt64.ofNat ((if neg then 2 ^ 63 else 0) +
    (if m < 2 ^ 52 then m else (m.log2 - 51) * 2 ^ 52 + (m / 2 ^ (m.log2 - 52) - 2 ^ 52)))

/-- `n * base ^ e` as a float64 (strconv.ParseFloat, schedule/server_state_commands.go:17) -/
def nearest (n base : Nat) (e : Int) : F :=
  if 0 ≤ e then round ((n * base ^ e.toNat * one : Nat) : Int) 1 else round ((n * one : Nat) : Int) (base ^ (-e).toNat)

/-- Small letters (strconv's `equalIgnoreCase`, schedule/server_state_commands.go:17) -/
def lower (c : Char) : Char := if 65 ≤ c.toNat ∧ c.toNat ≤ 90 then Char.ofNat (c.toNat + 32) else c

/-- strconv's `special`: the names of the numbers that are none (schedule/server_state_commands.go:17) -/
def special (s : List Char) : Option UInt64 :=
  let l := s.map lower
  if l = "+inf".toList ∨ l = "+infinity".toList ∨ l = "inf".toList ∨ l = "infinity".toList then some 0x7FF0000000000000
  else if l = "-inf".toList ∨ l = "-infinity".toList then some 0xFFF0000000000000
  else if l = "nan".toList then some 0x7FF8000000000001
  else none

/-- strconv.ParseFloat(·, 64): the bits, or an error (schedule/server_state_commands.go:17); numbers that round to 2^1024
or more are errors -/
def parseFloat (s : List Char) : Option UInt64 :=
  match special s with
  | some b => some b
  | none =>
    match readFloat s with
    | none => none
    | some (neg, n, base, e) =>
      match nearest n base e with
      | .fin z => some (toBits neg z.natAbs)
      | _ => none

/-- What the commands call, with the numbers as they are read and written
(schedule/server_state_commands.go:17, 35, 171-173) -/
def ext (glob : String → Except (List Char) (List String)) (sendError : Option (List Char)) : Commands.Ext where
  atoi := fun s => atoi s.toList
  parseFloat := fun s => parseFloat s.toList
  glob := glob
  fmtFloat := volumeText
  sendError := sendError

end MS.Numbers
