import Verif.Model.Flags
import Verif.Model.Numbers
import Verif.Model.Logging
/-!
# The words of the command line

How `app.Run(os.Args)` (cmd/music-sync-server/main.go:41, cmd/music-sync-player/main.go:28, cmd/music-sync-infoer/main.go:30)
turns the words behind the program's name into the options of `Verif.Model.Flags`: Go's flag package (`FlagSet.Parse`), the
readers of values it uses (`strconv.ParseInt` and `ParseUint` with base 0, `time.ParseDuration`, `strconv.ParseBool`), Go 1.14,
and `App.Run` of urfave/cli 1.22.4 (go.mod), all from memory. Words are lists of characters; Go goes by bytes, which makes no
difference, since all tests are for ASCII characters (and for the two spellings of µ). What is printed is left out.
-/
namespace MS.CommandLine
open MS.Flags MS.Float64

/-- A word. (cmd/music-sync-server/main.go:41) -/
abbrev Word := List Char

/-! ## Numbers -/

/-- The value of a digit or letter for `strconv.ParseUint` (cmd/flags.go:118-122) -/
def digit (c : Char) : Option Nat :=
  if 48 ≤ c.toNat ∧ c.toNat ≤ 57 then some (c.toNat - 48)
  else if 97 ≤ c.toNat ∧ c.toNat ≤ 122 then some (c.toNat - 97 + 10)
  else if 65 ≤ c.toNat ∧ c.toNat ≤ 90 then some (c.toNat - 65 + 10)
  else none

/-- strconv.ParseUint, the loop: the value and whether there have been underscores; its tests for overflow are written as one
(cmd/flags.go:118-122) -/
def uintLoop (base n : Nat) (under : Bool) : List Char → Option (Nat × Bool)
  | [] => some (n, under)
  | c :: cs =>
    if c = '_' then uintLoop base n true cs
    else
      match digit c with
      | none => none
      | some d =>
        if base ≤ d then none
        else if 2 ^ 64 ≤ n * base + d then none
        else uintLoop base (n * base + d) under cs

/-- strconv.ParseUint with base 0: the base and what follows its prefix (cmd/flags.go:118-122) -/
def baseOf : List Char → Nat × List Char
  | '0' :: x :: c :: cs =>
    if x = 'b' ∨ x = 'B' then (2, c :: cs)
    else if x = 'o' ∨ x = 'O' then (8, c :: cs)
    else if x = 'x' ∨ x = 'X' then (16, c :: cs)
    else (8, x :: c :: cs)
  | '0' :: cs => (8, cs)
  | cs => (10, cs)

/-- strconv.ParseUint(s, 0, 64) (cmd/flags.go:222-226, 118-122) -/
def parseUint (s : List Char) : Option Nat :=
  if s = [] then none
  else
    match uintLoop (baseOf s).1 0 false (baseOf s).2 with
    | none => none
    | some (n, under) => if under && !Numbers.underscoreOK s then none else some n

/-- strconv.ParseInt(s, 0, 64) (cmd/flags.go:118-122) -/
def parseInt (s : List Char) : Option Int :=
  match parseUint (Numbers.sign s).2 with
  | none => none
  | some un =>
    if (Numbers.sign s).1 then (if 2 ^ 63 < un then none else some (-(un : Int)))
    else if 2 ^ 63 ≤ un then none else some un

/-! ## Durations -/

/-- time.ParseDuration's `leadingInt`: the number and the rest (cmd/flags.go:189-205) -/
def leadingInt (x : Nat) : List Char → Option (Nat × List Char)
  | [] => some (x, [])
  | c :: cs =>
    if Numbers.isDec c then
      if (2 ^ 63 - 1) / 10 < x then none
      else if 2 ^ 63 ≤ x * 10 + (c.toNat - 48) then none
      else leadingInt (x * 10 + (c.toNat - 48)) cs
    else some (x, c :: cs)

/-- time.ParseDuration's `leadingFraction`: the digits as a number, the power of ten, and the rest; digits that no longer fit
are skipped (cmd/flags.go:189-205) -/
def leadingFraction (x : Nat) (scale : F) (overflow : Bool) : List Char → Nat × F × List Char
  | [] => (x, scale, [])
  | c :: cs =>
    if Numbers.isDec c then
      if overflow then leadingFraction x scale true cs
      else if (2 ^ 63 - 1) / 10 < x then leadingFraction x scale true cs
      else if 2 ^ 63 ≤ x * 10 + (c.toNat - 48) then leadingFraction x scale true cs
      else leadingFraction (x * 10 + (c.toNat - 48)) (mul scale (ofInt 10)) false cs
    else (x, scale, c :: cs)

/-- time's `unitMap`: nanoseconds in a unit (cmd/flags.go:189-205) -/
def unitOf (u : List Char) : Option Nat :=
  if u = ['n', 's'] then some 1
  else if u = ['u', 's'] ∨ u = ['\u00B5', 's'] ∨ u = ['\u03BC', 's'] then some 1000
  else if u = ['m', 's'] then some 1000000
  else if u = ['s'] then some 1000000000
  else if u = ['m'] then some 60000000000
  else if u = ['h'] then some 3600000000000
  else none

/-- `int64(x)`: towards zero. Infinity and NaN do not occur. (cmd/flags.go:189-205) -/
def trunc : F → Nat
  | .fin z => z.toNat / one
  | _ => 0

/-- `int64(float64(f) * (float64(unit) / scale))` of time.ParseDuration (cmd/flags.go:189-205) -/
def fractionNs (f unit : Nat) (scale : F) : Nat := trunc (mul (ofInt f) (div (ofInt unit) scale))

/-- The end of a unit's name (time.ParseDuration, cmd/flags.go:189-205) -/
def notUnit (c : Char) : Bool := c = '.' || Numbers.isDec c

/-- time.ParseDuration, one turn of the loop: the nanoseconds and the rest (cmd/flags.go:189-205) -/
def durPart (s : List Char) : Option (Nat × List Char) :=
  match leadingInt 0 s with
  | none => none
  | some (v, s1) =>
    let pre : Bool := decide (s1.length ≠ s.length)
    let (f, scale, s2, post) : Nat × F × List Char × Bool :=
      match s1 with
      | '.' :: s' => let r := leadingFraction 0 (ofInt 1) false s'; (r.1, r.2.1, r.2.2, decide (r.2.2.length ≠ s'.length))
      | _ => (0, ofInt 1, s1, false)
    if !pre && !post then none
    else
      let u := s2.takeWhile (fun c => !notUnit c)
      let rest := s2.dropWhile (fun c => !notUnit c)
      if u = [] then none
      else
        match unitOf u with
        | none => none
        | some unit =>
          if (2 ^ 63 - 1) / unit < v then none
          else
            let v := v * unit
            let v := if 0 < f then v + fractionNs f unit scale else v
            if 2 ^ 63 ≤ v then none else some (v, rest)

/-- time.ParseDuration, the loop; the number of turns is bounded by the length, as each consumes something
(cmd/flags.go:189-205) -/
def durLoop : Nat → Nat → List Char → Option Nat
  | _, d, [] => some d
  | 0, _, _ :: _ => none
  | n + 1, d, c :: cs =>
    if c = '.' || Numbers.isDec c then
      match durPart (c :: cs) with
      | none => none
      | some (v, rest) => if 2 ^ 63 ≤ d + v then none else durLoop n (d + v) rest
    else none

/-- time.ParseDuration (cmd/flags.go:189-205) -/
def parseDuration (t : List Char) : Option Int :=
  let (neg, s) := Numbers.sign t
  if s = ['0'] then some 0
  else if s = [] then none
  else (durLoop s.length 0 s).map fun (d : Nat) => if neg then -(d : Int) else (d : Int)

/-! ## Options -/

/-- The types of flags: `cli.StringFlag`, `IntFlag`, `UintFlag`, `DurationFlag`, and `BoolFlag` for help and version.
(cmd/flags.go:110-228) -/
inductive Kind where
  | text
  | int
  | uint
  | dur
  | switch
  deriving DecidableEq

/-- What an option sets. (cmd/flags.go:110-228) -/
inductive Given where
  | val (v : Val)
  | on (b : Bool)
  deriving DecidableEq

/-- strconv.ParseBool (cmd/flags.go:96-105, for help and version) -/
def parseBool (s : List Char) : Option Bool :=
  if s ∈ ["1", "t", "T", "TRUE", "true", "True"].map String.toList then some true
  else if s ∈ ["0", "f", "F", "FALSE", "false", "False"].map String.toList then some false
  else none

/-- `flag.Value.Set` (cmd/flags.go:110-228) -/
def setValue (k : Kind) (s : List Char) : Option Given :=
  match k with
  | .text => some (.val (.str s))
  | .int => (parseInt s).map fun n => .val (.int n)
  | .uint => (parseUint s).map fun (n : Nat) => .val (.int (Int.ofNat n))
  | .dur => (parseDuration s).map fun n => .val (.dur n)
  | .switch => (parseBool s).map .on

/-- The flags a program knows: every name with its type. (cmd/music-sync-server/main.go:21) -/
abbrev Formal := List (List Char × Kind)

/-- The part of a word before `=` and that behind it; the first character is not looked at (flag's `parseOne`,
cmd/music-sync-server/main.go:41) -/
def cutEquals : List Char → List Char × Option (List Char)
  | [] => ([], none)
  | c :: cs =>
    match cs with
    | [] => ([c], none)
    | d :: ds => if d = '=' then ([c], some ds) else let r := cutEquals cs; (c :: r.1, r.2)

/-- flag's `Parse` and `parseOne`: the options in order and the words left over; `none`: an error, or the built-in help
(cmd/music-sync-server/main.go:41) -/
def parseWords (formal : Formal) : List Word → Option (List (List Char × Given) × List Word)
  | [] => some ([], [])
  | s :: args =>
    match s with
    | '-' :: c :: cs =>
      if c = '-' ∧ cs = [] then some ([], args)
      else
        let name := if c = '-' then cs else c :: cs
        if name.head? = some '-' ∨ name.head? = some '=' then none
        else
          let (name, value) := cutEquals name
          match formal.lookup name with
          | none => none
          | some .switch =>
            match setValue .switch (value.getD "true".toList) with
            | none => none
            | some v => (parseWords formal args).map fun r => ((name, v) :: r.1, r.2)
          | some k =>
            match value, args with
            | some t, args =>
              match setValue k t with
              | none => none
              | some v => (parseWords formal args).map fun r => ((name, v) :: r.1, r.2)
            | none, t :: args =>
              match setValue k t with
              | none => none
              | some v => (parseWords formal args).map fun r => ((name, v) :: r.1, r.2)
            | none, [] => none
    | _ => some ([], s :: args)

/-- The type of a flag of the programs. (cmd/flags.go:110-228) -/
def kindOf (f : Flag) : Kind :=
  if f = lyricsHistorySizeFlag then .uint
  else
    match f.value with
    | .str _ => .text
    | .int _ => .int
    | .dur _ => .dur

/-- The names of the flags cmd/flags.go:54-63 adds: one per logger, and the default -/
def loggingNames : List (List Char) := Logging.loggingFlags.map Logging.flagName ++ ["logging".toList]

/-- The flags of the library: `HelpFlag` and `VersionFlag` (cmd/flags.go:96-105) -/
def switches : List (List (List Char)) := [["help".toList, "h".toList], ["version".toList, "v".toList]]

/-- All names; `logging`: with those of `cmd.AddLoggingFlags` (cmd/music-sync-server/main.go:21-38,
cmd/music-sync-player/main.go:21-26; without: cmd/music-sync-infoer/main.go:22-28) -/
def formalOf (logging : Bool) (flags : Flags) : Formal :=
  flags.flatMap (fun f => (names f).map fun n => (n, kindOf f)) ++
    (if logging then loggingNames.map (fun n => (n, .text)) else []) ++
    switches.flatMap fun ns => ns.map fun n => (n, .switch)

/-- The options of `Verif.Model.Flags`: those that are not for logging and no switches (cmd/music-sync-server/main.go:71) -/
def settings (opts : List (List Char × Given)) : Args :=
  opts.filterMap fun o =>
    match o.2 with
    | .val v => if o.1 ∈ loggingNames then none else some (o.1, v)
    | .on _ => none

/-- `ctx.String` of a logging flag (cmd/flags.go:80-94) -/
def loggingCtx (opts : List (List Char × Given)) (key : List Char) : List Char :=
  match opts.reverse.find? (fun o => o.1 == key) with
  | some (_, .val (.str s)) => s
  | _ => []

/-- A switch is given under two names (urfave/cli `normalizeFlags`, cmd/music-sync-server/main.go:41) -/
def twoForms (opts : List (List Char × Given)) (ns : List (List Char)) : Bool :=
  decide (1 < (ns.filter fun n => opts.any fun o => o.1 == n).length)

/-- A switch is on (urfave/cli `checkHelp`, `checkVersion`, cmd/music-sync-server/main.go:41) -/
def isOn (opts : List (List Char × Given)) (ns : List (List Char)) : Bool :=
  match opts.reverse.find? (fun o => ns.contains o.1) with
  | some (_, .on b) => b
  | _ => false

/-- What `app.Run` does: an error and exit code 1 for wrong usage, only showing something (help, version, completions; then
the exit code is not modelled), or the program's `run` with these options. (cmd/music-sync-server/main.go:41-44) -/
inductive Outcome where
  | failed
  | shown
  | runs (opts : List (List Char × Given))
  deriving DecidableEq

/-- urfave/cli `App.Run`. Simplification: the order of two errors in the same line is not modelled: with completions asked
for, two names of one option and an error in the words, this says `shown`. (cmd/music-sync-server/main.go:41) -/
def appRun (logging : Bool) (flags : Flags) (words : List Word) : Outcome :=
  let complete : Bool := words.getLast? = some "--generate-bash-completion".toList
  match parseWords (formalOf logging flags) (if complete then words.dropLast else words) with
  | none => if complete then .shown else .failed
  | some (opts, rest) =>
    if !accepted flags (settings opts) || switches.any (twoForms opts) then .failed
    else if complete then .shown
    else if switches.any (isOn opts) then .shown
    else if rest.head? = some "help".toList ∨ rest.head? = some "h".toList then .shown
    else .runs opts

/-- cmd/music-sync-server/main.go:71-109, from the words; `none`: it does not start -/
def server (words : List Word) : Option ServerUses :=
  match appRun true serverFlags words with
  | .runs opts => Flags.server (settings opts)
  | _ => none

/-- cmd/music-sync-player/main.go:34-55, from the words -/
def player (words : List Word) : Option ClientUses :=
  match appRun true playerFlags words with
  | .runs opts => Flags.player (settings opts)
  | _ => none

/-- cmd/music-sync-infoer/main.go:38-64, from the words; the conversion of line 47 from uint to int is left out -/
def infoer (words : List Word) : Option ClientUses :=
  match appRun false infoerFlags words with
  | .runs opts => Flags.infoer (settings opts)
  | _ => none

/-- cmd/music-sync-server/main.go:72 and cmd/music-sync-player/main.go:35, with cmd/flags.go:80-94: the log levels after a
start of the server or the player -/
def logLevels (byName : List Char → Int) (flags : Flags) (words : List Word) : Option Logging.Cutoffs :=
  match appRun true flags words with
  | .runs opts => some (Logging.handleFlags byName (loggingCtx opts) Logging.init)
  | _ => none

/-- cmd/music-sync-infoer/main.go:39-40: the log levels after a start of the infoer -/
def infoerLevels (words : List Word) : Option Logging.Cutoffs :=
  match appRun false infoerFlags words with
  | .runs _ => some { Logging.init with dflt := Logging.off }
  | _ => none

end MS.CommandLine
