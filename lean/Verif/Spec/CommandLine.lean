import Verif.Props.NumberText
import Verif.Model.CommandLine
/-!
# What a command line means

The command line of the three programs, as their users write it: options with values, how numbers and times are written, and
where the options end. `Kind`, `Given` and `Val` are the types of options and values of the model; nothing else of it is used.
-/
namespace MS.CommandSpec
open MS.Numbers MS.CommandLine MS.Flags

/-! ## Whole numbers -/

/-- `s` is a whole number without a sign: decimal without a leading zero, octal with one, or binary, octal or hexadecimal with
a prefix; underscores may stand between digits and behind a prefix or the leading zero. -/
inductive Natural : List Char → Nat → Prop where
  | zero : Natural ['0'] 0
  | decimal {c s ds} : Digits false (c :: s) ds → c ≠ '0' → Natural (c :: s) (num 10 ds)
  | octal {u s ds} : (u = [] ∨ u = ['_']) → Digits false s ds → (∀ d ∈ ds, d < 8) → Natural ('0' :: (u ++ s)) (num 8 ds)
  | withPrefix {x base hex u s ds} :
      ((x = 'b' ∨ x = 'B') ∧ base = 2 ∧ hex = false ∨ (x = 'o' ∨ x = 'O') ∧ base = 8 ∧ hex = false ∨
        (x = 'x' ∨ x = 'X') ∧ base = 16 ∧ hex = true) →
      (u = [] ∨ u = ['_']) → Digits hex s ds → (∀ d ∈ ds, d < base) → Natural ('0' :: x :: (u ++ s)) (num base ds)

/-- `s` is the whole number `n`. -/
def Whole (s : List Char) (n : Int) : Prop := ∃ sg neg r m, s = sg ++ r ∧ Sign sg neg ∧ Natural r m ∧ n = sgn neg m

/-! ## Times -/

/-- Decimal digits only, possibly none. -/
inductive Plain : List Char → List Nat → Prop where
  | nil : Plain [] []
  | cons {c d s ds} : Digit false c d → Plain s ds → Plain (c :: s) (d :: ds)

/-- The units of time, in nanoseconds. -/
inductive Unit : List Char → Nat → Prop where
  | nano : Unit ['n', 's'] 1
  | micro {c} : c = 'u' ∨ c = '\u00B5' ∨ c = '\u03BC' → Unit [c, 's'] 1000
  | milli : Unit ['m', 's'] (1000 * 1000)
  | second : Unit ['s'] (1000 * 1000 * 1000)
  | minute : Unit ['m'] (60 * 1000 * 1000 * 1000)
  | hour : Unit ['h'] (60 * 60 * 1000 * 1000 * 1000)

/-- A number with a unit: the digits before and after the point, and the unit. -/
inductive Part : List Char → List Nat → List Nat → Nat → Prop where
  | whole {s i u unit} : Plain s i → i ≠ [] → Unit u unit → Part (s ++ u) i [] unit
  | pointed {s i t f u unit} : Plain s i → Plain t f → i ++ f ≠ [] → Unit u unit → Part (s ++ '.' :: (t ++ u)) i f unit

/-- One or more numbers with units. -/
inductive Parts : List Char → List (List Nat × List Nat × Nat) → Prop where
  | one {s i f unit} : Part s i f unit → Parts s [(i, f, unit)]
  | more {s i f unit t ps} : Part s i f unit → Parts t ps → Parts (s ++ t) ((i, f, unit) :: ps)

/-- The fraction is a whole number of nanoseconds, whatever its digits are. -/
def Short (p : List Nat × List Nat × Nat) : Prop := 10 ^ p.2.1.length ∣ p.2.2

/-- A part's time in nanoseconds, rounded down: `i * unit + f * unit / 10 ^ (digits of f)`. -/
def nanos (p : List Nat × List Nat × Nat) : Nat := num 10 p.1 * p.2.2 + num 10 p.2.1 * p.2.2 / 10 ^ p.2.1.length

/-- All parts together, each rounded down to nanoseconds. -/
def total (ps : List (List Nat × List Nat × Nat)) : Nat := (ps.map nanos).sum

/-- How many parts have a fraction that goes beyond nanoseconds. -/
def longs (ps : List (List Nat × List Nat × Nat)) : Nat := ps.countP fun p => decide (¬ 10 ^ p.2.1.length ∣ p.2.2)

/-- `s` is a time: parts with a sign in front of them, or a zero. -/
inductive Time : List Char → Bool → List (List Nat × List Nat × Nat) → Prop where
  | zero {sg neg} : Sign sg neg → Time (sg ++ ['0']) neg []
  | parts {sg neg s ps} : Sign sg neg → Parts s ps → Time (sg ++ s) neg ps

/-! ## Options -/

/-- What a program knows: the names of an option and what kind of value it takes. -/
abbrev Table := List (List String × Kind)

/-- `n` is a name of an option of kind `k`. -/
def Known (t : Table) (n : List Char) (k : Kind) : Prop := ∃ o ∈ t, o.2 = k ∧ ∃ m ∈ o.1, n = m.toList

/-- The options that every program has. -/
def common : Table := [(["help", "h"], .switch), (["version", "v"], .switch)]

/-- The options for logging. -/
def loggingOptions : Table :=
  ["comm-logging", "play-logging", "shed-logging", "ssh-logging", "time-logging", "logging"].map fun n => ([n], .text)

/-- The options of the server. -/
def serverTable : Table := [
  (["address", "addr", "a"], .text), (["port", "p"], .int), (["music-dir", "dir", "d"], .text),
  (["ssh-address", "ssh-addr", "sa"], .text), (["ssh-port", "sp"], .int), (["users-file", "users", "u"], .text),
  (["host-key", "key", "k"], .text), (["time-sync-interval"], .dur), (["time-sync-cycles"], .int),
  (["time-sync-cycle-delay"], .dur), (["stream-chunk-size"], .int), (["stream-start-delay"], .dur), (["stream-delay"], .dur),
  (["song-break-size"], .int), (["sample-rate"], .int)] ++ loggingOptions ++ common

/-- The options of the player. -/
def playerTable : Table :=
  [(["address", "addr", "a"], .text), (["port", "p"], .int), (["sample-rate"], .int)] ++ loggingOptions ++ common

/-- The options of the infoer. -/
def infoerTable : Table :=
  [(["address", "addr", "a"], .text), (["port", "p"], .int), (["sample-rate"], .int), (["lyrics-history-size"], .uint)] ++ common

/-- One dash or two. -/
def Dashes (d : List Char) : Prop := d = ['-'] ∨ d = ['-', '-']

/-- The words of a command line, the options on it with the texts of their values, and what is left of it. -/
inductive Line (t : Table) : List (List Char) → List (List Char × Kind × List Char) → List (List Char) → Prop where
  | done : Line t [] [] []
  | plain {w ws} : (∀ c cs, w ≠ '-' :: c :: cs) → Line t (w :: ws) [] (w :: ws)
  | stop {ws} : Line t (['-', '-'] :: ws) [] ws
  | separate {d n k v ws os rest} : Dashes d → Known t n k → k ≠ .switch → Line t ws os rest →
      Line t ((d ++ n) :: v :: ws) ((n, k, v) :: os) rest
  | joined {d n k v ws os rest} : Dashes d → Known t n k → Line t ws os rest →
      Line t ((d ++ n ++ '=' :: v) :: ws) ((n, k, v) :: os) rest
  | bare {d n ws os rest} : Dashes d → Known t n .switch → Line t ws os rest →
      Line t ((d ++ n) :: ws) ((n, .switch, "true".toList) :: os) rest

/-- The texts that turn a switch on or off. -/
inductive Truth : List Char → Bool → Prop where
  | on {s : String} : s ∈ ["1", "t", "T", "TRUE", "true", "True"] → Truth s.toList true
  | off {s : String} : s ∈ ["0", "f", "F", "FALSE", "false", "False"] → Truth s.toList false

/-- The value that a text stands for; what a time stands for is given by `time` (see property C120). -/
inductive Reads (time : List Char → Option Int) : Kind → List Char → Given → Prop where
  | text {s} : Reads time .text s (.val (.str s))
  | int {s n} : Whole s n → -2 ^ 63 ≤ n → n < 2 ^ 63 → Reads time .int s (.val (.int n))
  | uint {s n} : Natural s n → n < 2 ^ 64 → Reads time .uint s (.val (.int n))
  | dur {s n} : time s = some n → Reads time .dur s (.val (.dur n))
  | switch {s b} : Truth s b → Reads time .switch s (.on b)

/-- All values are read. -/
inductive AllRead (time : List Char → Option Int) :
    List (List Char × Kind × List Char) → List (List Char × Given) → Prop where
  | nil : AllRead time [] []
  | cons {n k v g os gs} : Reads time k v g → AllRead time os gs → AllRead time ((n, k, v) :: os) ((n, g) :: gs)

/-- No option is given under two names. -/
def OneName (t : Table) (opts : List (List Char × Given)) : Prop :=
  ∀ o ∈ t, ∀ n ∈ o.1, ∀ m ∈ o.1, ∀ a ∈ opts, ∀ b ∈ opts, a.1 = n.toList → b.1 = m.toList → n = m

/-- What was given last under one of the names. -/
def lastOf (names : List String) (opts : List (List Char × Given)) : Option Given :=
  ((opts.filter fun o => names.any fun n => n.toList == o.1).getLast?).map (·.2)

/-- The value of an option: the last one given under one of its names, or the default. -/
def valueOf (names : List String) (dflt : Val) (opts : List (List Char × Given)) : Val :=
  match lastOf names opts with
  | some (.val v) => v
  | _ => dflt

/-- The words start the program, with these options. -/
def Starts (time : List Char → Option Int) (t : Table) (words : List (List Char)) (opts : List (List Char × Given)) : Prop :=
  words.getLast? ≠ some "--generate-bash-completion".toList ∧
  (∃ texts rest, Line t words texts rest ∧ AllRead time texts opts ∧ rest.head? ≠ some "help".toList ∧
    rest.head? ≠ some "h".toList) ∧
  OneName t opts ∧ lastOf ["help", "h"] opts ≠ some (.on true) ∧ lastOf ["version", "v"] opts ≠ some (.on true)

/-- The words are wrong usage: they are no options with values, or an option is given under two names. -/
def Wrong (time : List Char → Option Int) (t : Table) (words : List (List Char)) : Prop :=
  ¬ ∃ texts rest opts, Line t words texts rest ∧ AllRead time texts opts ∧ OneName t opts

end MS.CommandSpec
