/-!
# logging/*.go and the logging flags of cmd/flags.go

Strings are lists of characters; the names of loggers are ASCII. `strings.ToLower` is a parameter `lower` that is assumed
to be right on ASCII only. Go iterates over a map in any order: the iteration over `LevelNames` is any permutation of it.
-/
namespace MS.Logging

/-- logging/level.go:8-20: trace 0, debug 1, info 2, warn 3, error 4, fatal 5, off 6; other values are possible -/
local notation "Level" => Int

/-- logging/level.go:11-20 LevelTrace -/
def trace : Level := 0
/-- logging/level.go:11-20 LevelDebug -/
def debug : Level := 1
/-- logging/level.go:11-20 LevelInfo -/
def info : Level := 2
/-- logging/level.go:11-20 LevelWarn -/
def warn : Level := 3
/-- logging/level.go:11-20 LevelError -/
def error : Level := 4
/-- logging/level.go:11-20 LevelFatal -/
def fatal : Level := 5
/-- logging/level.go:11-20 LevelOff -/
def off : Level := 6

/-- logging/level.go:43-46 -/
structure Names where
  full : List Char
  short : List Char
  deriving DecidableEq, Repr

/-- logging/level.go:33-40 -/
def levelNames : List (Level × Names) := [
  (trace, ⟨['T', 'R', 'A', 'C', 'E'], ['T', 'R', 'C']⟩),
  (debug, ⟨['D', 'E', 'B', 'U', 'G'], ['D', 'B', 'G']⟩),
  (info, ⟨['I', 'N', 'F', 'O'], ['I', 'N', 'F']⟩),
  (warn, ⟨['W', 'A', 'R', 'N'], ['W', 'R', 'N']⟩),
  (error, ⟨['E', 'R', 'R', 'O', 'R'], ['E', 'R', 'R']⟩),
  (fatal, ⟨['F', 'A', 'T', 'A', 'L'], ['F', 'T', 'L']⟩)]

/-- `LevelNames[l]`, the empty names if there is none (logging/level.go:24, 29) -/
def namesOf (l : Level) : Names := (levelNames.lookup l).getD ⟨[], []⟩

/-- logging/level.go:23-25 -/
def fullName (l : Level) : List Char := (namesOf l).full
/-- logging/level.go:28-30 -/
def shortName (l : Level) : List Char := (namesOf l).short

/-- logging/level.go:48-50 -/
def shouldLog (level cutoff : Level) : Bool := decide (cutoff ≤ level)

/-- logging/level.go:53-61 `LevelByName`; `iter` is the order of the iteration -/
def levelByName (lower : Char → Char) (iter : List (Level × Names)) (name : List Char) : Level :=
  match iter.find? (fun e => e.2.full.map lower = name.map lower || e.2.short.map lower = name.map lower) with
  | some e => e.1
  | none => off

/-- logging/cutoff.go:4-7 -/
structure Cutoffs where
  levels : List Char → Option Level
  dflt : Level

/-- logging/cutoff.go:9-14 -/
def cutoffLevel (s : Cutoffs) (name : List Char) : Level := (s.levels name).getD s.dflt

/-- logging/logger.go:19 -/
def format : List Char := ['[', '{', 'l', 'v', 'l', '}', ']', ' ', '[', '{', 'n', 'a', 'm', 'e', '}', ']', ' ', '{', 'd',
  'a', 't', 'e', '}', ':', ' ', '{', 'm', 'e', 's', 's', 'a', 'g', 'e', '}']

/-- `strings.Replacer.Replace`: at each position the first pair that matches there is used; `fuel` bounds the length
(logging/logger.go:37) -/
def replace (pairs : List (List Char × List Char)) : Nat → List Char → List Char
  | 0, _ => []
  | _ + 1, [] => []
  | n + 1, c :: r =>
    match pairs.find? (fun p => p.1.isPrefixOf (c :: r)) with
    | some p => p.2 ++ replace pairs n ((c :: r).drop p.1.length)
    | none => c :: replace pairs n r

/-- logging/logger.go:29: `(name + "    ")[:4]` -/
def printName (name : List Char) : List Char := (name ++ [' ', ' ', ' ', ' ']).take 4

/-- logging/logger.go:34-36 -/
def pairs (name msg date : List Char) (level : Level) : List (List Char × List Char) := [
  (['{', 'l', 'v', 'l', '}'], shortName level),
  (['{', 'l', 'e', 'v', 'e', 'l', '}'], fullName level),
  (['{', 'n', 'a', 'm', 'e', '}'], printName name),
  (['{', 'd', 'a', 't', 'e', '}'], date),
  (['{', 'm', 'e', 's', 's', 'a', 'g', 'e', '}'], msg),
  (['{', 'm', 's', 'g', '}'], msg)]

/-- logging/logger.go:13, 16: OutputWriter and ErrorWriter -/
inductive Writer where
  | output
  | error
  deriving DecidableEq, Repr

/-- logging/logger.go:28-44 `GetLogger`: the writes of one call; `date` is what DateProvider returns -/
def log (s : Cutoffs) (name msg date : List Char) (level : Level) : List (Writer × List Char) :=
  if !shouldLog level (cutoffLevel s name) then []
  else
    let m := replace (pairs name msg date level) (format.length + 1) format
    if level < warn then [(.output, m ++ ['\n'])] else [(.error, m ++ ['\n'])]

/-! ## Flags -/

/-- cmd/flags.go:74 -/
def suffix : List Char := ['-', 'l', 'o', 'g', 'g', 'i', 'n', 'g']

/-- cmd/flags.go:46-52, the names given to newLoggingFlag -/
def loggingFlags : List (List Char) := [['c', 'o', 'm', 'm'], ['p', 'l', 'a', 'y'], ['s', 'h', 'e', 'd'], ['s', 's', 'h'],
  ['t', 'i', 'm', 'e']]

/-- cmd/flags.go:66-77: the name of the flag; its `logName` field stays empty -/
def flagName (name : List Char) : List Char := name ++ suffix

/-- `m[k] = v` (cmd/flags.go:85) -/
def set (m : List Char → Option Level) (k : List Char) (v : Level) : List Char → Option Level :=
  fun x => if x = k then some v else m x

/-- cmd/flags.go:230-232 `FlagKey`: the name up to the first comma -/
def flagKey (name : List Char) : List Char := name.takeWhile (· ≠ ',')

/-- cmd/flags.go:80-93 `HandleLoggingFlags`. `ctx` gives the values of the flags, empty if absent. `byName` is LevelByName
(each call iterates the map anew, but see C49). -/
def handleFlags (byName : List Char → Level) (ctx : List Char → List Char) (s : Cutoffs) : Cutoffs :=
  let s := loggingFlags.foldl (fun s f =>
    let levelName := ctx (flagKey (flagName f))
    if levelName ≠ [] then { s with levels := set s.levels (flagName f) (byName levelName) } else s) s
  let d := ctx ['l', 'o', 'g', 'g', 'i', 'n', 'g']
  if d ≠ [] then { s with dflt := byName d } else s

/-- logging/cutoff.go:4-7: the state at the start of the program -/
def init : Cutoffs := ⟨fun _ => none, info⟩

end MS.Logging
