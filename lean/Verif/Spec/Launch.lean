import Verif.Spec.CommandLine
import Verif.Model.Launch
/-!
# What decides about a start

The settings in force, read off the options of the command line, and the conditions the theorems of C121 speak of.
`World` and `Entry` (what the operating system answers) are the model's.
-/
namespace MS.LaunchSpec
open MS.CommandLine MS.CommandSpec MS.Launch MS.Flags

/-- The settings that decide about the start of the server. -/
structure Settings where
  address : List Char
  port : Int
  dir : List Char
  sshAddress : List Char
  sshPort : Int
  users : List Char
  key : List Char
  size : Int
  rate : Int

/-- These are in force: the last value given under one of the names, or the default. -/
structure InForce (opts : List (List Char × Given)) (s : Settings) : Prop where
  address : valueOf ["address", "addr", "a"] (.str "127.0.0.1".toList) opts = .str s.address
  port : valueOf ["port", "p"] (.int 13333) opts = .int s.port
  dir : valueOf ["music-dir", "dir", "d"] (.str "audio".toList) opts = .str s.dir
  sshAddress : valueOf ["ssh-address", "ssh-addr", "sa"] (.str "127.0.0.1".toList) opts = .str s.sshAddress
  sshPort : valueOf ["ssh-port", "sp"] (.int 13334) opts = .int s.sshPort
  users : valueOf ["users-file", "users", "u"] (.str "users.json".toList) opts = .str s.users
  key : valueOf ["host-key", "key", "k"] (.str "id_rsa".toList) opts = .str s.key
  size : valueOf ["stream-chunk-size"] (.int 176400) opts = .int s.size
  rate : valueOf ["sample-rate"] (.int 44100) opts = .int s.rate

/-- A natural number in decimal digits, without needless zeros in front. -/
def Decimal (n : Nat) (s : List Char) : Prop :=
  (∀ c ∈ s, '0' ≤ c ∧ c ≤ '9') ∧ Fmt.value s = n ∧ s ≠ [] ∧ (s.head? = some '0' → s = ['0'])

/-- A whole number, with a minus sign if it is negative. -/
inductive Written : Int → List Char → Prop where
  | nonneg {n : Nat} {s} : Decimal n s → Written n s
  | neg {n : Nat} {s} : 0 < n → Decimal n s → Written (-(n : Int)) ('-' :: s)

/-- Host and port as one text. -/
def Joined (host : List Char) (port : Int) (text : List Char) : Prop := ∃ p, Written port p ∧ text = host ++ ":".toList ++ p

/-- What a chunk takes is at least a nanosecond, with the 64 bit arithmetic of the program: the nanoseconds of `size` seconds
are at least `rate`. -/
def Sensible (size rate : Int) : Prop := 0 < rate ∧ 0 ≤ size ∧ rate ≤ (size * 1000000000).bmod (2 ^ 64)

instance (size rate : Int) : Decidable (Sensible size rate) := by unfold Sensible; infer_instance

/-- The address, port and sample rate in force for a client. -/
def Client (opts : List (List Char × Given)) (address : List Char) (port rate : Int) : Prop :=
  valueOf ["address", "addr", "a"] (.str "127.0.0.1".toList) opts = .str address ∧
  valueOf ["port", "p"] (.int 13333) opts = .int port ∧ valueOf ["sample-rate"] (.int 44100) opts = .int rate

end MS.LaunchSpec
