/-!
# fmt verbs used by the code: %d and %0Nd of non-negative integers

No file of /repo is modelled here; these are the pieces of Go's fmt package that the other modules need.
-/
namespace MS.Fmt

/-- a decimal digit, for fmt at schedule/server_state_commands.go:67, 95-97 -/
def digit (n : Nat) : Char := Char.ofNat (48 + n % 10)

/-- `%d` of a non-negative integer (schedule/server_state_commands.go:67, util/multi_error.go:18) -/
def dec (n : Nat) : List Char := if n < 10 then [digit n] else dec (n / 10) ++ [digit (n % 10)]
  termination_by n
  decreasing_by omega

/-- `%0Nd` of a non-negative integer (schedule/server_state_commands.go:95-97) -/
def dec0 (width n : Nat) : List Char := List.replicate (width - (dec n).length) '0' ++ dec n

/-- Specification: the number a string of decimal digits denotes.
(for fmt at schedule/server_state_commands.go:67, 95-97) -/
def value (s : List Char) : Nat := s.foldl (fun v c => 10 * v + (c.toNat - 48)) 0

end MS.Fmt
