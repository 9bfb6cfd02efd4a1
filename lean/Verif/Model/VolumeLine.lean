import Verif.Model.Float64
import Verif.Model.Fmt
/-!
# How volumes are printed

fmt's `%.3f` and `%06.2f`: the exact value rounded to the number of decimals, ties to even (strconv.AppendFloat), padded
with zeros between sign and digits; NaN and infinities are padded with spaces. (Go's fmt and strconv, from memory.)
-/
namespace MS.Float64

/-- `strconv.AppendFloat(|x|, 'f', prec)` of a finite value of `m` units of 2^-1074.
(fmt at cmd/music-sync-infoer/main.go:138, schedule/server_state_commands.go:171-173) -/
def fixed (prec m : Nat) : List Char :=
  let n := rhe (m * 10 ^ prec) one
  Fmt.dec (n / 10 ^ prec) ++ '.' :: Fmt.dec0 prec (n % 10 ^ prec)

/-- fmt's padding to the left (fmt at cmd/music-sync-infoer/main.go:138) -/
def padTo (width : Nat) (c : Char) (s : List Char) : List Char := List.replicate (width - s.length) c ++ s

/-- `%0W.Pf`; `neg`: the sign bit; with `width = 0` this is `%.Pf`.
(cmd/music-sync-infoer/main.go:138, schedule/server_state_commands.go:171-173, playback/playback.go:118) -/
def fmtFloat (width prec : Nat) (neg : Bool) : F → List Char
  | .nan => padTo width ' ' "NaN".toList
  | .inf n => padTo width ' ' (if n then "-Inf".toList else "+Inf".toList)
  | .fin z => if neg then '-' :: padTo (width - 1) '0' (fixed prec z.natAbs) else padTo width '0' (fixed prec z.natAbs)

/-- The sign bit (math.Signbit, as strconv.AppendFloat sees it, cmd/music-sync-infoer/main.go:138) -/
def signBit (b : UInt64) : Bool := decide (2 ^ 63 ≤ b.toNat)

/-- `fmt.Sprintf("%.3f", volume)` (schedule/server_state_commands.go:171-173, playback/playback.go:118) -/
def volumeText (b : UInt64) : List Char := fmtFloat 0 3 (signBit b) (ofBits b)

/-- `fmt.Sprintf("Volume: %06.2f%%", info.Volume*100)` (cmd/music-sync-infoer/main.go:138). The product with 100 has the
sign of the volume. -/
def volumeLine (b : UInt64) : List Char :=
  "Volume: ".toList ++ fmtFloat 6 2 (signBit b) (mul (ofBits b) (ofInt 100)) ++ ['%']

end MS.Float64
