import Verif.Model.Pcm
/-!
# float64 arithmetic, as the code uses it for volume, progress and PCM

IEEE 754 double precision, round to nearest, ties to even (Go language specification, amd64). A finite float64 is an
integer multiple of 2^-1074, and that integer represents it. Simplification: the sign of zero is left out; the code
never divides by zero (cmd/music-sync-infoer/state.go:53) and treats both zeros alike everywhere else.
-/
namespace MS.Float64
open MS.Pcm

/-- 1.0, in units of 2^-1074. (playback/playback.go:142-147) -/
def one : Nat := 2 ^ 1074

/-- A float64: `fin z` has the value `z * 2^-1074`. (playback/playback.go:136, cmd/music-sync-infoer/state.go:54) -/
inductive F where
  | nan
  | inf (neg : Bool)
  | fin (z : Int)
  deriving DecidableEq, Repr

/-- `p / d` rounded to the nearest integer, ties to even. (float64 arithmetic at playback/playback.go:136) -/
def rhe (p d : Nat) : Nat :=
  if 2 * (p % d) < d then p / d
  else if d < 2 * (p % d) then p / d + 1
  else p / d + p / d % 2

/-- `p / q` units of 2^-1074 rounded to 53 significant bits, without a limit for the exponent.
(float64 arithmetic at playback/playback.go:136) -/
def roundPos (p q : Nat) : Nat := rhe p (q * 2 ^ ((p / q).log2 - 52)) * 2 ^ ((p / q).log2 - 52)

/-- The float64 nearest to `p / q` units of 2^-1074; from 2^1024 on infinity.
(float64 arithmetic at playback/playback.go:136) -/
def round (p : Int) (q : Nat) : F :=
  let m := roundPos p.natAbs q
  if 2 ^ 1024 * one ≤ m then .inf (decide (p < 0)) else .fin (if p < 0 then -(m : Int) else m)

/-- The value of a bit pattern: sign, 11 bits exponent, 52 bits fraction.
(`double` of comm/packages.proto:22-23, 34; playback/playback.go:136) -/
def ofBits (b : UInt64) : F :=
  let neg : Bool := decide (2 ^ 63 ≤ b.toNat)
  let e : Nat := b.toNat / 2 ^ 52 % 2 ^ 11
  let f : Nat := b.toNat % 2 ^ 52
  if e = 2047 then (if f = 0 then .inf neg else .nan)
  else
    let m : Nat := if e = 0 then f else (2 ^ 52 + f) * 2 ^ (e - 1)
    .fin (if neg then -(m : Int) else m)

/-- `x * y` (playback/playback.go:136, cmd/music-sync-infoer/drawing.go:54, main.go:138) -/
def mul : F → F → F
  | .nan, _ => .nan
  | _, .nan => .nan
  | .fin x, .fin y => round (x * y) one
  | .inf n, .fin y => if y = 0 then .nan else .inf (n != decide (y < 0))
  | .fin x, .inf n => if x = 0 then .nan else .inf (n != decide (x < 0))
  | .inf n, .inf k => .inf (n != k)

/-- `x / y` for `y` finite, as it is (cmd/music-sync-infoer/state.go:53-54); with `y = 0` the sign of the infinity would
depend on the sign of zero, which is left out. -/
def div : F → F → F
  | .fin x, .fin y =>
    if y = 0 then (if x = 0 then .nan else .inf (decide (x < 0)))
    else round (if y < 0 then -x * one else x * one) y.natAbs
  | .inf n, .fin y => .inf (n != decide (y < 0))
  | .fin _, .inf _ => .fin 0
  | _, _ => .nan

/-- `float64(n)` of an integer (cmd/music-sync-infoer/state.go:54, drawing.go:54) -/
def ofInt (n : Int) : F := round (n * one) 1

/-- playback/playback.go:141-152 `convertSampleToBytes`. NaN passes both comparisons; `int16(NaN)` on amd64 is the low
half of 0x80000000, 0. Infinities are clipped to 1 or -1. -/
def convertF : F → Int × Int
  | .nan => (0, 0)
  | .inf true => convert ⟨-1, 0⟩
  | .inf false => convert ⟨1, 0⟩
  | .fin z => convert ⟨z, 1074⟩

/-- The two bytes written for a sample (bit pattern, as received) at a volume (bit pattern, as received).
(playback/playback.go:136) -/
def sampleBytes (volume sample : UInt64) : Int × Int := convertF (mul (ofBits sample) (ofBits volume))

/-- playback/playback.go:133-139 `samplesToAudioBuf`, from index `i` on. `volumes (2 * i + c)` is the volume when channel
`c` of sample `i` is converted: `volume` is read anew every time and can be set meanwhile. -/
def audioBufFrom (volumes : Nat → UInt64) (i : Nat) (samples : List (UInt64 × UInt64)) (buf : List Int) : List Int :=
  match samples with
  | [] => buf
  | (a, b) :: rest =>
    let x := sampleBytes (volumes (2 * i)) a
    let y := sampleBytes (volumes (2 * i + 1)) b
    let buf := put (put buf (i * 4 + 0 * 2 + 0) x.1) (i * 4 + 0 * 2 + 1) x.2
    let buf := put (put buf (i * 4 + 1 * 2 + 0) y.1) (i * 4 + 1 * 2 + 1) y.2
    audioBufFrom volumes (i + 1) rest buf

end MS.Float64
