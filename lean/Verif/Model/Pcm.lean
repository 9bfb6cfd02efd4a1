import Verif.Model.GoBase
/-!
# playback/playback.go: conversion of samples to 16 bit PCM

A finite float64 is a dyadic rational `num / 2^k`. Multiplying by 2^15 is exact in float64 for |v| <= 1. Infinities
behave as any value beyond the clip limits; NaN never gets here in the first channel (Stream writes silence instead).
The argument is the product with the volume; that product, with its rounding, is modelled in Model/Float64.
-/
namespace MS.Pcm

/-- A finite float64 value `num / 2^k`. (playback/playback.go:141) -/
structure Dy where
  num : Int
  k : Nat
  deriving DecidableEq, Repr

/-- Go `int16(f)` for a float64 on amd64: truncation toward zero to a 32 bit integer (|f| <= 2^15 here), low 16 bits.
(playback/playback.go:148) -/
def toInt16 (v : Dy) : Int := Int.bmod (v.num.tdiv (2 ^ v.k)) (2 ^ 16)

/-- playback/playback.go:142-147, the clipping. -/
def clip (v : Dy) : Dy :=
  let v := if v.num < -(2 ^ v.k) then ⟨-1, 0⟩ else v
  if 2 ^ v.k < v.num then ⟨1, 0⟩ else v

/-- playback/playback.go:141-152 `convertSampleToBytes`: (low, high). `byte(x)` is `x mod 256`, `x >> 8` is the
arithmetic shift. -/
def convert (v : Dy) : Int × Int :=
  let v := clip v
  let x := toInt16 ⟨v.num * 2 ^ 15, v.k⟩
  (x % 256, (x / 256) % 256)

/-- `buf[i] = x` for an index in range (out of range would panic; `C17_buffer_layout` covers all indices written).
(playback/playback.go:136) -/
def put (buf : List Int) (i : Nat) (x : Int) : List Int := buf.set i x

/-- playback/playback.go:133-139 `samplesToAudioBuf` (samples already multiplied by the volume), from index `i` on. -/
def toAudioBufFrom (i : Nat) (samples : List (Dy × Dy)) (buf : List Int) : List Int :=
  match samples with
  | [] => buf
  | (a, b) :: rest =>
    let buf := put (put buf (i * 4 + 0 * 2 + 0) (convert a).1) (i * 4 + 0 * 2 + 1) (convert a).2
    let buf := put (put buf (i * 4 + 1 * 2 + 0) (convert b).1) (i * 4 + 1 * 2 + 1) (convert b).2
    toAudioBufFrom (i + 1) rest buf

end MS.Pcm
