import Verif.Model.Float64
import Verif.Model.Display
/-!
# The progress bar, with float64 arithmetic
-/
namespace MS.Float64

/-- `ProgressInSong` (cmd/music-sync-infoer/state.go:48-55, 68): 0, or the quotient of two converted integers, given here
as numerator and denominator (`progress` of Model/Infoer). -/
def progressF : Option (Int × Int) → F
  | none => .fin 0
  | some (played, length) => div (ofInt played) (ofInt length)

/-- `float64(length) * progress` (cmd/music-sync-infoer/drawing.go:54-55) -/
def barF (length : Int) (progress : F) : F := mul (ofInt length) progress

/-- The value of a finite float64 (the argument of `math.Floor` and `math.Modf`, cmd/music-sync-infoer/drawing.go:54-55).
`int(...)` of NaN or an infinity is not modelled; Props/ProgressBar shows that they do not come up. -/
def value : F → Rat
  | .fin z => (z : Rat) / (one : Nat)
  | _ => 0

/-- The argument of `math.Floor` as a function of the length of the bar, the field `progress` of Model/Display's `View`.
(cmd/music-sync-infoer/drawing.go:54, state.go:53-55) -/
def barValue (progress : Option (Int × Int)) (length : Int) : Rat := value (barF length (progressF progress))

end MS.Float64
