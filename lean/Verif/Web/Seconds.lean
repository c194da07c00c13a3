import Verif.Search.Static

/-!
# The seconds of a duration as a floating-point number (trace_static.go:72)

`rnd` is the rounding of float64; it is a parameter, of which Verif/Props/Seconds.lean says what is needed.
-/

namespace Trc.Web

/-- `Duration.Seconds` of package time, as used in trace_static.go:72: the whole seconds plus the quotient of the rest, each operation rounded. -/
def durationSeconds (rnd : Rat → Rat) (d : Duration) : Rat :=
  rnd (rnd ((d.tdiv 1000000000 : Int) : Rat) + rnd (rnd ((d.tmod 1000000000 : Int) : Rat) / 1000000000))

end Trc.Web
