/-!
# Go's `time.Time` and `time.Duration`

A `time.Time` carries a wall clock reading and, if it came from `time.Now()` in this
process, also a monotonic reading.  Comparison and subtraction use the monotonic
readings when both operands have one, and the wall readings otherwise (documentation
of package `time`, "Monotonic Clocks").  `Time.UTC()` keeps the monotonic reading; a
trip over the wire drops it.  Durations are nanoseconds; the saturation of
`Time.Sub` at ±292 years is not modelled.
-/

namespace Trc

/-- Nanoseconds. -/
abbrev Duration := Int

/-- `time.Time`.  Wall reading 0 is the zero time (year 1). -/
structure Time where
  wall : Int
  mono : Option Int := none
deriving DecidableEq, Repr, Inhabited

namespace Time

/-- The zero value `time.Time{}`. -/
def zero : Time := { wall := 0, mono := none }

/-- `t.IsZero()`: looks at the wall reading only. -/
def isZero (t : Time) : Bool := t.wall == 0

/-- `t.Sub(u)` -/
def sub (t u : Time) : Duration :=
  match t.mono, u.mono with
  | some a, some b => a - b
  | _, _ => t.wall - u.wall

/-- `t.Before(u)` -/
def before (t u : Time) : Bool := decide (t.sub u < 0)

/-- `t.After(u)` -/
def after (t u : Time) : Bool := decide (0 < t.sub u)

/-- `t.Equal(u)` -/
def equal (t u : Time) : Bool := decide (t.sub u = 0)

/-- The time as it arrives after a trip over the wire: no monotonic reading. -/
def onWire (t : Time) : Time := { t with mono := none }

end Time

end Trc
