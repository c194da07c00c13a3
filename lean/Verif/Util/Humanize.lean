import Verif.Time

/-!
# Model of `internal/trcutil/humanize.go`: `TruncateDuration`
-/

namespace Trc.Util

/-- `time.Microsecond` … `time.Hour`. -/
def microsecond : Int := 1000
def millisecond : Int := 1000000
def second : Int := 1000000000
def minute : Int := 60000000000
def hour : Int := 3600000000000

/-- `d.Truncate(m)` of package `time`: rounds toward zero to a multiple of `m`. -/
def truncate (d m : Int) : Int := if m ≤ 0 then d else d - d.tmod m

/-- `TruncateDuration`, humanize.go:12-33. -/
def truncateDuration (d : Int) : Int :=
  if d ≥ 10 * 24 * hour then truncate d (24 * hour)
  else if d ≥ 24 * hour then truncate d hour
  else if d ≥ hour then truncate d minute
  else if d ≥ minute then truncate d second
  else if d ≥ second then truncate d (100 * millisecond)
  else if d ≥ 10 * millisecond then truncate d (1000 * microsecond)
  else if d ≥ 1 * millisecond then truncate d (100 * microsecond)
  else if d ≥ 1 * microsecond then truncate d (1 * microsecond)
  else d

end Trc.Util
