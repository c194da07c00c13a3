import Verif.Web.Render

/-!
# The times beside the events on the page (trcweb/render.go:174, 212, trcweb/assets/traces.html:419-421)

Each row begins with the time of the event, as hours, minutes, seconds and microseconds of the day, which are those of UTC
(trace_core.go:114, 355; times that come over the wire are those that were sent).  The format is that of
`time.Time.Format`, which leaves out what is below the last digit.
-/

namespace Trc.Web

/-- Nanoseconds of a day. -/
def dayNs : Int := 86400 * 1000000000

/-- The nanoseconds since midnight. -/
def sinceMidnight (t : Time) : Nat := (t.wall % dayNs).toNat

/-- `k` decimal digits. -/
def digits : Nat → Nat → List Char
  | 0, _ => []
  | k + 1, n => digits k (n / 10) ++ [digitChar (n % 10)]

/-- `TimeTrunc`, render.go:214, with `timeFormat`, render.go:174. -/
def timeTrunc (t : Time) : List Char :=
  let ns := sinceMidnight t
  let s := ns / 1000000000
  digits 2 (s / 3600) ++ ':' :: (digits 2 (s / 60 % 60) ++ ':' :: (digits 2 (s % 60) ++ '.' :: digits 6 (ns % 1000000000 / 1000)))

end Trc.Web
