import Verif.Web.Duration

/-!
# The age of a trace on the page (trcweb/assets/traces.html:49-67, 69-76, 429, trcweb/render.go:215)

Times are numbers of nanoseconds since 1970, those of the browser numbers of milliseconds, as in JavaScript, whose
numbers are exact here.  The time of the title is written and read back as RFC 3339 says, which is assumed; for that, its
year has four digits and its time zone a whole number of minutes.
-/

namespace Trc.Web.Age

/-- The time of the title, `TimeRFC3339`, render.go:215 and traces.html:429, read by `Date.parse`: the format has whole
seconds, and package time leaves out the rest. -/
def parsedTitle (when_ : Int) : Int := when_ / 1000000000 * 1000

/-- `timeSince`, traces.html:49-67. -/
def timeSince (ts now : Int) : List Char :=
  let ms := now - ts
  let days := ms / (86400 * 1000)
  let ms := if days > 0 then ms - days * (86400 * 1000) else ms
  let hours := ms / (3600 * 1000)
  let ms := if hours > 0 then ms - hours * (3600 * 1000) else ms
  let minutes := ms / (60 * 1000)
  let ms := if minutes > 0 then ms - minutes * (60 * 1000) else ms
  let seconds := ms / (1 * 1000)
  let ms := if seconds > 0 then ms - seconds * (1 * 1000) else ms
  if days > 0 then fmtInt days.toNat ++ 'd' :: (fmtInt hours.toNat ++ ['h'])
  else if hours > 0 then fmtInt hours.toNat ++ 'h' :: (fmtInt minutes.toNat ++ ['m'])
  else if minutes > 0 then fmtInt minutes.toNat ++ 'm' :: (fmtInt seconds.toNat ++ ['s'])
  else if seconds > 0 then fmtInt seconds.toNat ++ ['s']
  else if ms > 0 then fmtInt ms.toNat ++ ['m', 's']
  else ['f', 'r', 'e', 's', 'h']

/-- The text beside the start of a trace, traces.html:69-73, 429, when it was last computed. -/
def shown (started now : Int) : List Char := timeSince (parsedTitle started) now

end Trc.Web.Age
