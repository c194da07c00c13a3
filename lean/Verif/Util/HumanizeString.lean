import Verif.Util.Humanize
import Verif.Web.Duration

/-!
# Model of `internal/trcutil/humanize.go`: `HumanizeDuration`
-/

namespace Trc.Util

open Trc.Web (durationString)

/-- `strings.TrimSuffix(s, suffix)` -/
def trimSuffix (s suffix : List Char) : List Char :=
  if suffix.isSuffixOf s then s.take (s.length - suffix.length) else s

/-- `HumanizeDuration`, humanize.go:37-46. -/
def humanizeDuration (d : Duration) : List Char :=
  let dd := truncateDuration d
  let ds := durationString dd
  if dd ≥ hour ∧ ['0', 's'].isSuffixOf ds then trimSuffix ds ['0', 's'] else ds

end Trc.Util
