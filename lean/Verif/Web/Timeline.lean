import Verif.Web.Render

/-!
# Model of the bars beside the events of a trace

The template shows for every rendered event its share of the duration, `DeltaPercent`, as a bar of that width
(traces.html:420-423), and for every one but the start an element of the timeline that grows as `FlexGrowPercent` of
the share says (traces.html:460-465).  A `float64` is an exact rational number, an infinity or not a number.
-/

namespace Trc.Web

/-- A `float64`. -/
inductive Float64 where
  | num (r : Rat)
  | posInf
  | negInf
  | nan
deriving DecidableEq

/-- `100 * float64(n) / float64(d)` -/
def percentOf (n d : Duration) : Float64 :=
  if d = 0 then if n = 0 then .nan else if 0 < n then .posInf else .negInf
  else .num (100 * ((n : Int) : Rat) / ((d : Int) : Rat))

/-- The field `DeltaPercent` of a rendered event, render.go:336 and :354; the start's is not set. -/
def deltaPercent (st : Static) (m : RenderEvent) : Float64 :=
  if m.isStart then .num 0 else percentOf m.delta st.duration

/-- `flexGrowPercent`, render.go:307-315.  `none`: the result of converting what is not a number to an `int`, which
depends on the implementation. -/
def flexGrowPercent : Float64 → Option Int
  | .nan => none
  | .negInf => some 1
  | .posInf => some 100
  | .num f => some (if f < 1 then 1 else if 100 < f then 100 else f.floor)

/-- The rendered events that have an element in the timeline, traces.html:461-462. -/
def timeline (st : Static) : List RenderEvent := (renderEvents st).filter fun m => !decide (m.index < 0)

end Trc.Web
