import Verif.Heap.Model
import Verif.Web.Timeline

/-!
# The debug information on the page (trcweb/render.go:271-299, internal/trcdebug/counters.go)
-/

namespace Trc.Web

open Heap (Counters)

/-- A line of the table, render.go:295-297. -/
structure DebugRow where
  new : Nat
  alloc : Nat
  free : Nat
  lost : Nat
  reuse : Float64
deriving DecidableEq

/-- A line from the numbers loaded, with `100 * float64(f) / float64(n)`, render.go:277, 283, 289.  (Floating-point
arithmetic is exact here, and the column shows two decimals.) -/
def debugRow (new alloc free lost : Nat) : DebugRow :=
  { new, alloc, free, lost, reuse := percentOf (free : Int) (new : Int) }

/-- `debugInfo`, render.go:271-299: the counters are loaded one after the other, the `i`-th when they are `load i`.
`CoreEventLostCount` and `StringerLostCount` are not changed anywhere. -/
def debugInfo (load : Nat → Counters) : DebugRow × DebugRow × DebugRow :=
  (debugRow (load 0).traceNew (load 1).traceAlloc (load 2).traceFree (load 3).traceLost,
   debugRow (load 4).eventNew (load 5).eventAlloc (load 6).eventFree 0,
   debugRow (load 8).strNew (load 9).strAlloc (load 10).strFree 0)

end Trc.Web
