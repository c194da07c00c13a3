import Verif.Search.Stats

/-!
# The rates of `search_stats.go`

`TraceRate` and `EventRate` remember what they return, unless it is zero.  Statistics with these two
fields, on top of `Verif/Search/Stats.lean`.  Floating-point numbers are exact rationals here, so
rounding is not modelled.  `now` is what `time.Now()` returns inside `time.Since`, in each call anew.
-/

namespace Trc

/-- `type CategoryStats`, search_stats.go:137-148, with its unexported fields. -/
structure Rated where
  cs : CategoryStats
  tracerate : Rat := 0
  eventrate : Rat := 0
deriving DecidableEq

/-- `float64(total) / float64(delta.Seconds())` -/
def perSecond (total delta : Int) : Rat := (total : Rat) / ((delta : Rat) / 1000000000)

/-- What `TraceRate` and `EventRate` compute, search_stats.go:203-216 and 229-242. -/
def CategoryStats.rate (cs : CategoryStats) (total : Int) (now : Time) : Rat :=
  let delta := now.sub cs.oldest
  if total ≤ 0 ∨ delta ≤ 0 ∨ cs.newest.isZero ∨ cs.oldest.isZero then 0 else perSecond total delta

/-- `TraceRate`, search_stats.go:194-217: the result, and the receiver afterwards. -/
def Rated.traceRate (r : Rated) (now : Time) : Rat × Rated :=
  if r.tracerate ≠ 0 then (r.tracerate, r)
  else (r.cs.rate r.cs.totalCount now, { r with tracerate := r.cs.rate r.cs.totalCount now })

/-- `EventRate`, search_stats.go:220-243. -/
def Rated.eventRate (r : Rated) (now : Time) : Rat × Rated :=
  if r.eventrate ≠ 0 then (r.eventrate, r)
  else (r.cs.rate r.cs.eventCount now, { r with eventrate := r.cs.rate r.cs.eventCount now })

/-- The clock readings of one `Merge`. -/
structure MergeClocks where
  t₁ : Time
  t₂ : Time
  t₃ : Time
  t₄ : Time

/-- The last two statements of `Merge`, search_stats.go:274-275: the receiver, and the argument, whose
rates are remembered. -/
def Rated.mergeRates (r other : Rated) (k : MergeClocks) : Rated × Rated :=
  let (x, r) := r.traceRate k.t₁
  let (y, other) := other.traceRate k.t₂
  let r := { r with tracerate := x + y }
  let (u, r) := r.eventRate k.t₃
  let (v, other) := other.eventRate k.t₄
  ({ r with eventrate := u + v }, other)

/-- `CategoryStats.Merge`, search_stats.go:246-276: the receiver and the argument; `none` is a panic. -/
def Rated.merge (r other : Rated) (k : MergeClocks) : Option (Rated × Rated) :=
  if other.cs.isZero then some (r, other)
  else if r.cs.isZero then some (other, other)
  else do
    let cs ← r.cs.merge other.cs
    return { r with cs }.mergeRates other k

/-- The readings of one round of `Overall`. -/
structure Round where
  k : MergeClocks
  t₅ : Time
  t₆ : Time

/-- The variables of `Overall`, search_stats.go:106-107, and the categories it has dealt with. -/
structure OverallState where
  overall : Rated
  tracerate : Rat := 0
  eventrate : Rat := 0
  seen : List Rated := []

/-- One round of the loop of `Overall`, search_stats.go:108-112. -/
def OverallState.round (s : OverallState) (sc : Rated) (c : Round) : Option OverallState := do
  let (overall, sc) ← s.overall.merge sc c.k
  let (x, sc) := sc.traceRate c.t₅
  let (u, sc) := sc.eventRate c.t₆
  return { overall, tracerate := s.tracerate + x, eventrate := s.eventrate + u, seen := s.seen ++ [sc] }

def OverallState.loop (s : OverallState) : List (Rated × Round) → Option OverallState
  | [] => some s
  | (sc, c) :: rest => do
    let s' ← s.round sc c
    s'.loop rest

/-- `Overall`, search_stats.go:105-116, and the categories afterwards. -/
def ratedOverall (bucketing : List Duration) (order : List (Rated × Round)) : Option (Rated × List Rated) := do
  let s ← ({ overall := ⟨newCategoryStats "overall" bucketing, 0, 0⟩ } : OverallState).loop order
  return ({ s.overall with tracerate := s.tracerate, eventrate := s.eventrate }, s.seen)

/-- One round of the loop of `SearchStats.Merge`, search_stats.go:93-101, for one category: what we have
of it, if anything. -/
def mergeRated (ours : Option Rated) (theirs : Rated) (k : MergeClocks) : Option Rated :=
  match ours with
  | none => some theirs
  | some r => (r.merge theirs k).map (·.1)

end Trc
