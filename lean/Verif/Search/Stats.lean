import Verif.Search.Static
import Verif.Ring.ManyLemmas

/-!
# Model of `search_stats.go` on values

Statistics as values; the sharing of memory between merged statistics is modelled in
`Verif/Search/StatsHeap.lean`.  The cached rates (`tracerate`, `eventrate`) are in
`Verif/Search/Rates.lean`: nothing modelled here reads them.  `none` is a panic.
-/

namespace Trc

open Ring (Assoc)

/-- `olderOf`, search_stats.go:282-298. -/
def olderOf (a b : Time) : Time :=
  if !a.isZero && !b.isZero then (if a.before b then a else b)
  else if !a.isZero && b.isZero then a
  else if a.isZero && !b.isZero then b
  else Time.zero

/-- `newerOf`, search_stats.go:300-316. -/
def newerOf (a b : Time) : Time :=
  if !a.isZero && !b.isZero then (if a.after b then a else b)
  else if !a.isZero && b.isZero then a
  else if a.isZero && !b.isZero then b
  else Time.zero

/-- `type CategoryStats`, search_stats.go:137-148. -/
structure CategoryStats where
  category : String
  eventCount : Int := 0
  activeCount : Int := 0
  bucketCounts : List Int
  erroredCount : Int := 0
  oldest : Time := .zero
  newest : Time := .zero
deriving DecidableEq, Repr

/-- `NewCategoryStats`, search_stats.go:152-157. -/
def newCategoryStats (category : String) (bucketing : List Duration) : CategoryStats :=
  { category, bucketCounts := List.replicate bucketing.length 0 }

/-- `CategoryStats.IsZero`, search_stats.go:160-180. -/
def CategoryStats.isZero (cs : CategoryStats) : Bool :=
  let bucketCounts := cs.bucketCounts.foldl (· + ·) 0
  cs.category == "" && cs.activeCount == 0 && bucketCounts == 0 && cs.erroredCount == 0 &&
    cs.oldest.isZero && cs.newest.isZero

/-- `CategoryStats.TotalCount`, search_stats.go:183-191. -/
def CategoryStats.totalCount (cs : CategoryStats) : Int :=
  let total := 0 + cs.activeCount
  let total := match cs.bucketCounts with
    | [] => total
    | b0 :: _ => total + b0
  total + cs.erroredCount

/-- The loop `for i := range cs.BucketCounts { cs.BucketCounts[i] += other.BucketCounts[i] }`,
search_stats.go:265-267, for slices of equal length. -/
def addCounts : List Int → List Int → List Int
  | a :: as, b :: bs => (a + b) :: addCounts as bs
  | as, _ => as

/-- `CategoryStats.Merge`, search_stats.go:246-276. -/
def CategoryStats.merge (cs other : CategoryStats) : Option CategoryStats :=
  if other.isZero then some cs
  else if cs.isZero then some other
  else if cs.bucketCounts.length ≠ other.bucketCounts.length then none
  else some { cs with
    activeCount := cs.activeCount + other.activeCount
    bucketCounts := addCounts cs.bucketCounts other.bucketCounts
    erroredCount := cs.erroredCount + other.erroredCount
    oldest := olderOf cs.oldest other.oldest
    newest := newerOf cs.newest other.newest }

/-- `type SearchStats`, search_stats.go:11-14. -/
structure SearchStats where
  bucketing : List Duration
  categories : Assoc CategoryStats
deriving DecidableEq, Repr

/-- `NewSearchStats`, search_stats.go:18-23. -/
def newSearchStats (bucketing : List Duration) : SearchStats := { bucketing, categories := [] }

/-- `SearchStats.IsZero`, search_stats.go:26-36 (for a non-nil receiver). -/
def SearchStats.isZero (ss : SearchStats) : Bool := ss.bucketing.length ≤ 0

/-- The bucket loop of `Observe`, search_stats.go:63-68; `none` if `cs.BucketCounts[i]` is out of
range. -/
def bump (duration : Duration) : List Duration → List Int → Option (List Int)
  | [], counts => some counts
  | b :: bs, counts =>
    if b > duration then some counts
    else match counts with
      | [] => none
      | c :: cs => (bump duration bs cs).map ((c + 1) :: ·)

/-- The `switch` of `Observe`, search_stats.go:58-71. -/
def CategoryStats.count (cs : CategoryStats) (bucketing : List Duration) (tr : Static) : Option CategoryStats :=
  if !tr.finished then some { cs with activeCount := cs.activeCount + 1 }
  else if tr.finished && !tr.errored then
    (bump tr.duration bucketing cs.bucketCounts).map fun bc => { cs with bucketCounts := bc }
  else if tr.finished && tr.errored then some { cs with erroredCount := cs.erroredCount + 1 }
  else some cs

/-- One iteration of `Observe`, search_stats.go:41-74. -/
def SearchStats.observe (ss : SearchStats) (tr : Static) : Option SearchStats := do
  let cs := (ss.categories.find tr.category).getD (newCategoryStats tr.category ss.bucketing)
  let cs := { cs with eventCount := cs.eventCount + tr.events.length }
  let cs ← cs.count ss.bucketing tr
  let cs := { cs with oldest := olderOf cs.oldest tr.started, newest := newerOf cs.newest tr.started }
  return { ss with categories := ss.categories.insert tr.category cs }

/-- `Observe`, search_stats.go:39-76. -/
def SearchStats.observeAll (ss : SearchStats) : List Static → Option SearchStats
  | [] => some ss
  | tr :: trs => do
    let ss' ← ss.observe tr
    ss'.observeAll trs

/-- One iteration of the loop of `SearchStats.Merge`, search_stats.go:93-101. -/
def SearchStats.mergeCategory (ss : SearchStats) (category : String) (theirs : CategoryStats) : Option SearchStats :=
  match ss.categories.find category with
  | none => some { ss with categories := ss.categories.insert category theirs }
  | some ours => do
    let cs ← ours.merge theirs
    return { ss with categories := ss.categories.insert category cs }

/-- The loop of `SearchStats.Merge`; the list is in the (arbitrary) iteration order of the map. -/
def SearchStats.mergeLoop (ss : SearchStats) : List (String × CategoryStats) → Option SearchStats
  | [] => some ss
  | (category, theirs) :: rest => do
    let ss' ← ss.mergeCategory category theirs
    ss'.mergeLoop rest

/-- `SearchStats.Merge`, search_stats.go:79-102; `order` is the iteration order of
`other.Categories`. -/
def SearchStats.merge (ss other : SearchStats) (order : List (String × CategoryStats)) : Option SearchStats :=
  if other.isZero then some ss
  else if ss.isZero then some other
  else if ss.bucketing.length ≠ other.bucketing.length then none
  else ss.mergeLoop order

/-- The loop of `Overall`, search_stats.go:108-112. -/
def overallLoop (overall : CategoryStats) : List CategoryStats → Option CategoryStats
  | [] => some overall
  | sc :: rest => do
    let overall' ← overall.merge sc
    overallLoop overall' rest

/-- `Overall`, search_stats.go:105-116; `order` is the iteration order of the map. -/
def SearchStats.overall (ss : SearchStats) (order : List CategoryStats) : Option CategoryStats :=
  overallLoop (newCategoryStats "overall" ss.bucketing) order

/-- Insert by category name. -/
def insertByName (cs : CategoryStats) : List CategoryStats → List CategoryStats
  | [] => [cs]
  | x :: l => if x.category < cs.category then x :: insertByName cs l else cs :: x :: l

/-- `AllCategories`, search_stats.go:120-130; `sort.Slice` by name: the names are distinct, so the
sorted permutation is unique. -/
def SearchStats.allCategories (ss : SearchStats) (order order' : List CategoryStats) : Option (List CategoryStats) := do
  let sorted := order.foldr insertByName []
  let overall ← ss.overall order'
  return sorted ++ [overall]

end Trc
