import Verif.Search.Search

/-!
# Model of `MultiSearcher.Search`, search_types.go:137-227

The searchers run concurrently and their answers arrive in any order; an arrival is what one of them
returned.  All searchers get the same pointer to the request, and searchers such as the collector
normalize it again (in place): `n₁` is how often that happened before the aggregate is set up, `n₂`
how often between that and the cut to the limit.  A searcher changes the request in no other way and
returns; the events traced by the search and the duration of the response are left out.  `none` is a
panic.
-/

namespace Trc

/-- `type SearchResponse`, search_types.go:115-124, as another searcher may return it: the statistics
may be nil. -/
structure Response where
  sources : List String := []
  totalCount : Int := 0
  matchCount : Int := 0
  traces : List Static := []
  stats : Option SearchStats := none
  problems : List String := []

/-- The response of a collector. -/
def SearchResponse.toResponse (r : SearchResponse) : Response :=
  { sources := r.sources, totalCount := r.totalCount, matchCount := r.matchCount, traces := r.traces
    stats := some r.stats, problems := r.problems }

/-- `type tuple`, search_types.go:144-148; `order` is the iteration order of the map of categories in
the response. -/
structure Arrival where
  id : String
  res : Option Response := none
  err : Option String := none
  order : List (String × CategoryStats) := []

/-- `aggregate`, search_types.go:162-166. -/
structure Aggregate where
  sources : List String := []
  totalCount : Int := 0
  matchCount : Int := 0
  traces : List Static := []
  stats : SearchStats
  problems : List String := []

/-- `aggregate.Stats.Merge(t.res.Stats)`; nil statistics are zero, search_stats.go:26-29, 80-82. -/
def mergeOptional (ss : SearchStats) (other : Option SearchStats) (order : List (String × CategoryStats)) :
    Option SearchStats :=
  match other with
  | none => some ss
  | some o => ss.merge o order

/-- Taking over a response, search_types.go:179-184 and 187-192. -/
def Aggregate.accept (a : Aggregate) (r : Response) (order : List (String × CategoryStats)) : Option Aggregate := do
  let stats ← mergeOptional a.stats r.stats order
  return { sources := a.sources ++ r.sources, totalCount := a.totalCount + r.totalCount
           matchCount := a.matchCount + r.matchCount, traces := a.traces ++ r.traces, stats
           problems := a.problems ++ r.problems }

def weirdEmpty (id : String) : String := id ++ ": weird: empty response"
def weirdError (err : String) : String := "got valid search response with error (" ++ err ++ ") -- weird"

/-- The `switch` of the gather loop, search_types.go:171-194. -/
def Aggregate.receive (a : Aggregate) (t : Arrival) : Option Aggregate :=
  match t.res, t.err with
  | none, none => some { a with problems := a.problems ++ [weirdEmpty t.id] }
  | none, some e => some { a with problems := a.problems ++ [e] }
  | some r, none => a.accept r t.order
  | some r, some e => (a.accept r t.order).map fun a => { a with problems := a.problems ++ [weirdError e] }

/-- The gather loop, search_types.go:169-195. -/
def gather (a : Aggregate) : List Arrival → Option Aggregate
  | [] => some a
  | t :: ts => do
    let a' ← a.receive t
    gather a' ts

/-- Insert into an ascending list of distinct strings. -/
def insertSource (s : String) : List String → List String
  | [] => [s]
  | x :: l => if s < x then s :: x :: l else if s = x then x :: l else x :: insertSource s l

/-- search_types.go:210-220: the keys of a map, sorted; distinct strings have one sorted order. -/
def fixSources (l : List String) : List String := l.foldr insertSource []

/-- Normalizing again, as the searchers do. -/
def SearchRequest.normalizeAgain (compile : Compile) : Nat → SearchRequest → Option SearchRequest
  | 0, req => some req
  | n + 1, req => do
    let (req', _) ← req.normalize compile
    req'.normalizeAgain compile n

/-- search_types.go:203-206. -/
def cutTo (limit : Int) (l : List Static) : List Static :=
  if (l.length : Int) > limit then l.take limit.toNat else l

/-- `MultiSearcher.Search`; its error is always nil. -/
def multiSearch (compile : Compile) (srt : List Static → List Static) (req : SearchRequest) (n₁ n₂ : Nat)
    (arrivals : List Arrival) : Option Response := do
  let (req₀, problems) ← req.normalize compile
  let req₁ ← req₀.normalizeAgain compile n₁
  let a ← gather { stats := newSearchStats req₁.bucketing, problems } arrivals
  let req₂ ← req₁.normalizeAgain compile n₂
  return { sources := fixSources a.sources, totalCount := a.totalCount, matchCount := a.matchCount
           traces := cutTo req₂.limit (srt a.traces), stats := some a.stats, problems := a.problems }

end Trc
