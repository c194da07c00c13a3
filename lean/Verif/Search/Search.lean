import Verif.Search.Request
import Verif.Search.Stats

/-!
# Model of `Collector.Search`, collector.go:137-195

The walk over a buffer holds that buffer's lock, but not the locks of the traces in it, and the
buffers are walked one after the other.  So other goroutines may write to a trace while it is being
looked at, and add traces to buffers not yet walked.  Therefore

* `rings` are the buffers as they are when they are walked, in any order (`GetAll` returns a map);
* a trace is looked at three times, for the statistics, by the filter, and to take the copy; `view`
  gives what its getters return each time.  (Within one look the getters are called one after the
  other; `Static` is whatever they returned.)

`sort.Sort` is a parameter `srt`.
-/

namespace Trc

/-- When `Search` looks at a candidate. -/
inductive Look where
  /-- `stats.Observe(candidate)`, collector.go:152 -/
  | observe
  /-- `req.Filter.Allow(candidate)`, collector.go:163 -/
  | filter
  /-- `NewSearchTrace(candidate)`, collector.go:168 -/
  | copy
deriving DecidableEq, Repr

/-- `type SearchResponse`, search_types.go:115-124, without the request and the duration. -/
structure SearchResponse where
  sources : List String := []
  totalCount : Int := 0
  matchCount : Int := 0
  traces : List Static := []
  stats : SearchStats
  problems : List String := []

variable {α : Type}

/-- The variables of `Search` that the walk changes. -/
structure SearchState where
  stats : SearchStats
  totalCount : Int
  matchCount : Int
  categoryTraces : List Static
  filter : Filter

/-- Selecting a candidate, collector.go:155-170. -/
def selectTrace (compile : Compile) (req : SearchRequest) (view : α → Look → Static) (st : SearchState) (c : α) : SearchState :=
  if (st.categoryTraces.length : Int) ≥ req.limit then st
  else
    let p := st.filter.allow compile (view c .filter)
    let st := { st with filter := p.2 }
    if !p.1 then st
    else { st with
      categoryTraces := st.categoryTraces ++ [(view c .copy).trimStacks req.stackDepth]
      matchCount := st.matchCount + 1 }

/-- The callback of the walk, collector.go:150-171; it never returns an error; `none` is a panic. -/
def searchTrace (compile : Compile) (req : SearchRequest) (view : α → Look → Static) (st : Option SearchState) (c : α) :
    Option SearchState × Option Unit :=
  (st.bind fun st => (st.stats.observe (view c .observe)).map fun stats =>
    selectTrace compile req view { st with stats, totalCount := st.totalCount + 1 } c, none)

/-- The loop over the buffers, collector.go:148-173; `traces` are those of earlier buffers. -/
def searchRings [Inhabited α] (compile : Compile) (req : SearchRequest) (view : α → Look → Static) :
    List (Ring.RB α) → SearchState → List Static → Option (SearchState × List Static)
  | [], st, traces => some (st, traces)
  | rb :: rbs, st, traces => do
    let (r, _) ← Ring.walk rb (searchTrace compile req view) (some { st with categoryTraces := [] })
    let st' ← r
    searchRings compile req view rbs st' (traces ++ st'.categoryTraces)

/-- `Collector.Search`, collector.go:137-195. -/
def search [Inhabited α] (compile : Compile) (srt : List Static → List Static) (source : String) (req : SearchRequest)
    (view : α → Look → Static) (rings : List (Ring.RB α)) : Option SearchResponse := do
  let (req, problems) ← req.normalize compile
  let (st, traces) ← searchRings compile req view rings
    ⟨newSearchStats req.bucketing, 0, 0, [], req.filter⟩ []
  let traces := srt traces
  let traces := if (traces.length : Int) > req.limit then traces.take req.limit.toNat else traces
  return { sources := [source], totalCount := st.totalCount, matchCount := st.matchCount, traces,
           stats := st.stats, problems }

end Trc
