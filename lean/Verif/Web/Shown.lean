import Verif.Web.Server
import Verif.Web.Page
import Verif.Search.Multi

/-!
# What it takes to show a page, and a multi-searcher behind a trace server

Of the template traces.html only the summary can fail: it calls `AllCategories`, which may panic (text/template
turns that into an error), and `index $r.Bucketing $i`.  Everything else in it is a field, a method or a
function that always returns, or a template that is known not to fail: parsing and escaping the
template depends on the template alone.
-/

namespace Trc.Web

/-- Orders of iteration of a map of categories. -/
structure Orders where
  all : SearchStats → List CategoryStats
  overall : SearchStats → List CategoryStats
  merge : SearchStats → List (String × CategoryStats)
  all_perm : ∀ ss, (all ss).Perm (ss.categories.map Prod.snd)
  overall_perm : ∀ ss, (overall ss).Perm (ss.categories.map Prod.snd)
  merge_perm : ∀ ss, (merge ss).Perm ss.categories

/-- The template can be executed, traces.html:166-209; nil statistics make `.Stats.AllCategories` fail. -/
def shows (o : Orders) (data : SearchData) : Bool :=
  match data.response.stats with
  | none => false
  | some st => (summary data.request st (o.all st) (o.overall st)).isSome

/-- What one of the goroutines sends, search_types.go:153-157; `none` if it panics. -/
def arrivalOf (o : Orders) (req : SearchRequest) (s : String × Searcher) : Option Arrival :=
  match s.2 req with
  | none => none
  | some (_, .error e) => some { id := s.1, err := some e }
  | some (_, .ok none) => some { id := s.1 }
  | some (_, .ok (some r)) =>
    some { id := s.1, res := some r.toResponse, order := match r.stats with | none => [] | some st => o.merge st }

/-- All that is sent. -/
def arrivalsOf (o : Orders) (req : SearchRequest) : List (String × Searcher) → Option (List Arrival)
  | [] => some []
  | s :: ss => do
    let a ← arrivalOf o req s
    let as ← arrivalsOf o req ss
    return a :: as

/-- `MultiSearcher.Search` as a searcher, search_types.go:137-227.  The searchers are listed with their numbers, in
the order in which they answer; `n₁` and `n₂` say how often those in the process normalize the shared
request again, as in `multiSearch`.  Every searcher is given the request as first normalized. -/
def multiSearcher (compile : Compile) (srt : List Static → List Static) (o : Orders) (n₁ n₂ : Nat) (took : Duration)
    (ss : List (String × Searcher)) : Searcher := fun req => do
  let (req₀, _) ← req.normalize compile
  let arrivals ← arrivalsOf o req₀ ss
  let res ← multiSearch compile srt req n₁ n₂ arrivals
  let req₂ ← req₀.normalizeAgain compile (n₁ + n₂)
  return (req₂, .ok (some { res with request := some req₂, duration := took }))

end Trc.Web
