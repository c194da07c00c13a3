import Verif.Search.Filter

/-!
# Model of `SearchRequest` in `search_types.go`

`sort.Slice` on durations: the sorted permutation, which for integers is unique.
-/

namespace Trc

/-- `SearchLimitMin`, `SearchLimitDefault`, `SearchLimitMax`, search_types.go:86-95. -/
def searchLimitMin : Int := 1
def searchLimitDefault : Int := 10
def searchLimitMax : Int := 250

/-- `DefaultBucketing`, search_types.go:98-108. -/
def defaultBucketing : List Duration :=
  [0, 100 * 1000, 1 * 1000000, 5 * 1000000, 10 * 1000000, 25 * 1000000, 50 * 1000000,
   100 * 1000000, 1000 * 1000000]

/-- `type SearchRequest`, search_types.go:25-30. -/
structure SearchRequest where
  bucketing : List Duration := []
  filter : Filter := {}
  limit : Int := 0
  stackDepth : Int := 0

/-- Insert into an ascending list. -/
def insertDuration (d : Duration) : List Duration → List Duration
  | [] => [d]
  | x :: l => if d ≤ x then d :: x :: l else x :: insertDuration d l

/-- `sort.Slice(req.Bucketing, <)` -/
def sortDurations (l : List Duration) : List Duration := l.foldr insertDuration []

/-- The bucketing part of `Normalize`, search_types.go:37-45; `none` if `req.Bucketing[0]`
panics. -/
def normalizeBucketing (b : List Duration) : Option (List Duration) :=
  let b := if (b.length : Int) ≤ 0 then defaultBucketing else b
  let b := sortDurations b
  match b with
  | [] => none
  | b0 :: _ => some (if b0 ≠ 0 then 0 :: b else b)

/-- The limit part of `Normalize`, search_types.go:51-58. -/
def normalizeLimit (limit : Int) : Int :=
  if limit ≤ 0 then searchLimitDefault
  else if limit < searchLimitMin then searchLimitMin
  else if limit > searchLimitMax then searchLimitMax
  else limit

/-- `Normalize`, search_types.go:34-61. -/
def SearchRequest.normalize (compile : Compile) (req : SearchRequest) : Option (SearchRequest × List String) := do
  let bucketing ← normalizeBucketing req.bucketing
  let p := req.filter.normalize compile
  return ({ req with bucketing, filter := p.1, limit := normalizeLimit req.limit },
    p.2.map ("filter: " ++ ·))

end Trc
