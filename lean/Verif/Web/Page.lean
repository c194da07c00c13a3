import Verif.Web.Util
import Verif.Search.Stats

/-!
# The links and numbers on the HTML page (trcweb/assets/traces.html, trcweb/render.go)

What html/template does with a value in the query of a link is `processURLOnto` of
html/template/url.go: values of type `template.URL`, which is what `SafeURL` makes, are normalized,
strings are escaped.  The result is then escaped for the HTML attribute, which the browser undoes.

Following a link, the browser sends what comes before the first `#` as the query.
-/

namespace Trc.Web

/-- A digit of `%02x`. -/
def lowerhex (n : UInt8) : UInt8 := if n < 10 then ch '0' + n else ch 'a' + (n - 10)

/-- `fmt.Fprintf(b, "%%%02x", c)` -/
def percentByte (c : UInt8) : Bytes := [ch '%', lowerhex (c / 16), lowerhex (c % 16)]

/-- The reserved characters that normalization keeps. -/
def reservedURL (c : UInt8) : Bool := (bytesOf "!#$&*+,/:;=?@[]").contains c

/-- `processURLOnto(s, false, b)` -/
def templateEscape (s : Bytes) : Bytes := s.flatMap fun c => if unreserved c then [c] else percentByte c

/-- The string begins with two hexadecimal digits. -/
def hexPair : Bytes → Bool
  | a :: b :: _ => (unhex a).isSome && (unhex b).isSome
  | _ => false

/-- `processURLOnto(s, true, b)` -/
def templateNormalize : Bytes → Bytes
  | [] => []
  | c :: s =>
    (if unreserved c || reservedURL c || (c == ch '%' && hexPair s) then [c] else percentByte c) ++ templateNormalize s

/-- `%d` -/
def decimalString (n : Int) : List Char := if n < 0 then '-' :: fmtInt n.natAbs else fmtInt n.natAbs

/-- `{{ range … }}{{ $query_params = printf "%s&key=%s" $query_params . | SafeURL }}{{ end }}` -/
def addEach (params : Bytes) (key : String) (l : List Bytes) : Bytes :=
  l.foldl (fun p v => p ++ bytesOf key ++ v) params

/-- `$query_params`, traces.html:105-121. -/
def queryParams (req : SearchRequest) : Bytes :=
  let p := bytesOf "n=" ++ bytesOf (String.ofList (decimalString req.limit))
  let p := if req.filter.query ≠ "" then p ++ bytesOf "&q=" ++ bytesOf req.filter.query else p
  let p := addEach p "&source=" (req.filter.sources.map bytesOf)
  if req.bucketing ≠ defaultBucketing then
    addEach p "&b=" (req.bucketing.map fun d => bytesOf (String.ofList (durationString d)))
  else p

/-- `$category_query_params`, traces.html:171-174. -/
def categoryParams (req : SearchRequest) (category : String) : Bytes :=
  if category ≠ "overall" then queryParams req ++ bytesOf "&category=" ++ bytesOf category else queryParams req

/-- The linked cells of a row of the summary. -/
inductive Cell where
  /-- the name -/
  | name
  | active
  | bucket (min : Duration)
  | errored

/-- What comes after the parameters in a link, traces.html:183-202. -/
def Cell.suffix : Cell → Bytes
  | .name => []
  | .active => bytesOf "&active"
  | .bucket min => bytesOf "&min=" ++ templateEscape (bytesOf (String.ofList (durationString min)))
  | .errored => bytesOf "&errored"

/-- The link of a cell, without the question mark, traces.html:183-202. -/
def cellLink (req : SearchRequest) (category : String) (cell : Cell) : Bytes :=
  templateNormalize (categoryParams req category) ++ cell.suffix

/-- The link in the header of a column, traces.html:132-142. -/
def headerLink (req : SearchRequest) (cell : Cell) : Bytes := templateNormalize (queryParams req) ++ cell.suffix

/-- The link of a trace, traces.html:389-391. -/
def traceLink (id : String) : Bytes := templateNormalize (bytesOf "id=" ++ bytesOf id)

/-- The link to the JSON of a trace, traces.html:393. -/
def traceJSONLink (id : String) : Bytes := traceLink id ++ bytesOf "&json"

/-- The link of the source of a trace, traces.html:397. -/
def sourceLink (source : String) : Bytes := bytesOf "source=" ++ templateEscape (bytesOf source)

/-- The link of the category of a trace, traces.html:401. -/
def categoryLink (category : String) : Bytes := bytesOf "category=" ++ templateEscape (bytesOf category)

/-- The query that the browser sends. -/
def followed (link : Bytes) : Bytes := link.takeWhile (· != ch '#')

/-- `PercentInt`, render.go:206: the integer part of `100 * n / d`.  With `d = 0` the quotient is not a number or
infinite, and what Go converts it to is not specified: `none`.  The quotient is exact here. -/
def percentInt (n d : Int) : Option Int := if d = 0 then none else some ((100 * n).tdiv d)

/-- A count with its percentage. -/
structure Share where
  count : Int
  percent : Option Int

/-- A row of the summary, traces.html:166-209. -/
structure Row where
  category : String
  active : Share
  /-- with the durations that the cells' links ask for -/
  buckets : List (Duration × Share)
  errored : Share
  total : Int

/-- `{{ range $i, $n := .BucketCounts }}`, traces.html:191-198; `none` if `index $r.Bucketing $i` fails. -/
def bucketCells (requested : List Duration) (total : Int) : Nat → List Int → Option (List (Duration × Share))
  | _, [] => some []
  | i, n :: counts => do
    let min ← requested[i]?
    let rest ← bucketCells requested total (i + 1) counts
    return (min, ⟨n, percentInt n total⟩) :: rest

/-- A row, traces.html:166-209; `r` is `$r`, the request. -/
def summaryRow (r : SearchRequest) (cs : CategoryStats) : Option Row := do
  let buckets ← bucketCells r.bucketing cs.totalCount 0 cs.bucketCounts
  return {
    category := cs.category
    active := ⟨cs.activeCount, percentInt cs.activeCount cs.totalCount⟩
    buckets
    errored := ⟨cs.erroredCount, percentInt cs.erroredCount cs.totalCount⟩
    total := cs.totalCount }

/-- The rows of a list of categories. -/
def summaryRows (r : SearchRequest) : List CategoryStats → Option (List Row)
  | [] => some []
  | cs :: l => do
    let row ← summaryRow r cs
    let rows ← summaryRows r l
    return row :: rows

/-- The summary, traces.html:166-230; `order` and `order'` are the orders of iteration of the map. -/
def summary (r : SearchRequest) (stats : SearchStats) (order order' : List CategoryStats) : Option (List Row) := do
  let categories ← stats.allCategories order order'
  summaryRows r categories

end Trc.Web
