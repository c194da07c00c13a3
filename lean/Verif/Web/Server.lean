import Verif.Web.JSONLemmas
import Verif.Web.Render
import Verif.Search.Search

/-!
# The search handler of the trace server and its client (trcweb/trace_server.go:105-222)

A panic of the handler is `none`; net/http then closes the connection without a response.  The
searcher is an arbitrary function; it gets a pointer to the handler's request and so may change it.
`size` is the length of a JSON text and `renders` tells whether the HTML template can be executed.
-/

namespace Trc.Web

/-- A searcher: what it makes of the request, and what it returns, an error or a response, which may
be nil; `none` is a panic. -/
abbrev Searcher := SearchRequest → Option (SearchRequest × Except String (Option Reply))

/-- An HTTP request for a search. -/
structure SearchHTTP where
  neg : Req
  /-- the content type contains "application/json" -/
  isJSON : Bool
  /-- the body, if it is JSON -/
  body : Option JSON

/-- A body of an HTTP response. -/
inductive Body where
  | text (s : String)
  | json (v : JSON)
  | page (d : SearchData)

/-- An HTTP response. -/
structure HTTPResponse where
  status : Int
  body : Body

section
variable (compile : Compile) (mulFrac : Nat → Nat → Nat → Nat) (size : JSON → Nat)

/-- `maxRequestBodySizeBytes`, util.go:11. -/
def maxRequestBodySizeBytes : Nat := 1 * 1024 * 1024

/-- Decoding the body, trace_server.go:115-121; `none` is an error. -/
def readBody (r : SearchHTTP) : Option SearchRequest :=
  match r.body with
  | none => none
  | some v => if size v > maxRequestBodySizeBytes then none else decRequest v

/-- The request, trace_server.go:113-132. -/
def readRequest (r : SearchHTTP) : Option SearchRequest :=
  if r.isJSON then readBody size r else some (requestOfURL mulFrac r.neg.rawQuery)

/-- What the searcher's answer makes of the data, trace_server.go:138-143; `*res` panics if nil. -/
def takeResult (data : SearchData) : Except String (Option Reply) → Option SearchData
  | .error e => some { data with problems := data.problems ++ ["execute select request: " ++ e] }
  | .ok none => none
  | .ok (some res) => some { data with response := res }

/-- trace_server.go:145-147 -/
def responseProblems (data : SearchData) : SearchData :=
  { data with problems := data.problems ++ data.response.problems.map ("response: " ++ ·) }

def tooManyCategories (n : Nat) : String := "way too many categories (" ++ toString n ++ ")"

/-- trace_server.go:149-151; `data.Response.Stats.Categories` panics if `Stats` is nil. -/
def checkCategories (data : SearchData) : Option SearchData :=
  match data.response.stats with
  | none => none
  | some st =>
    if st.categories.length ≥ 100 then
      some { data with problems := data.problems ++ [tooManyCategories st.categories.length] }
    else some data

/-- The data to be rendered, trace_server.go:134-151. -/
def searchData (searcher : Searcher) (req : SearchRequest) : Option SearchData := do
  let (req, problems) ← req.normalize compile
  let (req, result) ← searcher req
  let data ← takeResult { request := req, problems } result
  checkCategories (responseProblems data)

/-- `renderResponse`, render.go:27-103. -/
def render (mime : List Char → Option String) (renders : SearchData → Bool) (r : SearchHTTP) (data : SearchData) :
    HTTPResponse :=
  match renderResponse mime r.neg with
  | .html => ⟨if renders data then 200 else 500, .page data⟩
  | _ => ⟨200, .json (encData data)⟩

/-- `handleSearch`, trace_server.go:105-154. -/
def handleSearch (mime : List Char → Option String) (renders : SearchData → Bool) (searcher : Searcher)
    (r : SearchHTTP) : Option HTTPResponse :=
  match readRequest mulFrac size r with
  | none => some ⟨400, .text "bad request"⟩
  | some req => (searchData compile searcher req).map (render mime renders r)

/-- `SearchClient.Search`, trace_server.go:179-222; `server` is the HTTP client, the network and the
server: `none` is an error of `Do`.  `rawQuery` is the query in the client's URI. -/
def searchClient (rawQuery : Bytes) (server : SearchHTTP → Option HTTPResponse) (req : SearchRequest) :
    Except String Reply :=
  match server { neg := { rawQuery, accept := ["application/json".toList] }, isJSON := true, body := some (encRequest req) } with
  | none => .error "execute HTTP request"
  | some res =>
    if res.status ≠ 200 then .error "read HTTP response"
    else match res.body with
      | .json v => match decData v with
        | some d => .ok d.response
        | none => .error "decode search response"
      | _ => .error "decode search response"

/-- `Collector.Search` as a searcher; `took` is the time it took. -/
def collectorSearcher {α : Type} [Inhabited α] (srt : List Static → List Static) (source : String)
    (view : α → Look → Static) (rings : List (Ring.RB α)) (took : Duration) : Searcher := fun req => do
  let (req', _) ← req.normalize compile
  let res ← search compile srt source req view rings
  return (req', .ok (some { res.toResponse with request := some req', duration := took }))

/-- `SearchClient.Search` as a searcher. -/
def clientSearcher (rawQuery : Bytes) (server : SearchHTTP → Option HTTPResponse) : Searcher := fun req =>
  some (req, (searchClient rawQuery server req).map some)

end

end Trc.Web
