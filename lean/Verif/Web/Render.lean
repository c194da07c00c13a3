import Verif.Web.Util

/-!
# Model of `trcweb/render.go`: content negotiation and event rendering, and of `Categorize`

`mime.ParseMediaType` is a parameter `mime`: the media type of a text, or `none` for an error (the
parameters it also returns are not used).  Percentages are in `Verif/Web/Timeline.lean`.
-/

namespace Trc.Web

open Core (Event Frame)

/-- A request as far as negotiation looks at it: its raw query and the lines of its Accept
header. -/
structure Req where
  rawQuery : Bytes := []
  accept : List (List Char) := []

/-- `r.Header.Get("accept")`: the first line, or `""`. -/
def Req.getAccept (r : Req) : List Char := r.accept.head?.getD []

/-- `strings.Split(s, ",")` -/
def splitComma : List Char → List (List Char)
  | [] => [[]]
  | c :: s =>
    if c = ',' then [] :: splitComma s
    else match splitComma s with
      | [] => [[c]]
      | p :: ps => (c :: p) :: ps

/-- `parseAcceptMediaTypes`, render.go:93-103: the keys of the map. -/
def parseAcceptMediaTypes (mime : List Char → Option String) (r : Req) : List String :=
  (splitComma r.getAccept).filterMap mime

/-- `requestExplicitlyAccepts`, render.go:83-91. -/
def requestExplicitlyAccepts (mime : List Char → Option String) (r : Req) (acceptable : List String) : Bool :=
  acceptable.any (fun want => decide (want ∈ parseAcceptMediaTypes mime r))

/-- `Categorize`, trace_server.go:86-91. -/
def categorize (mime : List Char → Option String) (r : Req) : String :=
  if requestExplicitlyAccepts mime r ["text/event-stream"] then "stream" else "traces"

/-- How a request is served. -/
inductive Served where
  | stream
  | html
  | json
deriving DecidableEq, Repr

/-- `renderResponse`, render.go:27-43. -/
def renderResponse (mime : List Char → Option String) (r : Req) : Served :=
  let asksForJSON := (parseQuery r.rawQuery).has (bytesOf "json")
  let acceptsJSON := requestExplicitlyAccepts mime r ["application/json"]
  let acceptsHTML := requestExplicitlyAccepts mime r ["text/html"]
  let useHTML := acceptsHTML && !asksForJSON
  let useJSON := acceptsJSON || asksForJSON
  if useHTML then .html else if useJSON then .json else .json

/-- `ServeHTTP`, trace_server.go:73-83, for a search whose body could be read. -/
def served (mime : List Char → Option String) (r : Req) : Served :=
  if categorize mime r = "stream" then .stream else renderResponse mime r

/-! ## Events -/

/-- `t.Add(d)`: moves both readings. -/
def addTime (t : Time) (d : Duration) : Time := { wall := t.wall + d, mono := t.mono.map (· + d) }

/-- `type renderEvent`, render.go:362-372, without the percentage, which is `deltaPercent`. -/
structure RenderEvent where
  isStart : Bool := false
  isEnd : Bool := false
  index : Int
  when_ : Time
  delta : Duration := 0
  cumulative : Duration := 0
  what : String
  isError : Bool := false
  stack : List Frame := []
deriving DecidableEq, Repr

/-- The loop of `renderEvents`, render.go:330-343: the events rendered, and `prev` after it. -/
def renderLoop (started : Time) : Int → Time → List Event → List RenderEvent × Time
  | _, prev, [] => ([], prev)
  | i, prev, ev :: evs =>
    let delta := ev.when_.sub prev
    let r := renderLoop started (i + 1) ev.when_ evs
    ({ index := i, when_ := ev.when_, delta, cumulative := ev.when_.sub started, what := ev.what,
       isError := ev.isError, stack := ev.stack } :: r.1, r.2)

/-- `renderEvents`, render.go:317-360. -/
def renderEvents (st : Static) : List RenderEvent :=
  let start : RenderEvent := { isStart := true, index := -1, when_ := st.started, what := "start" }
  let r := renderLoop st.started 0 st.started st.events
  let when_ := addTime st.started st.duration
  let delta := when_.sub r.2
  let what := if st.finished then "finished" else "active..."
  start :: r.1 ++ [{ isEnd := true, index := st.events.length, when_, delta, cumulative := st.duration, what }]

end Trc.Web
