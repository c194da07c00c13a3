import Verif.Web.Server
import Verif.Search.Multi

/-!
# `trc search`, and the filters of both commands (cmd/trc)

Parsing of the flags is the ff package's business: a run starts from the values of the flags.  The
servers behind the URIs are arbitrary functions from requests to responses.  The output is the value
given to the JSON encoder.
-/

namespace Trc.Cmd

open Trc.Web

/-- The filter flags, trc.go:26-34; `minDuration` is the value of `--duration` if it is given. -/
structure FilterFlags where
  sources : List String := []
  ids : List String := []
  category : String := ""
  query : String := ""
  isActive : Bool := false
  isFinished : Bool := false
  minDuration : Option Duration := none
  isSuccess : Bool := false
  isErrored : Bool := false

/-- The filter, main.go:153-171. -/
def FilterFlags.filter (c : FilterFlags) : Filter :=
  { sources := c.sources, ids := c.ids, category := c.category, isActive := c.isActive, isFinished := c.isFinished
    minDuration := c.minDuration, isSuccess := c.isSuccess, isErrored := c.isErrored, query := c.query }

/-- The filter of `trc stream`, stream.go:45-57. -/
def FilterFlags.streamFilter (c : FilterFlags) (streamEvents : Bool) : Filter :=
  let f := { c.filter with isActive := false }
  if streamEvents then { f with isFinished := false } else { f with isFinished := true }

/-- The flags of `trc search`, search.go:16-23. -/
structure SearchFlags where
  filter : FilterFlags := {}
  limit : Int := 10
  stackDepth : Int := 0
  includeRequest : Bool := false
  includeStats : Bool := false

/-- The request, search.go:57-65. -/
def SearchFlags.request (c : SearchFlags) : SearchRequest :=
  { filter := c.filter.filter, limit := c.limit, stackDepth := if c.stackDepth = 0 then -1 else c.stackDepth }

/-- What a URI stands for: the query in it, the server, and the iteration order of the map of categories in
its response. -/
structure Remote where
  uri : String
  rawQuery : Bytes := []
  server : SearchHTTP → Option HTTPResponse
  order : List (String × CategoryStats) := []

/-- What the searcher for the URI returns, given the normalized request. -/
def Remote.arrival (s : Remote) (req : SearchRequest) : Arrival :=
  match searchClient s.rawQuery s.server req with
  | .ok reply => { id := s.uri, res := some reply.toResponse, order := s.order }
  | .error e => { id := s.uri, err := some e }

/-- The output. -/
structure Printed where
  request : Option SearchRequest
  sources : List String
  totalCount : Int
  matchCount : Int
  traces : List Static
  stats : Option SearchStats
  problems : List String

/-- `Exec`, search.go:48-97, given the URIs in the order in which their answers arrive.  All clients get the
request that `MultiSearcher.Search` has normalized, and leave it alone. -/
def searchExec (compile : Compile) (srt : List Static → List Static) (c : SearchFlags) (uris : List Remote) : Option Printed := do
  let (req, _) ← c.request.normalize compile
  let res ← multiSearch compile srt c.request 0 0 (uris.map (·.arrival req))
  return { request := if c.includeRequest then some req else none
           sources := res.sources, totalCount := res.totalCount, matchCount := res.matchCount, traces := res.traces
           stats := if c.includeStats then res.stats else none
           problems := res.problems }

end Trc.Cmd
