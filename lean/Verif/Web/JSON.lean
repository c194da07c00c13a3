import Verif.Search.Multi

/-!
# The JSON encoding of requests and responses

The structs are encoded and decoded by encoding/json from their tags.  Modelled here is what the
tags do, on JSON values: the names of the fields, `omitempty`, `json:"-"`, unexported fields,
nil pointers, missing fields on decoding.  The text of a JSON value is encoding/json's business: it
is trusted to be read back as the same value, which it is for valid UTF-8 and 64-bit integers.  A
`time.Time` is a string in RFC 3339 format with nanoseconds, which keeps the wall clock reading
(years 0 to 9999) and no monotonic one; it is a value of its own kind here.

The zone of a time, and the fields `duration_str` and `duration_sec`, which repeat the duration (see Verif/Cmd/Output.lean), are
left out.  nil and empty slices are not distinguished.  On decoding, encoding/json also takes names in other cases for
those of fields, and lets the later of two fields with the same name overwrite the earlier one: JSON like that, which trc
does not write, is left out.
-/

namespace Trc.Web

open Trc.Core (Event Frame)

/-- A JSON value. -/
inductive JSON where
  | null
  | bool (b : Bool)
  | num (n : Int)
  | str (s : String)
  /-- a string holding a time -/
  | time (wall : Int)
  | arr (l : List JSON)
  | obj (l : List (String × JSON))

/-! ## Encoding and decoding in general -/

/-- The fields with a name. -/
abbrev Fields := List (String × JSON)

/-- A field; `omit` is whether `omitempty` applies. -/
def field (name : String) (v : JSON) (omitted : Bool := false) : Fields := if omitted then [] else [(name, v)]

/-- The field of an object. -/
def lookup (name : String) : Fields → Option JSON
  | [] => none
  | (n, v) :: o => if n = name then some v else lookup name o

/-- Decode a field; if it is missing or null, the variable keeps its zero value. -/
def get {α : Type} (o : Fields) (name : String) (zero : α) (dec : JSON → Option α) : Option α :=
  match lookup name o with
  | none => some zero
  | some .null => some zero
  | some v => dec v

/-! encoding/json takes `null` for any value, and leaves the variable as it is, here the zero value. -/

def decBool : JSON → Option Bool | .bool b => some b | .null => some false | _ => none
def decInt : JSON → Option Int | .num n => some n | .null => some 0 | _ => none
def decStr : JSON → Option String | .str s => some s | .null => some "" | _ => none
def decTime : JSON → Option Time | .time w => some ⟨w, none⟩ | .null => some .zero | _ => none
def decArr {α : Type} (dec : JSON → Option α) : JSON → Option (List α)
  | .arr l => l.mapM dec
  | .null => some []
  | _ => none
def decMap {α : Type} (dec : JSON → Option α) : JSON → Option (List (String × α))
  | .obj l => l.mapM fun p => (dec p.2).map fun v => (p.1, v)
  | .null => some []
  | _ => none
def decPtr {α : Type} (dec : JSON → Option α) : JSON → Option (Option α)
  | .null => some none
  | v => (dec v).map some
def decObj : JSON → Option Fields | .obj l => some l | .null => some [] | _ => none

def encTime (t : Time) : JSON := .time t.wall
def encArr {α : Type} (enc : α → JSON) (l : List α) : JSON := .arr (l.map enc)
def encMap {α : Type} (enc : α → JSON) (l : List (String × α)) : JSON := .obj (l.map fun p => (p.1, enc p.2))
def encPtr {α : Type} (enc : α → JSON) : Option α → JSON
  | none => .null
  | some v => enc v

/-! ## The structs -/

/-- `type Frame`, trace.go:100-103. -/
def encFrame (f : Frame) : JSON :=
  .obj (field "function" (.str f.function) ++ field "fileline" (.str f.fileLine))

def decFrame (v : JSON) : Option Frame := do
  let o ← decObj v
  let function ← get o "function" "" decStr
  let fileLine ← get o "fileline" "" decStr
  return { function, fileLine }

/-- `type Event`, trace.go:92-97. -/
def encEvent (e : Event) : JSON :=
  .obj (field "when" (encTime e.when_) ++ field "what" (.str e.what) ++
    field "stack" (encArr encFrame e.stack) e.stack.isEmpty ++ field "is_error" (.bool e.isError) (!e.isError))

def decEvent (v : JSON) : Option Event := do
  let o ← decObj v
  let when_ ← get o "when" .zero decTime
  let what ← get o "what" "" decStr
  let stack ← get o "stack" [] (decArr decFrame)
  let isError ← get o "is_error" false decBool
  return { when_, what, stack, isError }

/-- `type StaticTrace`, trace_static.go:8-19. -/
def encStatic (t : Static) : JSON :=
  .obj (field "source" (.str t.source) ++ field "id" (.str t.id) ++ field "category" (.str t.category) ++
    field "started" (encTime t.started) ++ field "duration" (.num t.duration) ++
    field "finished" (.bool t.finished) (!t.finished) ++ field "errored" (.bool t.errored) (!t.errored) ++
    field "events" (encArr encEvent t.events) t.events.isEmpty)

def decStatic (v : JSON) : Option Static := do
  let o ← decObj v
  let source ← get o "source" "" decStr
  let id ← get o "id" "" decStr
  let category ← get o "category" "" decStr
  let started ← get o "started" .zero decTime
  let duration ← get o "duration" 0 decInt
  let finished ← get o "finished" false decBool
  let errored ← get o "errored" false decBool
  let events ← get o "events" [] (decArr decEvent)
  return { source, id, category, started, duration, finished, errored, events }

/-- `type CategoryStats`, search_stats.go:137-145. -/
def encCategory (c : CategoryStats) : JSON :=
  .obj (field "category" (.str c.category) ++ field "event_count" (.num c.eventCount) ++
    field "active_count" (.num c.activeCount) ++ field "bucket_counts" (encArr .num c.bucketCounts) ++
    field "errored_count" (.num c.erroredCount) ++ field "oldest" (encTime c.oldest) ++
    field "newest" (encTime c.newest))

def decCategory (v : JSON) : Option CategoryStats := do
  let o ← decObj v
  let category ← get o "category" "" decStr
  let eventCount ← get o "event_count" 0 decInt
  let activeCount ← get o "active_count" 0 decInt
  let bucketCounts ← get o "bucket_counts" [] (decArr decInt)
  let erroredCount ← get o "errored_count" 0 decInt
  let oldest ← get o "oldest" .zero decTime
  let newest ← get o "newest" .zero decTime
  return { category, eventCount, activeCount, bucketCounts, erroredCount, oldest, newest }

/-- `type SearchStats`, search_stats.go:11-14.  The keys of the map are distinct, and their order has no
meaning. -/
def encStats (s : SearchStats) : JSON :=
  .obj (field "bucketing" (encArr .num s.bucketing) ++ field "categories" (encMap encCategory s.categories))

def decStats (v : JSON) : Option SearchStats := do
  let o ← decObj v
  let bucketing ← get o "bucketing" [] (decArr decInt)
  let categories ← get o "categories" [] (decMap decCategory)
  return { bucketing, categories }

/-- `type Filter`, filter.go:12-23; the compiled query is not exported. -/
def encFilter (f : Filter) : JSON :=
  .obj (field "sources" (encArr .str f.sources) f.sources.isEmpty ++ field "ids" (encArr .str f.ids) f.ids.isEmpty ++
    field "category" (.str f.category) (f.category == "") ++ field "is_active" (.bool f.isActive) (!f.isActive) ++
    field "is_finished" (.bool f.isFinished) (!f.isFinished) ++
    field "min_duration" (encPtr .num f.minDuration) f.minDuration.isNone ++
    field "is_success" (.bool f.isSuccess) (!f.isSuccess) ++ field "is_errored" (.bool f.isErrored) (!f.isErrored) ++
    field "query" (.str f.query) (f.query == ""))

def decFilter (v : JSON) : Option Filter := do
  let o ← decObj v
  let sources ← get o "sources" [] (decArr decStr)
  let ids ← get o "ids" [] (decArr decStr)
  let category ← get o "category" "" decStr
  let isActive ← get o "is_active" false decBool
  let isFinished ← get o "is_finished" false decBool
  let minDuration ← get o "min_duration" none (decPtr decInt)
  let isSuccess ← get o "is_success" false decBool
  let isErrored ← get o "is_errored" false decBool
  let query ← get o "query" "" decStr
  return { sources, ids, category, isActive, isFinished, minDuration, isSuccess, isErrored, query }

/-- `type SearchRequest`, search_types.go:25-30; `omitempty` has no effect on a struct. -/
def encRequest (r : SearchRequest) : JSON :=
  .obj (field "bucketing" (encArr .num r.bucketing) r.bucketing.isEmpty ++ field "filter" (encFilter r.filter) ++
    field "limit" (.num r.limit) (r.limit == 0) ++ field "stack_depth" (.num r.stackDepth) (r.stackDepth == 0))

def decRequest (v : JSON) : Option SearchRequest := do
  let o ← decObj v
  let bucketing ← get o "bucketing" [] (decArr decInt)
  let filter ← get o "filter" {} decFilter
  let limit ← get o "limit" 0 decInt
  let stackDepth ← get o "stack_depth" 0 decInt
  return { bucketing, filter, limit, stackDepth }

/-- `type SearchResponse`, search_types.go:115-124, with the request and the duration. -/
structure Reply extends Response where
  request : Option SearchRequest := none
  duration : Duration := 0

def encReply (r : Reply) : JSON :=
  .obj (field "request" (encPtr encRequest r.request) r.request.isNone ++ field "sources" (encArr .str r.sources) ++
    field "total_count" (.num r.totalCount) ++ field "match_count" (.num r.matchCount) ++
    field "traces" (encArr encStatic r.traces) ++ field "stats" (encPtr encStats r.stats) r.stats.isNone ++
    field "problems" (encArr .str r.problems) r.problems.isEmpty ++ field "duration" (.num r.duration))

def decReply (v : JSON) : Option Reply := do
  let o ← decObj v
  let request ← get o "request" none (decPtr decRequest)
  let sources ← get o "sources" [] (decArr decStr)
  let totalCount ← get o "total_count" 0 decInt
  let matchCount ← get o "match_count" 0 decInt
  let traces ← get o "traces" [] (decArr decStatic)
  let stats ← get o "stats" none (decPtr decStats)
  let problems ← get o "problems" [] (decArr decStr)
  let duration ← get o "duration" 0 decInt
  return { request, sources, totalCount, matchCount, traces, stats, problems, duration }

/-- `type SearchData`, trace_server.go:99-103. -/
structure SearchData where
  request : SearchRequest := {}
  response : Reply := {}
  /-- not transmitted -/
  problems : List String := []

def encData (d : SearchData) : JSON :=
  .obj (field "request" (encRequest d.request) ++ field "response" (encReply d.response))

def decData (v : JSON) : Option SearchData := do
  let o ← decObj v
  let request ← get o "request" {} decRequest
  let response ← get o "response" {} decReply
  return { request, response }

/-- What arrives of a frame, an event, …: times without their monotonic readings, filters without the
compiled query. -/
def wireEvent (e : Event) : Event := { e with when_ := e.when_.onWire }
def wireStatic (t : Static) : Static := { t with started := t.started.onWire, events := t.events.map wireEvent }
def wireCategory (c : CategoryStats) : CategoryStats := { c with oldest := c.oldest.onWire, newest := c.newest.onWire }
def wireStats (s : SearchStats) : SearchStats :=
  { s with categories := s.categories.map fun p => (p.1, wireCategory p.2) }
def wireFilter (f : Filter) : Filter := { f with regexp := none }
def wireRequest (r : SearchRequest) : SearchRequest := { r with filter := wireFilter r.filter }
def wireReply (r : Reply) : Reply :=
  { r with request := r.request.map wireRequest, traces := r.traces.map wireStatic, stats := r.stats.map wireStats }

end Trc.Web
