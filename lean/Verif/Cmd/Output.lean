import Verif.Cmd.Search
import Verif.Web.JSONText
import Verif.Web.Duration

/-!
# What `trc` prints (cmd/trc/search.go:32-46, cmd/trc/stream.go:183-208)

Both commands print with a `json.Encoder`.  The value of `--output` is `ndjson` or `prettyjson`, as the flag is an enum with
these values (trc.go:43).  The text of the seconds of a duration, a float64, is a parameter.
-/

namespace Trc.Cmd

open Trc.Web

/-- `--output`, trc.go:43. -/
inductive Output
  | ndjson
  | prettyjson
deriving DecidableEq

/-- search.go:34-41, stream.go:185-195 -/
def Output.layout : Output → Layout
  | .ndjson => compact
  | .prettyjson => pretty

/-- A trace of a stream, trace_static.go:8-19, 64-76: a `StaticTrace` with the text and the seconds of its duration, which come
from `NewStreamTrace` at the server; the seconds are left out if they are zero. -/
def traceText (seconds : Duration → List Char) (st : Static) : JText :=
  .obj (textMembers (field "source" (.str st.source) ++ field "id" (.str st.id) ++ field "category" (.str st.category) ++
      field "started" (encTime st.started) ++ field "duration" (.num st.duration)) ++
    (("duration_str", .str (String.ofList (durationString st.duration))) ::
      (if st.duration = 0 then [] else [("duration_sec", .num (seconds st.duration))])) ++
    textMembers (field "finished" (.bool st.finished) (!st.finished) ++ field "errored" (.bool st.errored) (!st.errored) ++
      field "events" (encArr encEvent st.events) st.events.isEmpty))

/-- What `writeTraces` has printed after some traces, stream.go:183-208. -/
def streamOutput (seconds : Duration → List Char) (o : Output) (l : List Static) : List Char :=
  l.flatMap fun st => encodeLine o.layout (traceText seconds st)

/-- The response that is printed, with the time it took, search_types.go:222-223. -/
def Printed.reply (p : Printed) (took : Duration) : Reply :=
  { request := p.request, sources := p.sources, totalCount := p.totalCount, matchCount := p.matchCount, traces := p.traces
    stats := p.stats, problems := p.problems, duration := took }

/-- The response as text, search_types.go:115-124.  `aggregate.Traces` is nil, and not an empty slice, if no trace was appended to
it, search_types.go:162-166, 183; sources are never nil, search_types.go:215-220. -/
def replyText (r : Reply) : JText :=
  .obj (textMembers (field "request" (encPtr encRequest r.request) r.request.isNone ++ field "sources" (encArr .str r.sources) ++
    field "total_count" (.num r.totalCount) ++ field "match_count" (.num r.matchCount) ++
    field "traces" (if r.traces.isEmpty then .null else encArr encStatic r.traces) ++
    field "stats" (encPtr encStats r.stats) r.stats.isNone ++
    field "problems" (encArr .str r.problems) r.problems.isEmpty ++ field "duration" (.num r.duration)))

/-- What `writeResult` prints, search.go:32-46. -/
def searchOutput (o : Output) (r : Reply) : List Char := encodeLine o.layout (replyText r)

end Trc.Cmd
