import Verif.Web.Client
import Verif.Search.Search

/-!
# Model of the printed form of search requests

It is what the trace of a request to the server tells of the search (trace_server.go:136).
-/

namespace Trc.Web

/-- `Duration.String`. -/
def showDuration (d : Duration) : String := String.ofList (durationString d)

/-- The elements collected by `SearchRequest.String`, search_types.go:65-81. -/
def requestElems (req : SearchRequest) : List String :=
  (if req.bucketing ≠ defaultBucketing then ["Bucketing:[" ++ join " " (req.bucketing.map showDuration) ++ "]"] else []) ++
  ["Filter:[" ++ req.filter.string showDuration ++ "]"] ++
  ["Limit:" ++ String.ofList (itoa req.limit)] ++
  (if req.stackDepth ≠ 0 then ["StackDepth:" ++ String.ofList (itoa req.stackDepth)] else [])

/-- `SearchRequest.String`, search_types.go:64-84. -/
def requestString (req : SearchRequest) : String := join " " (requestElems req)

end Trc.Web
