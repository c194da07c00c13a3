import Verif.Cmd.Main
import Verif.Web.RequestText

/-!
# What `trc search` writes to its debug log (cmd/trc/main.go, cmd/trc/search.go)

The lines are those of the debug logger, in order; what the other loggers write in between is left out.  How long the search took is
a parameter.  `durationString` of `Verif/Web/Client.lean` is `Duration.String`.
-/

namespace Trc.Cmd

open Trc.Web Wrap

/-- `%d` -/
def showInt (n : Int) : String := String.ofList (itoa n)

/-- The lines of the loop over the URIs, main.go:128-151: blank ones are skipped, and the first that is refused ends it. -/
def Net.uriLines (net : Net) (uriPath : String) : List String → List String
  | [] => []
  | s :: r =>
    match net.target uriPath s with
    | .error _ => []
    | .ok t => (if trimSpace s = "" then [] else ["URI: " ++ t]) ++ net.uriLines uriPath r

/-- main.go:154-158 -/
def FilterFlags.durationLines (c : FilterFlags) : List String :=
  match c.minDuration with
  | some d => ["using --duration " ++ showDuration d]
  | none => []

/-- search.go:57-59 and 67-69 -/
def SearchFlags.requestLines (c : SearchFlags) : List String :=
  ["request: filter: " ++ c.filter.filter.string showDuration, "request: limit: " ++ showInt c.limit,
    "request: stack depth: " ++ showInt (if c.stackDepth = 0 then -1 else c.stackDepth)]

/-- search.go:76-80 -/
def responseLines (res : Response) (took : Duration) : List String :=
  ["response: sources: " ++ showInt res.sources.length ++ " (" ++ join " " res.sources ++ ")", "response: total: " ++ showInt res.totalCount,
    "response: matched: " ++ showInt res.matchCount, "response: returned: " ++ showInt res.traces.length,
    "response: duration: " ++ showDuration took]

/-- search.go:82-90 -/
def SearchFlags.removalLines (c : SearchFlags) : List String :=
  (if c.includeRequest then [] else ["removing request from response"]) ++ (if c.includeStats then [] else ["removing stats from response"])

/-- `Exec`, search.go:48-97, with what it logs; see `searchExec`. -/
def searchExecLogged (compile : Compile) (srt : List Static → List Static) (c : SearchFlags) (took : Duration) (uris : List Remote) :
    List String × Option Printed :=
  match c.request.normalize compile with
  | none => (c.requestLines, none)
  | some (req, _) =>
    match multiSearch compile srt c.request 0 0 (uris.map (·.arrival req)) with
    | none => (c.requestLines, none)
    | some res =>
      (c.requestLines ++ responseLines res took ++ c.removalLines,
        some { request := if c.includeRequest then some req else none
               sources := res.sources, totalCount := res.totalCount, matchCount := res.matchCount, traces := res.traces
               stats := if c.includeStats then res.stats else none
               problems := res.problems })

/-- `exec` with `trc search`, main.go:124-177, with what is logged; see `searchCommand`. -/
def searchCommandLogged (net : Net) (internet : String → Remote) (arrive : List String → List String) (compile : Compile)
    (srt : List Static → List Static) (c : SearchFlags) (took : Duration) (uriPath : String) (given : List String) :
    List String × Except String (Option Printed) :=
  match net.prepare uriPath given with
  | .error e => (net.uriLines uriPath (uniqueList given), .error e)
  | .ok uris =>
    let r := searchExecLogged compile srt c took ((arrive uris).map internet)
    (net.uriLines uriPath (uniqueList given) ++ c.filter.durationLines ++ r.1, .ok r.2)

/-- What the debug logger puts on standard error, main.go:106-121; nothing if the level says so. -/
def debugOutput (level : String) (lines : List String) : Option String :=
  match logging level with
  | none => none
  | some (_, on, _) => some (if on then loggerOutput (lines.map fun t => ("[DEBUG] ", t)) else "")

end Trc.Cmd
