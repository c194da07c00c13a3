import Verif.Go

/-!
# The fields of a trace server (trcweb/trace_server.go:42-83)

Requests are served by goroutines of net/http, one after the other on a connection and at the same time on different
ones.  Nothing in `ServeHTTP` synchronizes them.  Each statement is a step; the steps of different goroutines are interleaved in any way.
A collector, or another implementation, is a number; what they do with a request is in `Verif/Web/Server.lean` and
`Verif/Web/StreamHandler.lean`.
-/

namespace Trc.Web.Fields

/-- A value of type `Searcher` or `Streamer` that is not nil. -/
inductive Impl where
  /-- one of another type, given by the program -/
  | user (n : Nat)
  /-- a `*trc.Collector`, which may be a nil pointer -/
  | coll (c : Option Nat)
deriving DecidableEq

/-- `type TraceServer`, trace_server.go:42-53; `none` is nil. -/
structure Server where
  collector : Option Nat := none
  searcher : Option Impl := none
  streamer : Option Impl := none
deriving DecidableEq

/-- What is read and written. -/
inductive Loc where
  | collector
  | searcher
  | streamer
deriving DecidableEq

structure Acc where
  t : Nat
  write : Bool
  l : Loc
deriving DecidableEq

/-- Statements. -/
inductive Stage where
  /-- trace_server.go:66-68 -/
  | initSearcher
  /-- trace_server.go:69-71 -/
  | initStreamer
  /-- `s.Searcher.Search(ctx, &data.Request)`, trace_server.go:138 -/
  | search
  /-- `s.Streamer.Stream(ctx, f, tracec)`, trace_server.go:273, in a goroutine of its own -/
  | stream
deriving DecidableEq

/-- What comes of a request. -/
inductive Outcome where
  /-- it is handed to the implementation -/
  | served (stream : Bool) (i : Impl)
  /-- a panic in the goroutine of the request, which net/http recovers -/
  | failed
  /-- a panic in another goroutine, which ends the program -/
  | crash
deriving DecidableEq

/-- Calling a method of an interface value: it panics if that is nil, and a method of the collector if the pointer in it is nil. -/
def callOn (stream : Bool) : Option Impl → Outcome
  | some (.user n) => .served stream (.user n)
  | some (.coll (some c)) => .served stream (.coll (some c))
  | _ => if stream then .crash else .failed

/-- A statement: what it leaves, its accesses, and what comes of the request. -/
def exec (s : Server) (t : Nat) : Stage → Server × List Acc × List Outcome
  | .initSearcher =>
    match s.searcher with
    | none => ({ s with searcher := some (.coll s.collector) }, [⟨t, false, .searcher⟩, ⟨t, false, .collector⟩, ⟨t, true, .searcher⟩], [])
    | some _ => (s, [⟨t, false, .searcher⟩], [])
  | .initStreamer =>
    match s.streamer with
    | none => ({ s with streamer := some (.coll s.collector) }, [⟨t, false, .streamer⟩, ⟨t, false, .collector⟩, ⟨t, true, .streamer⟩], [])
    | some _ => (s, [⟨t, false, .streamer⟩], [])
  | .search => (s, [⟨t, false, .searcher⟩], [callOn false s.searcher])
  | .stream => (s, [⟨t, false, .streamer⟩], [callOn true s.streamer])

/-- `initialize`, trace_server.go:65-72. -/
def initFields : List Stage := [.initSearcher, .initStreamer]

/-- Requests. -/
inductive Kind where
  | search
  | stream
  /-- for a stream, with a filter that is refused, trace_server.go:245-249 -/
  | refused
deriving DecidableEq

/-- `ServeHTTP`, trace_server.go:75-83. -/
def serveHTTP : Kind → List Stage
  | .search => initFields ++ [.search]
  | .stream => initFields ++ [.stream]
  | .refused => initFields

/-- Statements of several goroutines; each outcome with the goroutine that serves the request. -/
def run (s : Server) : List (Nat × Stage) → Server × List Acc × List (Nat × Outcome)
  | [] => (s, [], [])
  | (t, st) :: l =>
    let (s', as, os) := exec s t st
    let (s'', as', os') := run s' l
    (s'', as ++ as', os.map (fun o => (t, o)) ++ os')

/-- `NewTraceServer`, trace_server.go:56-62. -/
def newTraceServer (c : Option Nat) : Server := (run { collector := c } (initFields.map fun st => (0, st))).1

end Trc.Web.Fields
