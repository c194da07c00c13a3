import Verif.Web.StreamHandler
import Verif.Web.JSON

/-!
# The reading loop of the stream client (trcweb/trace_server.go:434-524)

One call of `Stream` whose request could be built (`Verif.Web.Client` has the request): the caller's
goroutine in the loop, and the goroutine that waits for the end of the context.  What the
eventsource package reads, when the context ends and when the receiver takes a trace is arbitrary.
The eventsource package is trusted to return `ErrClosed` only after `Close`, or when the server told
it not to come back (status 204).  What the loop logs to the caller's trace is left out.
-/

namespace Trc.Web

open Trc.Broker

/-- `type eventsource.Event`: its type, and its data as a JSON value (`none`: not JSON). -/
structure SSE where
  type : String
  data : Option JSON

/-- `json.Unmarshal` into a variable that is zero: `null` leaves it so. -/
def unmarshal {α : Type} (zero : α) (dec : JSON → Option α) : Option JSON → Option α
  | none => none
  | some .null => some zero
  | some v => dec v

/-- The zero `StaticTrace`. -/
def zeroStatic : Static :=
  { source := "", id := "", category := "", started := .zero, duration := 0, finished := false, errored := false, events := [] }

/-- `type StreamStats`, broker.go:112-121. -/
def encStreamStats (s : StreamStats) : JSON :=
  .obj (field "skips" (.num s.skips) ++ field "sends" (.num s.sends) ++ field "drops" (.num s.drops))

/-- Decoding of `StreamStats`; the loop only looks whether it fails. -/
def decStreamStats (v : JSON) : Option (Int × Int × Int) := do
  let o ← decObj v
  let skips ← get o "skips" 0 decInt
  let sends ← get o "sends" 0 decInt
  let drops ← get o "drops" 0 decInt
  return (skips, sends, drops)

/-- What the handler writes, trace_server.go:292-350. -/
def encOut : Out → SSE
  | .init f sendbuf => ⟨"init", some (.obj (field "filter" (encFilter f) ++ field "sendbuf" (.num sendbuf)))⟩
  | .stats st => ⟨"stats", some (encStreamStats st)⟩
  | .trace x => ⟨"trace", some (encStatic x)⟩

/-- What `Stream` returns. -/
inductive CRes
  | nil
  | readError
  | badTrace
  | badStats
deriving DecidableEq

/-- Where the loop is: at `es.Read()`, in the `select` with a trace, or past the end. -/
inductive CPC
  | reading
  | sending (x : Static)
  | returned (r : CRes)

/-- The `switch` of the loop, trace_server.go:498-522, up to the `select`. -/
def dispatch (ev : SSE) : CPC :=
  if ev.type = "init" then .reading
  else if ev.type = "trace" then
    match unmarshal zeroStatic decStatic ev.data with
    | some x => .sending x
    | none => .returned .badTrace
  else if ev.type = "stats" then
    match unmarshal (0, 0, 0) decStreamStats ev.data with
    | some _ => .reading
    | none => .returned .badStats
  else .reading

/-- The state: the context, whether `es.Close()` has been called, whether the server sent the client
away, the events passed to `OnRead`, and the traces handed to the channel. -/
structure CSt where
  ctx : Bool := false
  closed : Bool := false
  gone : Bool := false
  pc : CPC := .reading
  read : List SSE := []
  sent : List Static := []

/-- The steps. -/
inductive CStep : CSt → CSt → Prop
  | cancel {s} : CStep s { s with ctx := true }
  | sentAway {s} : CStep s { s with gone := true }
  /-- trace_server.go:482-485, the goroutine -/
  | close {s} : s.ctx = true → CStep s { s with closed := true }
  /-- trace_server.go:488-491 -/
  | readClosed {s} : s.pc = .reading → s.closed = true ∨ s.gone = true → CStep s { s with pc := .returned .nil }
  /-- trace_server.go:492-494 -/
  | readFails {s} : s.pc = .reading → CStep s { s with pc := .returned .readError }
  /-- trace_server.go:496-522 -/
  | readEvent {s ev} : s.pc = .reading → CStep s { s with pc := dispatch ev, read := s.read ++ [ev] }
  /-- trace_server.go:507-508: the context is done -/
  | skip {s x} : s.pc = .sending x → s.ctx = true → CStep s { s with pc := .reading }
  /-- trace_server.go:507, 509: the channel takes the trace -/
  | send {s x} : s.pc = .sending x → CStep s { s with pc := .reading, sent := s.sent ++ [x] }

inductive CSteps : CSt → CSt → Prop
  | refl {s} : CSteps s s
  | snoc {s s' s''} : CSteps s s' → CStep s' s'' → CSteps s s''

/-- The states a call can get into. -/
def CReach (s : CSt) : Prop := CSteps {} s

end Trc.Web
