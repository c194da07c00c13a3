import Verif.Web.StreamClient
import Verif.Web.Client

/-!
# What the clients do besides returning (trcweb/trace_server.go:155-222, 360-524)

The requests that `SearchClient.Search` and `StreamClient.Stream` make and through which HTTP client, what they do with
the body of the response, the calls of `OnRead`, and what they log to the trace of their context, all in order.
The contents of a search response are an arbitrary type here, and the JSON decoder is arbitrary as to how much it reads.
-/

namespace Trc.Web.Using

open Trc.Broker

/-! ## The search client -/

/-- An `*http.Request`, as far as `Search` sets it. -/
structure OutReq where
  method : String
  uri : String
  headers : List (String × String)
  body : Bytes
deriving DecidableEq

/-- An `*http.Response`: the body comes in chunks, and ends with `io.EOF` (`none`) or another error. -/
structure Resp where
  status : Int
  chunks : List Bytes
  ending : Option String := none

/-- What `Search` does. `read` is a call of `Read` of the body, with what it got, or `none` at the end. -/
inductive Eff where
  | do_ (client : Nat) (r : OutReq)
  | read (got : Option Bytes)
  | close
  | log (isError : Bool) (text : String)
deriving DecidableEq

/-- `json.Decoder`: with what it has read so far it is done or wants more; at the end it is done. -/
structure Decoder (R : Type) where
  step : List Bytes → Option (Except String R)
  finish : List Bytes → Option String → Except String R

/-- `Decode`, and what it leaves unread. -/
def decode {R : Type} (d : Decoder R) (ending : Option String) (before : List Bytes) : List Bytes → Except String R × List Bytes × List Eff
  | [] => (d.finish before ending, [], [.read none])
  | c :: rest =>
    match d.step (before ++ [c]) with
    | some r => (r, rest, [.read (some c)])
    | none =>
      let (r, left, effs) := decode d ending (before ++ [c]) rest
      (r, left, .read (some c) :: effs)

/-- `io.Copy(io.Discard, httpRes.Body)`, trace_server.go:206. -/
def drain (rest : List Bytes) : List Eff := rest.map (fun c => .read (some c)) ++ [.read none]

/-- `type SearchClient`, trace_server.go:159-162; the HTTP client is a number. -/
structure SearchClient where
  client : Nat
  uri : String

/-- The deferred function of trace_server.go:182-186. -/
def logError {R : Type} : Except String R → List Eff
  | .error e => [.log true ("error: " ++ e)]
  | .ok _ => []

/-- What follows the response, trace_server.go:205-222. -/
def SearchClient.receive {R : Type} (c : SearchClient) (statusText : Int → String) (d : Decoder R) (found : R → String) (res : Resp) :
    Except String R × List Eff :=
  if res.status ≠ 200 then
    (.error ("read HTTP response: server gave HTTP " ++ toString res.status ++ " (" ++ statusText res.status ++ ")"),
      drain res.chunks ++ [.close])
  else
    match decode d res.ending [] res.chunks with
    | (.error e, left, effs) => (.error ("decode search response: " ++ e), effs ++ drain left ++ [.close])
    | (.ok r, left, effs) => (.ok r, effs ++ [.log false (c.uri ++ " -> " ++ found r)] ++ drain left ++ [.close])

/-- The request, trace_server.go:193-199. -/
def SearchClient.request (c : SearchClient) (body : Bytes) : OutReq :=
  { method := "GET", uri := c.uri, headers := [("content-type", "application/json; charset=utf-8"), ("accept", "application/json")], body }

/-- `Search`, trace_server.go:179-222.  `marshal` is what `json.Marshal` returns, `create` the error of `NewRequestWithContext`, and
`net` what `Do` returns. -/
def SearchClient.search {R : Type} (c : SearchClient) (marshal : Except String Bytes) (create : Option String)
    (net : Nat → OutReq → Except String Resp) (statusText : Int → String) (d : Decoder R) (found : R → String) : Except String R × List Eff :=
  let (res, effs) : Except String R × List Eff :=
    match marshal with
    | .error e => (.error ("encode search request: " ++ e), [])
    | .ok body =>
      match create with
      | some e => (.error ("create HTTP request: " ++ e), [])
      | none =>
        match net c.client (c.request body) with
        | .error e => (.error ("execute HTTP request: " ++ e), [.do_ c.client (c.request body)])
        | .ok res =>
          let (r, effs) := c.receive statusText d found res
          (r, .do_ c.client (c.request body) :: effs)
  (res, effs ++ logError res)

/-! ## The stream client -/

/-- `StreamStats.String`, broker.go:123-126. -/
def statsString (s : Int × Int × Int) : String := "skips=" ++ toString s.1 ++ " sends=" ++ toString s.2.1 ++ " drops=" ++ toString s.2.2

/-- Who makes a request: the HTTP client in the field, or the eventsource package by itself. -/
inductive Requester where
  | given (client : Nat)
  | eventsource
deriving DecidableEq

/-- What `Stream` does.  `source` is `eventsource.New` with the query of the request and the interval. -/
inductive SEff where
  | source (query : Bytes) (retry : Duration)
  | request (by_ : Requester)
  | onRead (type : String) (data : String)
  | log (isError : Bool) (text : String)
  | deliver (x : Static)

/-- An event: its type, its data, and the JSON value that the data is. -/
structure Ev where
  type : String
  raw : String
  json : Option JSON

def Ev.sse (ev : Ev) : SSE := ⟨ev.type, ev.json⟩

/-- What the `switch` logs, trace_server.go:498-522; `quote` is `%q`. -/
def Ev.line (quote : String → String) (ev : Ev) : List SEff :=
  if ev.type = "init" then [.log false ("init: " ++ ev.raw)]
  else if ev.type = "trace" then []
  else if ev.type = "stats" then
    match unmarshal (0, 0, 0) decStreamStats ev.json with
    | some st => [.log false (statsString st)]
    | none => []
  else [.log false ("unknown event type " ++ quote ev.type)]

/-- The text of the error that `Stream` returns; `detail` is that of the error inside. -/
def errText (detail : String) : CRes → String
  | .nil => ""
  | .readError => "read server-sent event: " ++ detail
  | .badTrace => "decode trace event: " ++ detail
  | .badStats => "invalid stats event: " ++ detail

/-- What the deferred function of trace_server.go:442-446 logs. -/
def deferred (detail : String) (r : CRes) : List SEff :=
  if r = .nil then [] else [.log true ("error: " ++ errText detail r)]

/-- What is deferred, if the call returns. -/
def atEnd (detail : String) : CPC → List SEff
  | .returned r => deferred detail r
  | _ => []

/-- The client with its field `HTTPClient`, `none` is nil. -/
structure FullClient extends StreamClient where
  http : Option Nat

/-- A call of `Stream`, with what it has done. -/
structure RSt where
  st : CSt := {}
  effs : List SEff := []
  evs : List Ev := []

/-- `Stream` from trace_server.go:481 on. -/
def FullClient.start (c : FullClient) (f : Filter) (raw : Bytes) : RSt :=
  { effs := [.source (c.toStreamClient.stream f raw) c.toStreamClient.initialize.retryInterval] }

/-- The steps of the loop (those of `CStep`), and what they do. -/
inductive RStep (quote : String → String) (c : FullClient) : RSt → RSt → Prop
  /-- The eventsource package makes a request, as often as it likes; it has got no HTTP client from `Stream`. -/
  | request {s} : RStep quote c s { s with effs := s.effs ++ [.request .eventsource] }
  | cancel {s} : RStep quote c s { s with st := { s.st with ctx := true } }
  | sentAway {s} : RStep quote c s { s with st := { s.st with gone := true } }
  | close {s} : s.st.ctx = true → RStep quote c s { s with st := { s.st with closed := true } }
  | readClosed {s} : s.st.pc = .reading → s.st.closed = true ∨ s.st.gone = true → RStep quote c s { s with st := { s.st with pc := .returned .nil } }
  | readFails {s detail} : s.st.pc = .reading →
    RStep quote c s { s with st := { s.st with pc := .returned .readError }, effs := s.effs ++ deferred detail .readError }
  | readEvent {s detail} {ev : Ev} : s.st.pc = .reading →
    RStep quote c s { s with
      st := { s.st with pc := dispatch ev.sse, read := s.st.read ++ [ev.sse] }
      effs := s.effs ++ .onRead ev.type ev.raw :: ev.line quote ++ atEnd detail (dispatch ev.sse)
      evs := s.evs ++ [ev] }
  | skip {s x} : s.st.pc = .sending x → s.st.ctx = true → RStep quote c s { s with st := { s.st with pc := .reading } }
  | send {s x} : s.st.pc = .sending x →
    RStep quote c s { s with st := { s.st with pc := .reading, sent := s.st.sent ++ [x] }, effs := s.effs ++ [.deliver x] }

inductive RSteps (quote : String → String) (c : FullClient) : RSt → RSt → Prop
  | refl {s} : RSteps quote c s s
  | snoc {s s' s''} : RSteps quote c s s' → RStep quote c s' s'' → RSteps quote c s s''

/-- The states that a call of `Stream` can get into. -/
def FullClient.Reach (c : FullClient) (quote : String → String) (f : Filter) (raw : Bytes) (s : RSt) : Prop := RSteps quote c (c.start f raw) s

end Trc.Web.Using
