import Verif.Web.StreamHandler
import Verif.Web.StreamRequest
import Verif.Wrap.Searching

/-!
# What the stream handler logs to the trace of its request (trcweb/trace_server.go:228-363)

The steps are those of `Verif/Web/StreamHandler.lean`, with the lines that the two goroutines log.
-/

namespace Trc.Web

open Trc.Broker Trc.Core Trc.Wrap

/-- The values of type `any` that the handler logs besides strings. -/
structure StreamValues (A : Type) extends Wrap.Values A where
  filter : Filter → A
  duration : Duration → A
  stats : StreamStats → A

/-- A logging call with the trace of the request; `back` if it is one of the goroutine that streams. -/
structure SLine (A : Type) where
  kind : LogKind
  format : String
  args : List A
  back : Bool := false

/-- What a line does to the trace of the request. -/
def SLine.acts {A : Type} [Arg A] (tr : Tr A) (stack : SLine A → List StdFrame) (l : SLine A) : List (Act A) :=
  tr.logActs l.kind l.format l.args (stack l)

/-- What is written to the client. -/
inductive Part
  | init
  | stats
  | trace

/-- What can fail in the loop: marshaling or encoding an event, getting the statistics. -/
inductive Failure
  | marshal (p : Part)
  | encode (p : Part)
  | getStats

/-- The state, with the lines logged so far, what `Stream` has returned, and, which the code does not read, the failures. -/
structure TSt (A : Type) where
  h : HSt := {}
  lines : List (SLine A)
  result : Option (StreamStats × String) := none
  failures : List (Failure × String) := []

variable {A : Type} [Arg A]

/-- The line about a failure, trace_server.go:298, 306, 313, 319, 327, 340, 348. -/
def failureLine (v : StreamValues A) (f : Failure) (e : String) : SLine A :=
  match f with
  | .marshal .init => ⟨.errorf, "JSON marshal init: %v", [v.err e], false⟩
  | .encode .init => ⟨.errorf, "encode init: %v", [v.err e], false⟩
  | .getStats => ⟨.errorf, "get stats: %v", [v.err e], false⟩
  | .marshal .stats => ⟨.errorf, "JSON marshal stats: %v", [v.err e], false⟩
  | .encode .stats => ⟨.errorf, "encode stats: %v", [v.err e], false⟩
  | .marshal .trace => ⟨.errorf, "JSON marshal trace: %v", [v.err e], false⟩
  | .encode .trace => ⟨.errorf, "encode trace: %v", [v.err e], false⟩

/-- A failure is logged. -/
def TSt.fail (v : StreamValues A) (s : TSt A) (h : HSt) (f : Failure) (e : String) : TSt A :=
  { s with h := h, lines := s.lines ++ [failureLine v f e], failures := s.failures ++ [(f, e)] }

/-- A line of the handler's goroutine. -/
def TSt.say (s : TSt A) (h : HSt) (kind : LogKind) (format : String) (args : List A) : TSt A :=
  { s with h := h, lines := s.lines ++ [⟨kind, format, args, false⟩] }

/-- `StreamStats.String`, broker.go:124-126. -/
def streamStatsString (s : StreamStats) : String :=
  "skips=" ++ toString s.skips ++ " sends=" ++ toString s.sends ++ " drops=" ++ toString s.drops

/-- The lines before the `go` statement, trace_server.go:234-267; `e` is the error if the filter cannot be decoded. -/
def beginLines (v : StreamValues A) (compile : Compile) (mulFrac : Nat → Nat → Nat → Nat) (size : JSON → Nat) (r : StreamHTTP) (e : String) :
    List (SLine A) :=
  (if (readFilter mulFrac size r).2 then [] else [⟨.errorf, "decode filter error (%v), using default", [v.err e], false⟩]) ++
  match startStream compile mulFrac size r with
  | .refused _ _ => []
  | .streams f interval sendbuf =>
    [⟨.lazyTracef, "stream filter %s", [v.filter f], false⟩,
     if f.isFinished then ⟨.lazyTracef, "streaming complete traces", [], false⟩ else ⟨.lazyTracef, "streaming individual events", [], false⟩,
     ⟨.lazyTracef, "stats interval %s", [v.duration interval], false⟩,
     ⟨.lazyTracef, "send buffer %d", [v.num sendbuf], false⟩]

section
variable (v : StreamValues A) (compile : Compile) (cap : Ch → Nat) (k : HCfg)

/-- The steps. -/
inductive TStep : TSt A → TSt A → Prop
  | env {s l b'} : foreign k l → Step compile cap s.h.b l b' →
      TStep s { s with h := { s.h with b := b', hist := s.h.hist ++ [l], pc := wake k l s.h.pc } }
  | ctxDone {s} : TStep s { s with h := { s.h with ctx := true } }
  | stopSignal {s} : TStep s { s with h := { s.h with stop := true } }
  | spawn {s} : s.h.pc = .start → TStep s { s with h := { s.h with pc := .serving, go := .born } }
  /-- trace_server.go:282-288 -/
  | enter {s} : s.h.pc = .serving → 0 < k.interval →
      TStep s (s.say { s.h with pc := .loop } .lazyTracef "event source handler started" [])
  /-- trace_server.go:282-284 -/
  | tickerPanic {s} : s.h.pc = .serving → k.interval ≤ 0 →
      TStep s (s.say { s.h with pc := .leaving } .lazyTracef "event source handler started" [])
  | notAcceptable {s} : s.h.pc = .serving → TStep s { s with h := { s.h with pc := .leaving } }
  | subscribe {s b'} : s.h.go = .born → Step compile cap s.h.b (.subscribed k.g k.c k.f) b' →
      TStep s { s with h := { s.h with b := b', hist := s.h.hist ++ [.subscribed k.g k.c k.f], go := .streaming } }
  /-- broker.go:66, 76 -/
  | refused {s b'} : s.h.go = .born → Step compile cap s.h.b (.refused k.g k.c) b' →
      TStep s { s with h := { s.h with b := b', hist := s.h.hist ++ [.refused k.g k.c], go := .streamed }, result := some ({}, "already subscribed") }
  | cancelled {s b'} : s.h.go = .streaming → s.h.ctx = true → Step compile cap s.h.b (.cancel k.g) b' →
      TStep s { s with h := { s.h with b := b', hist := s.h.hist ++ [.cancel k.g] } }
  /-- broker.go:95; `e` is the error of the context -/
  | streamReturns {s b' st e} : s.h.go = .streaming → Step compile cap s.h.b (.returned k.g k.c st) b' →
      TStep s { s with h := { s.h with b := b', hist := s.h.hist ++ [.returned k.g k.c st], go := .streamed }, result := some (st, e) }
  /-- broker.go:92 -/
  | streamFails {s b'} : s.h.go = .streaming → Step compile cap s.h.b (.programmerError k.g k.c) b' →
      TStep s { s with h := { s.h with b := b', hist := s.h.hist ++ [.programmerError k.g k.c], go := .streamed }, result := some ({}, "not subscribed (programmer error)") }
  /-- trace_server.go:274-275 -/
  | close {s st e} : s.h.go = .streamed → s.result = some (st, e) →
      TStep s { s with h := { s.h with go := .closed }, lines := s.lines ++ [⟨.lazyTracef, "%s (error: %v)", [v.stats st, v.err e], true⟩] }
  | wait {s b'} : s.h.pc = .loop → s.h.ctx = false → s.h.stop = false → s.h.initc = false →
      Step compile cap s.h.b (.wait k.m k.c) b' →
      TStep s { s with h := { s.h with b := b', hist := s.h.hist ++ [.wait k.m k.c], pc := .blocked } }
  | unblock {s b'} : s.h.pc = .blocked → Step compile cap s.h.b (.abandon k.m k.c) b' →
      TStep s { s with h := { s.h with b := b', hist := s.h.hist ++ [.abandon k.m k.c], pc := .loop } }
  /-- trace_server.go:292-308 -/
  | init {s} : s.h.pc = .loop → s.h.initc = true →
      TStep s { s with h := { s.h with initc := false, out := s.h.out ++ [.init k.f (cap k.c)] } }
  | initFails {s f e} : s.h.pc = .loop → s.h.initc = true → f = .marshal .init ∨ f = .encode .init →
      TStep s (s.fail v { s.h with initc := false } f e)
  /-- trace_server.go:310-331 -/
  | tick {s b' st} : s.h.pc = .loop → Step compile cap s.h.b (.stats k.c (some st)) b' →
      TStep s (s.say { s.h with b := b', hist := s.h.hist ++ [.stats k.c (some st)], out := s.h.out ++ [.stats st] } .tracef "stats: %s" [Arg.str (streamStatsString st)])
  | tickFails {s b' st f e} : s.h.pc = .loop → Step compile cap s.h.b (.stats k.c (some st)) b' → f = .marshal .stats ∨ f = .encode .stats →
      TStep s (s.fail v { s.h with b := b', hist := s.h.hist ++ [.stats k.c (some st)] } f e)
  | tickError {s b'} : s.h.pc = .loop → Step compile cap s.h.b (.stats k.c none) b' →
      TStep s (s.fail v { s.h with b := b', hist := s.h.hist ++ [.stats k.c none] } .getStats "not subscribed")
  | recv {s b' x} : s.h.pc = .loop → Step compile cap s.h.b (.recv k.m k.c x) b' →
      TStep s { s with h := { s.h with b := b', hist := s.h.hist ++ [.recv k.m k.c x], pc := .got x } }
  | skip {s x} : s.h.pc = .got x → x.id = k.own → TStep s { s with h := { s.h with pc := .loop } }
  | forward {s x} : s.h.pc = .got x → x.id ≠ k.own →
      TStep s { s with h := { s.h with pc := .loop, out := s.h.out ++ [.trace x] } }
  | forwardFails {s x f e} : s.h.pc = .got x → x.id ≠ k.own → f = .marshal .trace ∨ f = .encode .trace →
      TStep s (s.fail v { s.h with pc := .loop, failed := true } f e)
  /-- trace_server.go:352-354 -/
  | done {s e} : s.h.pc = .loop → s.h.ctx = true →
      TStep s (s.say { s.h with pc := .leaving } .lazyTracef "stopping: context done (%v)" [v.err e])
  /-- trace_server.go:356-359 -/
  | stopped {s} : s.h.pc = .loop → s.h.stop = true →
      TStep s (s.say { s.h with ctx := true, pc := .leaving } .lazyTracef "stopping: stop signal (canceling context)" [])
  | leave {s} : s.h.pc = .leaving → s.h.go = .closed → TStep s { s with h := { s.h with ctx := true, pc := .returned } }

/-- The states that a request for a stream can get into, once its filter is accepted; `first` are the lines before. -/
inductive TReach (first : List (SLine A)) : TSt A → Prop
  | start : TReach first { lines := first }
  | step {s s'} : TReach first s → TStep v compile cap k s s' → TReach first s'

end

end Trc.Web
