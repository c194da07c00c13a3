import Verif.Broker.Model

/-!
# The stream handler of the trace server (trcweb/trace_server.go:228-363)

One request for a stream, served by the handler's goroutine and the goroutine it starts, next to
arbitrary other goroutines using the same broker.  The broker, the channel and its receivers are
those of `Verif.Broker.Model`; the steps here say when the two goroutines take which of them.

What comes from outside is nondeterministic: the end of the request's context, the stop signal of
the eventsource package, the ticker, whether encoding fails, whether the eventsource package calls
the function at all.  `select` takes any ready case.
-/

namespace Trc.Web

open Trc.Broker

/-- Where the handler's goroutine is. -/
inductive PC
  /-- before the `go` statement -/
  | start
  /-- past it, at `eventsource.Handler(…).ServeHTTP` -/
  | serving
  /-- in the loop, about to `select` -/
  | loop
  /-- blocked in the `select` -/
  | blocked
  /-- received a trace -/
  | got (x : Static)
  /-- in the deferred `<-donec` -/
  | leaving
  /-- the handler has returned -/
  | returned
deriving DecidableEq

/-- Where the goroutine started by the handler is. -/
inductive GPC
  | unborn
  /-- before the call of `Stream` -/
  | born
  /-- in `Stream`, subscribed -/
  | streaming
  /-- `Stream` has returned -/
  | streamed
  /-- `donec` is closed -/
  | closed
deriving DecidableEq

/-- What the client is sent. -/
inductive Out
  | init (f : Filter) (sendbuf : Nat)
  | stats (st : StreamStats)
  | trace (x : Static)

/-- The state; `hist` is the history of the broker and `failed` tells that encoding a trace has
failed: neither is read by the code. -/
structure HSt where
  b : St := {}
  hist : List Label := []
  ctx : Bool := false
  stop : Bool := false
  initc : Bool := true
  pc : PC := .start
  go : GPC := .unborn
  out : List Out := []
  failed : Bool := false

/-- What is fixed for a request: the channel `tracec`, the goroutines, the filter, the ID of the
request's own trace and the interval for statistics. -/
structure HCfg where
  c : Ch
  g : Tid
  m : Tid
  f : Filter
  own : String
  interval : Int

/-- Steps other goroutines can take: they have no access to the channel, and are not these two. -/
def foreign (k : HCfg) : Label → Prop
  | .subscribed t ch _ => t ≠ k.g ∧ ch ≠ k.c
  | .refused t ch => t ≠ k.g ∧ ch ≠ k.c
  | .cancel t => t ≠ k.g
  | .returned t _ _ => t ≠ k.g
  | .programmerError t _ => t ≠ k.g
  | .recv _ ch _ => ch ≠ k.c
  | .wait _ ch => ch ≠ k.c
  | .abandon _ ch => ch ≠ k.c
  | .stats .. => True
  | .publish .. => True
  | .visited .. => True
  | .release => True

/-- The value a publish hands over to the goroutine blocked in the `select`. -/
def handover (k : HCfg) : Label → Option Static
  | .visited ch x (.sent (some r)) => if ch = k.c ∧ r = k.m then some x else none
  | _ => none

/-- The position of the handler's goroutine after a step of another one. -/
def wake (k : HCfg) (l : Label) (pc : PC) : PC :=
  match handover k l with
  | some x => .got x
  | none => pc

/-- Encoding succeeded or failed, trace_server.go:302-308, 323-329. -/
def emit (ok : Bool) (o : Out) (out : List Out) : List Out := if ok then out ++ [o] else out

section
variable (compile : Compile) (cap : Ch → Nat) (k : HCfg)

/-- The steps. -/
inductive HStep : HSt → HSt → Prop
  /-- other goroutines -/
  | env {s l b'} : foreign k l → Step compile cap s.b l b' →
      HStep s { s with b := b', hist := s.hist ++ [l], pc := wake k l s.pc }
  /-- the client goes away, or the server ends the request's context -/
  | ctxDone {s} : HStep s { s with ctx := true }
  /-- the eventsource package signals `stop` -/
  | stopSignal {s} : HStep s { s with stop := true }
  /-- trace_server.go:272 -/
  | spawn {s} : s.pc = .start → HStep s { s with pc := .serving, go := .born }
  /-- trace_server.go:281-288: the package calls the function -/
  | enter {s} : s.pc = .serving → 0 < k.interval → HStep s { s with pc := .loop }
  /-- trace_server.go:284: `time.NewTicker` panics -/
  | tickerPanic {s} : s.pc = .serving → k.interval ≤ 0 → HStep s { s with pc := .leaving }
  /-- trace_server.go:281: the package does not call the function -/
  | notAcceptable {s} : s.pc = .serving → HStep s { s with pc := .leaving }
  /-- trace_server.go:273 -/
  | subscribe {s b'} : s.go = .born → Step compile cap s.b (.subscribed k.g k.c k.f) b' →
      HStep s { s with b := b', hist := s.hist ++ [.subscribed k.g k.c k.f], go := .streaming }
  | refused {s b'} : s.go = .born → Step compile cap s.b (.refused k.g k.c) b' →
      HStep s { s with b := b', hist := s.hist ++ [.refused k.g k.c], go := .streamed }
  | cancelled {s b'} : s.go = .streaming → s.ctx = true → Step compile cap s.b (.cancel k.g) b' →
      HStep s { s with b := b', hist := s.hist ++ [.cancel k.g] }
  | streamReturns {s b' st} : s.go = .streaming → Step compile cap s.b (.returned k.g k.c st) b' →
      HStep s { s with b := b', hist := s.hist ++ [.returned k.g k.c st], go := .streamed }
  | streamFails {s b'} : s.go = .streaming → Step compile cap s.b (.programmerError k.g k.c) b' →
      HStep s { s with b := b', hist := s.hist ++ [.programmerError k.g k.c], go := .streamed }
  /-- trace_server.go:275 -/
  | close {s} : s.go = .streamed → HStep s { s with go := .closed }
  /-- trace_server.go:291: no case is ready -/
  | wait {s b'} : s.pc = .loop → s.ctx = false → s.stop = false → s.initc = false →
      Step compile cap s.b (.wait k.m k.c) b' →
      HStep s { s with b := b', hist := s.hist ++ [.wait k.m k.c], pc := .blocked }
  /-- another case has become ready -/
  | unblock {s b'} : s.pc = .blocked → Step compile cap s.b (.abandon k.m k.c) b' →
      HStep s { s with b := b', hist := s.hist ++ [.abandon k.m k.c], pc := .loop }
  /-- trace_server.go:292-308 -/
  | init {s ok} : s.pc = .loop → s.initc = true →
      HStep s { s with initc := false, out := emit ok (.init k.f (cap k.c)) s.out }
  /-- trace_server.go:310-331 -/
  | tick {s b' st ok} : s.pc = .loop → Step compile cap s.b (.stats k.c (some st)) b' →
      HStep s { s with b := b', hist := s.hist ++ [.stats k.c (some st)], out := emit ok (.stats st) s.out }
  | tickError {s b'} : s.pc = .loop → Step compile cap s.b (.stats k.c none) b' →
      HStep s { s with b := b', hist := s.hist ++ [.stats k.c none] }
  /-- trace_server.go:333 -/
  | recv {s b' x} : s.pc = .loop → Step compile cap s.b (.recv k.m k.c x) b' →
      HStep s { s with b := b', hist := s.hist ++ [.recv k.m k.c x], pc := .got x }
  /-- trace_server.go:334-336 -/
  | skip {s x} : s.pc = .got x → x.id = k.own → HStep s { s with pc := .loop }
  /-- trace_server.go:338-347 -/
  | forward {s x} : s.pc = .got x → x.id ≠ k.own →
      HStep s { s with pc := .loop, out := s.out ++ [.trace x] }
  /-- trace_server.go:339-342, 347-350 -/
  | forwardFails {s x} : s.pc = .got x → x.id ≠ k.own → HStep s { s with pc := .loop, failed := true }
  /-- trace_server.go:352-354 -/
  | done {s} : s.pc = .loop → s.ctx = true → HStep s { s with pc := .leaving }
  /-- trace_server.go:356-359 -/
  | stopped {s} : s.pc = .loop → s.stop = true → HStep s { s with ctx := true, pc := .leaving }
  /-- trace_server.go:278, 270 -/
  | leave {s} : s.pc = .leaving → s.go = .closed → HStep s { s with ctx := true, pc := .returned }

/-- Any number of steps. -/
inductive HSteps : HSt → HSt → Prop
  | refl {s} : HSteps s s
  | snoc {s s' s''} : HSteps s s' → HStep compile cap k s' s'' → HSteps s s''

/-- The states a request can get into. -/
def HReach (s : HSt) : Prop := HSteps compile cap k {} s

end

end Trc.Web
