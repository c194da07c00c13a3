import Verif.Core.Model

/-!
# The HTTP middleware (trcweb/middleware.go)

A handler is what it does while it runs: a finite sequence of calls on the response writer
and on its trace, after which it returns or panics.  (A handler that decides what to do from
what the calls return is, in any one run, such a sequence; and a panic raised inside a call
on the writer is either recovered, so that the sequence goes on, or it is not, so that the
sequence ends there and the outcome is a panic.)
-/

namespace Trc.Web

open Trc.Core

/-! ## The response writer of net/http -/

/-- What matters of the `*http.response` a handler gets (net/http server.go: `response`).
Not modelled: hijacking, broken connections, HTTP/2. -/
structure Resp where
  /-- The request's method is HEAD. -/
  head : Bool := false
  /-- The Content-Length the handler declared, if it did. -/
  contentLength : Option Nat := none
  wroteHeader : Bool := false
  status : Int := 0
  /-- 1xx status lines sent on the way. -/
  infos : List Int := []
  written : Nat := 0
  /-- Bytes of the body put on the connection. -/
  body : Nat := 0
deriving DecidableEq, Repr

/-- `response.WriteHeader` of net/http; the second component tells that it panicked. -/
def Resp.writeHeader (w : Resp) (code : Int) : Resp × Bool :=
  if w.wroteHeader then (w, false)
  else if code < 100 ∨ code > 999 then (w, true)
  else if code ≤ 199 ∧ code ≠ 101 then ({ w with infos := w.infos ++ [code] }, false)
  else ({ w with wroteHeader := true, status := code }, false)

/-- `if !w.wroteHeader { w.WriteHeader(StatusOK) }` of net/http. -/
def Resp.commit (w : Resp) : Resp := if w.wroteHeader then w else (w.writeHeader 200).1

/-- `bodyAllowedForStatus` of net/http. -/
def bodyAllowed (status : Int) : Bool :=
  !(decide (100 ≤ status ∧ status ≤ 199) || decide (status = 204) || decide (status = 304))

/-- `w.contentLength != -1 && w.written > w.contentLength` of net/http. -/
def Resp.overLength (w : Resp) : Bool :=
  match w.contentLength with
  | none => false
  | some l => decide (l < w.written)

/-- `response.Write` of net/http: the bytes it says it has written. -/
def Resp.write (w : Resp) (len : Nat) : Resp × Nat :=
  if len = 0 then (w.commit, 0)
  else if !bodyAllowed w.commit.status then (w.commit, 0)
  else if ({ w.commit with written := w.commit.written + len } : Resp).overLength then
    ({ w.commit with written := w.commit.written + len }, 0)
  else if w.commit.head then ({ w.commit with written := w.commit.written + len }, len)
  else ({ w.commit with written := w.commit.written + len, body := w.commit.body + len }, len)

/-- `response.Flush` of net/http. -/
def Resp.flush (w : Resp) : Resp := w.commit

/-- The end of a request whose handler returned: `finishRequest` of net/http. -/
def Resp.finishRequest (w : Resp) : Resp := w.commit

/-! ## The interceptor -/

/-- `type interceptor`, middleware.go:56-62, around a writer of net/http. -/
structure Interceptor where
  w : Resp
  code : Int
  n : Nat
deriving DecidableEq, Repr

/-- `newInterceptor`, middleware.go:64-70 (net/http's writer is a Flusher). -/
def newInterceptor (w : Resp) : Interceptor := { w, code := 0, n := 0 }

/-- `(*interceptor).WriteHeader`, middleware.go:72-77. -/
def Interceptor.writeHeader (i : Interceptor) (code : Int) : Interceptor :=
  { i with code := if i.code = 0 then code else i.code, w := (i.w.writeHeader code).1 }

/-- `(*interceptor).Write`, middleware.go:79-83. -/
def Interceptor.write (i : Interceptor) (len : Nat) : Interceptor :=
  { i with w := (i.w.write len).1, n := i.n + (i.w.write len).2 }

/-- `(*interceptor).Code`, middleware.go:85-90. -/
def Interceptor.getCode (i : Interceptor) : Int := if i.code = 0 then 200 else i.code

/-- `(*interceptor).Written`, middleware.go:92-94. -/
def Interceptor.written (i : Interceptor) : Nat := i.n

/-- `(*interceptor).Flush`, middleware.go:96-98. -/
def Interceptor.flush (i : Interceptor) : Interceptor := { i with w := i.w.flush }

/-! ## Handlers -/

variable {W A : Type}

/-- One thing a handler does. -/
inductive HOp (W A : Type) where
  | writeHeader (code : Int)
  | write (len : Nat)
  | flush
  /-- A call on the trace the middleware has put into the request's context. -/
  | trace (env : Env W) (call : Call A)

/-- How a handler ends. -/
inductive Outcome where
  | returned | panicked
deriving DecidableEq, Repr

/-- The state of one request: the interceptor, and the calls made on its trace so far; `none`
before the trace is made. -/
structure Req1 (W A : Type) where
  iw : Interceptor
  calls : Hist W A

/-- One operation of the handler, on the writer and request given to it,
middleware.go:45-47. -/
def Req1.op (m : Req1 W A) : HOp W A → Req1 W A
  | .writeHeader code => { m with iw := m.iw.writeHeader code }
  | .write len => { m with iw := m.iw.write len }
  | .flush => { m with iw := m.iw.flush }
  | .trace env call => { m with calls := m.calls ++ [(env, call)] }

/-- `next.ServeHTTP(w, r)`, middleware.go:47. -/
def serve (ops : List (HOp W A)) (o : Outcome) (m : Req1 W A) : Req1 W A × Outcome :=
  (ops.foldl Req1.op m, o)

/-- `defer d()` followed by the rest of the function: `d` runs when the rest is done, whether
it returns or panics, and the panic goes on. -/
def withDefer {σ : Type} (d : σ → σ) (rest : σ → σ × Outcome) (s : σ) : σ × Outcome :=
  (d (rest s).1, (rest s).2)

/-- The parts of the request the middleware reads. -/
structure HTTPRequest where
  remoteAddr : String
  method : String
  url : String
  /-- `r.Header.Get` -/
  header : String → String

/-- The circumstances of the calls the middleware makes itself: the clock and the world, the
program counters, the time the handler took, and the formatting functions of trcutil. -/
structure Around (W A : Type) where
  /-- A string or an int as a variadic argument. -/
  str : String → A
  num : Int → A
  callers : List StdFrame
  envLine : Env W
  envHeader : String → Env W
  envOutcome : Env W
  envFinish : Env W
  took : String
  humanizeBytes : Nat → String

/-- A `LazyTracef` call on the trace. -/
def Req1.lazyTracef (m : Req1 W A) (env : Env W) (format : String) (args : List A)
    (callers : List StdFrame) : Req1 W A :=
  { m with calls := m.calls ++ [(env, .log .lazyTracef format args callers)] }

/-- One header of the loop, middleware.go:31-33. -/
def logHeader (x : Around W A) (r : HTTPRequest) (m : Req1 W A) (header : String) : Req1 W A :=
  if r.header header ≠ "" then
    m.lazyTracef (x.envHeader header) "%s: %s" [x.str header, x.str (r.header header)] x.callers
  else m

/-- The loop over the headers, middleware.go:30-34. -/
def logHeaders (x : Around W A) (r : HTTPRequest) (m : Req1 W A) : Req1 W A :=
  ["User-Agent", "Accept", "Content-Type"].foldl (logHeader x r) m

/-- The deferred function, middleware.go:38-43. -/
def logOutcome (x : Around W A) (m : Req1 W A) : Req1 W A :=
  m.lazyTracef x.envOutcome "HTTP %d, %s, %s"
    [x.num m.iw.getCode, x.str (x.humanizeBytes m.iw.written), x.str x.took] x.callers

/-- `tr.Finish()`, middleware.go:26. -/
def finishCall (x : Around W A) (m : Req1 W A) : Req1 W A :=
  { m with calls := m.calls ++ [(x.envFinish, .finish)] }

/-- The handler made by `Middleware`, middleware.go:24-48, after the constructor has returned
the trace. -/
def middleware (x : Around W A) (r : HTTPRequest) (w : Resp) (ops : List (HOp W A)) (o : Outcome) :
    Req1 W A × Outcome :=
  withDefer (finishCall x) (fun m =>
      withDefer (logOutcome x) (serve ops o)
        (logHeaders x r (m.lazyTracef x.envLine "%s %s %s"
          [x.str r.remoteAddr, x.str r.method, x.str r.url] x.callers)))
    { iw := newInterceptor w, calls := [] }

end Trc.Web
