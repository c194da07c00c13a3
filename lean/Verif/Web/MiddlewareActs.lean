import Verif.Web.Middleware
import Verif.Wrap.Model
import Verif.Util.Numbers
import Verif.Util.HumanizeString

/-!
# The HTTP middleware (trcweb/middleware.go) around the traces of a collector

As `Verif/Web/Middleware.lean`, with the trace that the constructor returns, wrapped as it may be, and
what is done to it: the actions of `Verif/Wrap/Model.lean`.
-/

namespace Trc.Web

open Trc.Core Trc.Wrap

variable {A : Type} [Arg A]

/-- One thing a handler does: something with the writer it was given, or anything else. -/
inductive Does (A : Type) where
  | writeHeader (code : Int)
  | write (len : Nat)
  | flush
  /-- Actions on traces: logging with the context of the request, or anything else. -/
  | acts (l : List (Act A))

/-- A request that is being served: the interceptor, and the actions so far. -/
structure Serving (A : Type) where
  iw : Interceptor
  acts : List (Act A)

/-- A step of the handler, with the writer and the request given to it, middleware.go:45-47. -/
def Serving.step (m : Serving A) : Does A → Serving A
  | .writeHeader code => { m with iw := m.iw.writeHeader code }
  | .write len => { m with iw := m.iw.write len }
  | .flush => { m with iw := m.iw.flush }
  | .acts l => { m with acts := m.acts ++ l }

/-- A call of `tr.LazyTracef` in the function of middleware.go:24-48; `stack` is the stack there. -/
def Serving.lazyTracef (m : Serving A) (tr : Tr A) (format : String) (args : List A) (stack : List StdFrame) : Serving A :=
  { m with acts := m.acts ++ tr.logActs .lazyTracef format args stack }

/-- The headers that are logged, middleware.go:30. -/
def headerNames : List String := ["User-Agent", "Accept", "Content-Type"]

/-- The loop over the headers, middleware.go:30-34. -/
def Serving.headers (m : Serving A) (tr : Tr A) (r : HTTPRequest) (stack : List StdFrame) : Serving A :=
  headerNames.foldl (fun m header =>
    if r.header header ≠ "" then m.lazyTracef tr "%s: %s" [Arg.str header, Arg.str (r.header header)] stack else m) m

/-- What happens before the handler is called, middleware.go:25-36; `made` is what the constructor returns and
does. -/
def beforeHandler (made : Ctx A × Tr A × List (Act A)) (r : HTTPRequest) (w : Resp) (stack : List StdFrame) : Serving A :=
  (({ iw := newInterceptor w, acts := made.2.2 } : Serving A).lazyTracef made.2.1 "%s %s %s"
    [Arg.str r.remoteAddr, Arg.str r.method, Arg.str r.url] stack).headers made.2.1 r stack

/-- The deferred function, middleware.go:38-43; `took` is the time since `b`. -/
def Serving.outcome (m : Serving A) (num : Int → A) (tr : Tr A) (took : Duration) (stack : List StdFrame) : Serving A :=
  m.lazyTracef tr "HTTP %d, %s, %s" [num m.iw.getCode, Arg.str (String.ofList (Util.humanizeBytes m.iw.written)),
    Arg.str (String.ofList (Util.humanizeDuration took))] stack

/-- `tr.Finish()`, middleware.go:26. -/
def Serving.finish (m : Serving A) (tr : Tr A) : Serving A := { m with acts := m.acts ++ tr.finishActs }

/-- The function of middleware.go:24-48.  `next` tells what the handler does when it is given a context, and `o` how
it ends. -/
def handle (made : Ctx A × Tr A × List (Act A)) (num : Int → A) (r : HTTPRequest) (w : Resp) (stack : List StdFrame)
    (next : Ctx A → List (Does A)) (o : Outcome) (took : Duration) : Serving A × Outcome :=
  withDefer (·.finish made.2.1)
    (withDefer (·.outcome num made.2.1 took stack) fun m => ((next made.1).foldl Serving.step m, o))
    (beforeHandler made r w stack)

end Trc.Web
