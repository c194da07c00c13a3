import Verif.Web.MiddlewareActs
import Verif.Web.StreamLines

/-!
# The stream handler behind the middleware (trcweb/trace_server.go, trcweb/middleware.go)

The handler of `Verif/Web/StreamLines.lean` as a handler for `handle` of `Verif/Web/MiddlewareActs.lean`.
-/

namespace Trc.Web

open Trc.Broker Trc.Core Trc.Wrap

variable {A : Type} [Arg A]

/-- What a handler does besides writing. -/
def Does.actions : Does A → List (Act A)
  | .acts l => l
  | _ => []

/-- What `handleStream` does, trace_server.go:228-363, with `tr` for the trace in the context of the request.  A request that is
refused: it logs, and then `http.Error` writes (trace_server.go:247-248), which adds a newline.  Else it logs the lines of an
execution of its two goroutines; in between, the eventsource package (which is not modelled) writes whatever it writes. -/
inductive StreamServes (v : StreamValues A) (compile : Compile) (mulFrac : Nat → Nat → Nat → Nat) (size : JSON → Nat) (r : StreamHTTP) (e : String)
    (cap : Ch → Nat) (k : HCfg) (tr : Tr A) (stack : SLine A → List StdFrame) : TSt A → List (Does A) → Prop
  | refuses {status reason} : startStream compile mulFrac size r = .refused status reason →
      StreamServes v compile mulFrac size r e cap k tr stack { lines := beginLines v compile mulFrac size r e }
        [.acts ((beginLines v compile mulFrac size r e).flatMap (SLine.acts tr stack)), .writeHeader status, .write (reason.utf8ByteSize + 1)]
  | streams {s does} : startStream compile mulFrac size r = .streams k.f k.interval (cap k.c) →
      TReach v compile cap k (beginLines v compile mulFrac size r e) s → s.h.pc = .returned →
      does.flatMap Does.actions = s.lines.flatMap (SLine.acts tr stack) →
      StreamServes v compile mulFrac size r e cap k tr stack s does

end Trc.Web
