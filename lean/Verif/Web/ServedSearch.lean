import Verif.Web.MiddlewareActs
import Verif.Wrap.Handling

/-!
# The search handler behind the middleware (trcweb/trace_server.go, trcweb/render.go, trcweb/middleware.go)

`handleSearchActs` of `Verif/Wrap/Handling.lean` as a handler for `handle` of `Verif/Web/MiddlewareActs.lean`: besides what it does to
its trace, what it writes.
-/

namespace Trc.Web

open Trc.Core Trc.Wrap

variable {A : Type} [Arg A]

/-- The page for an error, render.go:51. -/
def errorPage (e : String) : String := "<html><body><h1>Error</h1><p>" ++ e ++ "</p>"

/-- The response for an error of marshaling, render.go:73. -/
def errorJSON : String := "{\"error\":\"failed to marshal response\"}"

/-- The number of bytes that `renderHTML` and `renderJSON` write, render.go:48-58 and render.go:64-80. -/
def bodySize (v : HandlerValues A) : Rendering → Nat
  | .html d _ =>
    match (templateLines v "traces.html" d).2 with
    | .ok n => n
    | .error e => (errorPage e).utf8ByteSize
  | .json (.ok n) => n
  | .json (.error _) => errorJSON.utf8ByteSize

/-- `handleSearch`, trace_server.go:105-154: first it logs, then it writes, once (render.go:56-58, 78-80; `http.Error` at
trace_server.go:119 adds a newline).  `none` is a panic. -/
def searchHandler (v : HandlerValues A) (compile : Compile) (orphan : Nat) (stack : List StdFrame) (incoming : Except String SearchRequest)
    (search : Ctx A → SearchRequest → List (Act A)) (view : Rendering) (ctx : Ctx A) : Option (List (Does A)) :=
  (handleSearchActs v compile ctx orphan stack incoming search view).map fun p =>
    [.acts p.1, .writeHeader p.2, .write (match incoming with | .error e => e.utf8ByteSize + 1 | .ok _ => bodySize v view)]

end Trc.Web
