import Verif.Wrap.Searching
import Verif.Search.Request
import Verif.Util.Numbers

/-!
# What the search handler does to the trace of its request (trcweb/trace_server.go, trcweb/render.go)

What the handler computes is in `Verif/Web/Server.lean`; here are the calls it makes on the trace in the context of the request,
in the order in which it makes them, and the status of the response.  The searcher, the templates, the disk and the encoder of JSON are inputs.
-/

namespace Trc.Wrap

open Trc.Core

/-- The values of type `any` that the handler and the searchers log besides strings. -/
structure HandlerValues (A : Type) extends Values A where
  request : SearchRequest → A
  list : List String → A

/-- What `renderTemplate` meets: the error of `ParseFS`, the local files that there are, the error of parsing them, whether there is a
template with the name, and how executing it ends: an error, or the size of the page.  An error is the one that `renderTemplate` returns,
with the text it puts before it, or for a panic, `PANIC` and its value (render.go:114-118). -/
structure Drawing where
  parse : Option String := none
  files : List String := []
  parseFiles : Option String := none
  found : Bool := true
  execute : Except String Nat

variable {A : Type} [Arg A]

/-- The lines that `renderTemplate` logs in its region, and what it returns, render.go:120-167. -/
def templateLines (v : HandlerValues A) (name : String) (d : Drawing) : List (String × List A) × Except String Nat :=
  match d.parse with
  | some e => ([], .error e)
  | none =>
    let parsed := [("template.ParseFS OK", [])]
    match if d.files.length > 0 then d.parseFiles else none with
    | some e => (parsed, .error e)
    | none =>
      let replaced := parsed ++ if d.files.length > 0 then [("local files %v", [v.list d.files])] else []
      if d.found then
        let looked := replaced ++ [("template.Lookup(%s) OK", [Arg.str name])]
        match d.execute with
        | .error e => (looked, .error e)
        | .ok n => (looked ++ [("template.Execute OK, %s", [Arg.str (String.ofList (Util.humanizeBytes n))])], .ok n)
      else (replaced, .error ("template (" ++ name ++ ") not found"))

/-- `renderTemplate`, render.go:110-168; `took` is the humanized duration of the region. -/
def templateActs (v : HandlerValues A) (ctx : Ctx A) (orphan : Nat) (stack : List StdFrame) (name : String) (d : Drawing) (took : String) :
    List (Act A) × Except String Nat :=
  let r := region ctx orphan orphan "renderTemplate" stack
  let p := templateLines v name d
  (r.2.2.1 ++ p.1.flatMap (fun l => r.2.1.logActs .lazyTracef l.1 l.2 stack) ++ r.2.2.2 took, p.2)

/-- `renderHTML`, render.go:45-59, with the status. -/
def htmlActs (v : HandlerValues A) (ctx : Ctx A) (orphan : Nat) (stack : List StdFrame) (name : String) (d : Drawing) (took : String) :
    List (Act A) × Int :=
  let tr := get ctx orphan
  let p := templateActs v ctx orphan stack name d took
  match p.2 with
  | .error e => (tr.2 ++ p.1 ++ tr.1.logActs .lazyErrorf "render template: %v" [v.err e] stack, 500)
  | .ok _ => (tr.2 ++ p.1, 200)

/-- `renderJSON`, render.go:61-81, with the status; `enc` is what encoding the data gives: an error, or the size. -/
def jsonActs (v : HandlerValues A) (ctx : Ctx A) (orphan : Nat) (stack : List StdFrame) (enc : Except String Nat) : List (Act A) × Int :=
  let tr := get ctx orphan
  match enc with
  | .error e => (tr.2 ++ tr.1.logActs .lazyErrorf "marshal JSON: %v" [v.err e] stack, 500)
  | .ok n => (tr.2 ++ tr.1.logActs .lazyTracef "marshaled JSON response (%s)" [Arg.str (String.ofList (Util.humanizeBytes n))] stack, 200)

/-- How the response is to be rendered: `useHTML` of render.go:32. -/
inductive Rendering where
  | html (d : Drawing) (took : String)
  | json (enc : Except String Nat)

/-- `renderResponse`, render.go:27-43 (what the request asks for is in `Verif/Web/Render.lean`). -/
def renderActs (v : HandlerValues A) (ctx : Ctx A) (orphan : Nat) (stack : List StdFrame) (name : String) : Rendering → List (Act A) × Int
  | .html d took => htmlActs v ctx orphan stack name d took
  | .json enc => jsonActs v ctx orphan stack enc

/-- `handleSearch`, trace_server.go:105-154, with the status.  `incoming` is the request that is read, or the error of decoding it; `search` is what the
searcher does, given the context and the request. -/
def handleSearchActs (v : HandlerValues A) (compile : Compile) (ctx : Ctx A) (orphan : Nat) (stack : List StdFrame)
    (incoming : Except String SearchRequest) (search : Ctx A → SearchRequest → List (Act A)) (view : Rendering) : Option (List (Act A) × Int) :=
  let tr := get ctx orphan
  match incoming with
  | .error e => some (tr.2 ++ tr.1.logActs .errorf "decode JSON request failed (%v) -- returning error" [v.err e] stack, 400)
  | .ok raw => do
    let (req, _) ← raw.normalize compile
    let rendered := renderActs v ctx orphan stack "traces.html" view
    return (tr.2 ++ tr.1.logActs .lazyTracef "search request %s" [v.request req] stack ++ search ctx req ++ rendered.1, rendered.2)

end Trc.Wrap
