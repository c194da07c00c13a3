import Verif.Web.Page

/-!
# The links to source code in the stacks of the page (trcweb/render.go:185-203, trcweb/assets/traces.html:437-452)

A `template.URL` in an `href` is normalized by html/template (`templateNormalize`), and the browser undoes the escaping of
the attribute.  A panic of the function is an error of the template, render.go:161-163.
-/

namespace Trc.Web

open Core (Frame)

/-- `SourceLinkFunc`, render.go:185-187; `none` is nil. -/
abbrev SourceLinkFunc := Option (String → Bytes)

/-- The default, render.go:189. -/
def defaultSourceLink : SourceLinkFunc := some fun _ => []

/-- `SourceLinkVSCode`, render.go:195-196. -/
def sourceLinkVSCode : SourceLinkFunc := some fun fileline => bytesOf "vscode://file/" ++ bytesOf fileline

/-- `sourceLinkFunc` after some calls of `SetSourceLinkFunc`, render.go:189-193. -/
def sourceLinkFunc (calls : List SourceLinkFunc) : SourceLinkFunc := calls.foldl (fun _ f => f) defaultSourceLink

/-- A frame of a stack on the page, after its function. -/
inductive Located where
  | link (href : Bytes) (shown : String)
  | plain (shown : String)
deriving DecidableEq, Repr

/-- traces.html:443-448, with `SourceLink`, render.go:203. -/
def located (f : SourceLinkFunc) (fr : Frame) : Option Located :=
  match f with
  | none => none
  | some f =>
    let href := f fr.fileLine
    if href ≠ [] then some (.link (templateNormalize href) (compactFileLine fr)) else some (.plain (compactFileLine fr))

/-- The frames of a stack, traces.html:438-450. -/
def locatedAll (f : SourceLinkFunc) (stack : List Frame) : Option (List Located) := stack.mapM (located f)

end Trc.Web
