import Verif.Web.EventText
import Verif.Search.Filter

/-!
# What the page marks for a query (trcweb/assets/traces.html:78-92, 431, 436-453, 498, trcweb/render.go:240-245)

The elements of class `searchable` in a trace: the text of each event (not the start and the end, which the page
adds), and the function and the file of each frame of its stack.  The content of an element is a list of nodes, as in
`Verif/Web/EventText.lean`.
-/

namespace Trc.Web

/-- A regular expression of the browser: the first match in a text, as what is before, the match, and the rest. -/
abbrev Find := List Char → Option (List Char × List Char × List Char)

/-- What `innerHTML` gives for a node. -/
def serializeNode : Node → List Char
  | .char c =>
    if c = '&' then "&amp;".toList
    else if c = '<' then "&lt;".toList
    else if c = '>' then "&gt;".toList
    else if c = '\u00a0' then "&nbsp;".toList
    else [c]
  | .tag t => '<' :: t ++ ['>']

/-- `elem.innerHTML` -/
def innerHTML (content : List Node) : List Char := content.flatMap serializeNode

/-- What the loop of `highlightQuery` does to an element, traces.html:81-91: the expression is tried on the markup, and
the text is put into the page as markup, without the tags of marks in it. -/
def highlightElem (find : Find) (content : List Node) : List Node :=
  if (find (innerHTML content)).isSome then readMarkup .data (mark find (unmark 0 (textContent content))) else content

/-- `humanizeFunction`, render.go:240-245. -/
def humanizeFunction (s : List Char) : List Char :=
  let index := lastIndex s '/'
  if index > 0 ∧ index < s.length then s.drop (index + 1).toNat else s

/-- The text of an event, traces.html:431. -/
def whatContent (ev : Core.Event) : List Node := readMarkup .data (eventMarkup ev.what.toList)

/-- The function of a frame, traces.html:441; html/template escapes what it is given, so the browser shows just that. -/
def functionContent (fr : Core.Frame) : List Node := (humanizeFunction fr.function.toList).map .char

/-- The file and line of a frame, traces.html:446, 448. -/
def fileContent (fr : Core.Frame) : List Node := (compactFileLine fr).toList.map .char

/-- The searchable elements of a trace, in order, traces.html:416-463. -/
def searchable (tr : Static) : List (List Node) :=
  tr.events.flatMap fun ev => whatContent ev :: ev.stack.flatMap fun fr => [functionContent fr, fileContent fr]

/-- The searchable elements of a trace after the page's script, traces.html:78-92, 498, for a query.  `new RegExp` throws
(`none`) on what is no expression to the browser, and the page stays as it was. -/
def pageElements (newRegExp : String → Option Find) (query : String) (tr : Static) : List (List Node) :=
  if query = "" then searchable tr
  else match newRegExp query with
    | none => searchable tr
    | some find => (searchable tr).map (highlightElem find)

/-- The element has a mark. -/
def marked (content : List Node) : Prop := "mark class=\"highlight\"".toList ∈ tagsIn content

instance (content : List Node) : Decidable (marked content) := by unfold marked; infer_instance

end Trc.Web
