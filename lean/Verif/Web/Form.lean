import Verif.Web.Page

/-!
# The search form on the page (trcweb/assets/traces.html:241-310)

The browser's part is after the HTML standard: the value of the text box has no line breaks, a `select` has the value of
the option that is selected or of the first one, and fields are sent as `application/x-www-form-urlencoded`.  The
script at 296-308 leaves out the fields that are empty.
-/

namespace Trc.Web

/-- The value of a text input: without line breaks. -/
def oneLine (s : String) : String := String.ofList (s.toList.filter fun c => c ≠ '\n' ∧ c ≠ '\r')

/-- Line breaks in the values that are sent are pairs of characters. -/
def crlf : List Char → List Char
  | [] => []
  | '\r' :: '\n' :: s => '\r' :: '\n' :: crlf s
  | '\r' :: s => '\r' :: '\n' :: crlf s
  | '\n' :: s => '\r' :: '\n' :: crlf s
  | c :: s => c :: crlf s

/-- The value of the `source` field, traces.html:244-256. -/
def sourceField (sources responseSources : List String) : String :=
  let first := (sources.head?).getD ""
  if responseSources.length > 1 then (if first ∈ responseSources then first else "") else ""

/-- A hidden field, traces.html:268-290. -/
def hidden (c : Bool) (name value : String) : List (String × String) := if c then [(name, value)] else []

/-- The fields of the form, traces.html:241-294, for the page of a request and the sources of the response. -/
def formFields (req : SearchRequest) (responseSources : List String) : List (String × String) :=
  [("q", oneLine req.filter.query),
   ("source", sourceField req.filter.sources responseSources),
   ("n", String.ofList (decimalString req.limit))] ++
  hidden (req.filter.category ≠ "" ∧ req.filter.category ≠ "overall") "category" req.filter.category ++
  hidden req.filter.isActive "active" "true" ++
  hidden req.filter.isFinished "finished" "true" ++
  (req.filter.minDuration.toList.map fun d => ("min", String.ofList (durationString d))) ++
  hidden req.filter.isSuccess "success" "true" ++
  hidden req.filter.isErrored "errored" "true"

/-- A byte in a form. -/
def formByte (c : UInt8) : Bytes :=
  if c = ch ' ' then [ch '+']
  else if (unreserved c && c != ch '~') || c == ch '*' then [c]
  else [ch '%', upperhex (c / 16), upperhex (c % 16)]

/-- A field in a form. -/
def formPair (p : String × String) : Bytes :=
  (bytesOf p.1).flatMap formByte ++ ch '=' :: (bytesOf (String.ofList (crlf p.2.toList))).flatMap formByte

/-- The query that submitting the form sends. -/
def formQuery (req : SearchRequest) (responseSources : List String) : Bytes :=
  joinAmp (((formFields req responseSources).filter fun p => p.2 ≠ "").map formPair)

end Trc.Web
