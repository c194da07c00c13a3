import Verif.Web.Server
import Verif.Web.Client

/-!
# How the stream handler reads its request (trcweb/trace_server.go:228-267)
-/

namespace Trc.Web

/-- An HTTP request for a stream. -/
structure StreamHTTP where
  rawQuery : Bytes
  /-- the content type contains "application/json" -/
  isJSON : Bool
  /-- the body, if it is JSON -/
  body : Option JSON

/-- What the handler goes on with: an error response, or a stream with a filter, an interval for the statistics and a
send buffer. -/
inductive StreamAnswer where
  | refused (status : Int) (text : String)
  | streams (f : Filter) (interval : Duration) (sendbuf : Int)

/-- What encoding/json leaves in a variable whose field has a value of another type: its zero value. -/
def keep {α : Type} (o : Fields) (name : String) (zero : α) (dec : JSON → Option α) : α := (get o name zero dec).getD zero

/-- The same for a slice: the elements of another type have the zero value. -/
def keepStrs : JSON → Option (List String)
  | .arr l => some (l.map fun v => (decStr v).getD "")
  | _ => none

/-- What encoding/json leaves in a filter, from JSON in which some values are of other types; such an error does
not end the decoding.  The pointer for a duration is allocated before the value is looked at. -/
def leftFilter : JSON → Filter
  | .obj o =>
    { sources := keep o "sources" [] keepStrs
      ids := keep o "ids" [] keepStrs
      category := keep o "category" "" decStr
      isActive := keep o "is_active" false decBool
      isFinished := keep o "is_finished" false decBool
      minDuration := keep o "min_duration" none fun v => some (some ((decInt v).getD 0))
      isSuccess := keep o "is_success" false decBool
      isErrored := keep o "is_errored" false decBool
      query := keep o "query" "" decStr }
  | _ => {}

/-- The text of the response, trace_server.go:246-247. -/
def badRequest (problems : List String) : String := "bad request: " ++ "; ".intercalate problems

section
variable (compile : Compile) (mulFrac : Nat → Nat → Nat → Nat) (size : JSON → Nat)

/-- The filter, and whether it could be decoded, trace_server.go:234-243.  A body that is too large or no JSON is not
looked into. -/
def readFilter (r : StreamHTTP) : Filter × Bool :=
  if r.isJSON then
    match r.body with
    | none => ({}, false)
    | some v =>
      if size v > maxRequestBodySizeBytes then ({}, false)
      else match decFilter v with
        | some f => (f, true)
        | none => (leftFilter v, false)
  else (parseFilter mulFrac r.rawQuery, true)

/-- The beginning of `handleStream`, trace_server.go:228-267. -/
def startStream (r : StreamHTTP) : StreamAnswer :=
  match (readFilter mulFrac size r).1.normalize compile with
  | (f, []) => .streams f (statsOfURL mulFrac r.rawQuery) (sendbufOfURL r.rawQuery)
  | (_, problems) => .refused 400 (badRequest problems)

end

end Trc.Web
