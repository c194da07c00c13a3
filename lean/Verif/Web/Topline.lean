import Verif.Web.Shown

/-!
# Model of the line above the traces, traces.html:314-355, and of the note below it, 376-378

Numbers are kept as numbers and texts as they are handed to the template; how long the search took is left out.
-/

namespace Trc.Web

/-- A number with the list that opens below it: `sources={{ len . }}`, `problems={{ len . }}`. -/
structure Listing where
  count : Nat
  items : List String
deriving DecidableEq, Repr

/-- `{{ if . }}`: an empty list is not shown. -/
def listing (l : List String) : Option Listing := if l.isEmpty then none else some ⟨l.length, l⟩

/-- The line. -/
structure Topline where
  sources : Option Listing
  total : Int
  matched : Int
  shown : Nat
  problems : Option Listing
deriving DecidableEq, Repr

/-- traces.html:314-355 -/
def topline (data : SearchData) : Topline where
  sources := listing data.response.sources
  total := data.response.totalCount
  matched := data.response.matchCount
  shown := data.response.traces.length
  problems := listing data.problems

/-- "No matching traces found.", traces.html:376-378. -/
def nothingFound (data : SearchData) : Bool := data.response.traces.isEmpty

end Trc.Web
