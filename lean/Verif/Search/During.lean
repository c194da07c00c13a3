import Verif.Search.Search
import Verif.Ring.Many

/-!
# `Collector.Search` while traces are created and categories resized

`GetAll` copies the map of buffers under `rbs.mtx`; each buffer is then walked under its own lock
(ringbuffer.go:131-152, 218-228).  Between these critical sections other goroutines take any steps of
`Verif/Ring/Many.lean`.  `GetOrCreate` never replaces a buffer, so that the buffer that is walked is the one the category has
at that time.
-/

namespace Trc.Search

open Ring

variable {α : Type} [Inhabited α]

/-- The categories in the order of the iteration over the map that `GetAll` returned, each with the steps
of others that come before its walk. -/
abbrev Plan (α : Type) := List (List (MOp α) × String)

/-- The buffers as they are when they are walked, collector.go:148-150. -/
def ringsDuring : RBs α → Plan α → Option (List (RB α))
  | _, [] => some []
  | s, (ops, category) :: plan => do
    let (s', _) ← s.run ops
    let rb ← s'.buf category
    let rbs ← ringsDuring s' plan
    return rb :: rbs

/-- `Collector.Search`, collector.go:137-195, with others. -/
def searchDuring (compile : Compile) (srt : List Static → List Static) (source : String) (req : SearchRequest)
    (view : α → Look → Static) (s : RBs α) (plan : Plan α) : Option SearchResponse := do
  let rings ← ringsDuring s plan
  search compile srt source req view rings

end Trc.Search
