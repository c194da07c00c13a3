import Verif.Go

/-!
# Scatter and gather (search_types.go:134-195)

`Verif/Search/Multi.lean` takes the answers in the order of their arrival.  Here is where this order comes from: the
goroutines of `MultiSearcher.Search` and its channel.  A searcher is the number of its place in the multi-searcher, from 0; how long it
searches is up to it, and it may never return, or panic.  What it returns is not decided before it returns: `Answer` is any type.
-/

namespace Trc.Gather

/-- Where the goroutine of the caller is. -/
inductive Phase where
  /-- search_types.go:152-158 -/
  | scatter
  /-- search_types.go:169-195 -/
  | gather
  /-- the rest, search_types.go:197-224 -/
  | returned
deriving DecidableEq

/-- The state of a search by `n` searchers. -/
structure State (Answer : Type) where
  phase : Phase := .scatter
  /-- `i`, search_types.go:152: the searchers that have been started -/
  started : Nat := 0
  /-- the searchers whose `Search` has not returned, search_types.go:155 -/
  searching : List Nat := []
  /-- goroutines about to send, search_types.go:156 -/
  sending : List (Nat × Answer) := []
  /-- `tuplec` -/
  chan : List (Nat × Answer) := []
  /-- what the gather loop has received, in order; its length is `i`, search_types.go:169 -/
  received : List (Nat × Answer) := []
  /-- `ctx` has been cancelled -/
  cancelled : Bool := false
  /-- a goroutine has panicked: the program has ended -/
  crashed : Bool := false

/-- What happens. -/
inductive Label (Answer : Type) where
  | start
  /-- the searcher returns -/
  | answer (i : Nat) (x : Answer)
  /-- the searcher panics -/
  | panics (i : Nat)
  | send (i : Nat) (x : Answer)
  | scattered
  | receive
  | finish
  | cancel

variable {Answer : Type}

/-- The statements of the goroutines of a search by `n` searchers; the capacity of the channel is `n`. -/
inductive Step (n : Nat) : State Answer → Label Answer → State Answer → Prop where
  /-- search_types.go:153 -/
  | start {s} : s.crashed = false → s.phase = .scatter → s.started < n →
      Step n s .start { s with started := s.started + 1, searching := s.searching ++ [s.started] }
  /-- search_types.go:155 -/
  | answer {s i x} : s.crashed = false → i ∈ s.searching →
      Step n s (.answer i x) { s with searching := s.searching.erase i, sending := s.sending ++ [(i, x)] }
  | panics {s i} : s.crashed = false → i ∈ s.searching → Step n s (.panics i) { s with crashed := true }
  /-- search_types.go:156; the goroutine ends -/
  | send {s i x a b} : s.crashed = false → s.sending = a ++ (i, x) :: b → s.chan.length < n →
      Step n s (.send i x) { s with sending := a ++ b, chan := s.chan ++ [(i, x)] }
  /-- search_types.go:159 -/
  | scattered {s} : s.crashed = false → s.phase = .scatter → s.started = n → Step n s .scattered { s with phase := .gather }
  /-- search_types.go:170 -/
  | receive {s x c} : s.crashed = false → s.phase = .gather → s.received.length < n → s.chan = x :: c →
      Step n s .receive { s with chan := c, received := s.received ++ [x] }
  /-- the loop ends, search_types.go:169 -/
  | finish {s} : s.crashed = false → s.phase = .gather → s.received.length = n → Step n s .finish { s with phase := .returned }
  /-- the caller, or another, cancels the context -/
  | cancel {s} : s.crashed = false → Step n s .cancel { s with cancelled := true }

/-- Any number of steps. -/
inductive Steps (n : Nat) : State Answer → List (Label Answer) → State Answer → Prop where
  | nil (s) : Steps n s [] s
  | cons {s ls s' l s''} : Steps n s ls s' → Step n s' l s'' → Steps n s (ls ++ [l]) s''

end Trc.Gather
