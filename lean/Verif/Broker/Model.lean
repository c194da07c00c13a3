import Verif.Search.Filter

/-!
# Model of `broker.go`

Goroutines run `Publish`, `Stream` and `StreamStats` on one broker, others receive from the
channels.  The broker's mutex makes the sections of `Stream` and `StreamStats` single steps; a
publish takes one step for taking the lock and reading the trace, one step for every subscriber
and one step for the unlock, and receivers run in between.

Channels follow the Go runtime: a non-blocking send hands the value to the longest waiting
receiver, else puts it into a free slot of the buffer, else takes the `default` case.  Only this
broker sends to the channels and nobody closes them.  A nil channel is one of capacity 0 from
which nobody receives.

The map `subs` is a function; ranging over it visits every key once, in any order.  The counters
are natural numbers (they only grow, from 0).
-/

namespace Trc.Broker

abbrev Ch := Nat
abbrev Tid := Nat

/-- `type StreamStats`, broker.go:112-121. -/
structure StreamStats where
  skips : Nat := 0
  sends : Nat := 0
  drops : Nat := 0
deriving DecidableEq, Repr

/-- `type subscriber`, broker.go:128-132; the channel is the key of the map. -/
structure Sub where
  filter : Filter
  stats : StreamStats := {}

/-- The queue of a Go channel and the goroutines blocked in a receive from it. -/
structure Chan where
  buf : List Static := []
  waiting : List Tid := []

/-- A goroutine: not in `Stream`, at `<-ctx.Done()` (broker.go:79), or past it. -/
inductive Thread
  | idle
  | streaming (ch : Ch)
  | cancelled (ch : Ch)

/-- The map `b.subs`. -/
abbrev Subs := Ch → Option Sub

def upd {α : Type} (m : Nat → α) (k : Nat) (v : α) : Nat → α := fun k' => if k' = k then v else m k'

/-- `order` is a possible order of ranging over the map. -/
structure Enumerates (order : List Ch) (subs : Subs) : Prop where
  nodup : order.Nodup
  keys : ∀ ch, ch ∈ order ↔ (subs ch).isSome

/-- `select { case ch <- x: … default: … }`: the channel afterwards and the receiver served
directly, or `none` for the default case. -/
def trySend (cap : Nat) (c : Chan) (x : Static) : Option (Chan × Option Tid) :=
  match c.waiting with
  | r :: rs => some ({ c with waiting := rs }, some r)
  | [] => if c.buf.length < cap then some ({ c with buf := c.buf ++ [x] }, none) else none

/-- What `Publish` did for a subscriber. -/
inductive Verdict
  | skipped
  | sent (to : Option Tid)
  | dropped

/-- The `select` of `Publish`, broker.go:42-47. -/
def send (cap : Nat) (sub : Sub) (c : Chan) (str : Static) : Sub × Chan × Verdict :=
  match trySend cap c str with
  | some (c', to) => ({ sub with stats := { sub.stats with sends := sub.stats.sends + 1 } }, c', .sent to)
  | none => ({ sub with stats := { sub.stats with drops := sub.stats.drops + 1 } }, c, .dropped)

/-- The body of the loop of `Publish`, broker.go:37-48; `Allow` may store the compiled query in
the subscriber's filter. -/
def visit (compile : Compile) (cap : Nat) (sub : Sub) (c : Chan) (str : Static) : Sub × Chan × Verdict :=
  let (ok, f) := sub.filter.allow compile str
  let sub := { sub with filter := f }
  if !ok then ({ sub with stats := { sub.stats with skips := sub.stats.skips + 1 } }, c, .skipped)
  else send cap sub c str

/-- The first section of `Stream`, broker.go:61-77; `none` is "already subscribed". -/
def register (subs : Subs) (ch : Ch) (f : Filter) : Option Subs :=
  match subs ch with
  | some _ => none
  | none => some (upd subs ch (some { filter := f }))

/-- The second section of `Stream`, broker.go:81-95: the map, and the statistics returned;
`none` is the "programmer error". -/
def unregister (subs : Subs) (ch : Ch) : Subs × Option StreamStats :=
  (upd subs ch none, (subs ch).map (·.stats))

/-- `StreamStats`, broker.go:99-109; `none` is "not subscribed". -/
def streamStats (subs : Subs) (ch : Ch) : Option StreamStats := (subs ch).map (·.stats)

/-- What an observer sees of a step. -/
inductive Label
  /-- `t` called `Stream` and is subscribed -/
  | subscribed (t : Tid) (ch : Ch) (f : Filter)
  /-- `t` called `Stream`, which returned "already subscribed" -/
  | refused (t : Tid) (ch : Ch)
  /-- the context of `t`'s `Stream` was cancelled -/
  | cancel (t : Tid)
  /-- `Stream` returned to `t` with these statistics -/
  | returned (t : Tid) (ch : Ch) (st : StreamStats)
  /-- `Stream` returned to `t` with "not subscribed (programmer error)" -/
  | programmerError (t : Tid) (ch : Ch)
  /-- `StreamStats` returned this -/
  | stats (ch : Ch) (st : Option StreamStats)
  /-- a `Publish` took the lock, and this is its stream trace -/
  | publish (str : Static)
  /-- the publish dealt with a subscriber -/
  | visited (ch : Ch) (str : Static) (v : Verdict)
  /-- the publish is over -/
  | release
  /-- `r` received from the buffer -/
  | recv (r : Tid) (ch : Ch) (x : Static)
  /-- `r` is waiting for a value -/
  | wait (r : Tid) (ch : Ch)
  /-- `r` gave up waiting -/
  | abandon (r : Tid) (ch : Ch)

/-- The state of the broker, the channels and the goroutines; `lock` is the publish that holds
the mutex, with its stream trace and the subscribers it has yet to visit. -/
structure St where
  subs : Subs := fun _ => none
  chans : Ch → Chan := fun _ => {}
  threads : Tid → Thread := fun _ => .idle
  lock : Option (Static × List Ch) := none

section
variable (compile : Compile) (cap : Ch → Nat)

/-- The steps of the goroutines. -/
inductive Step : St → Label → St → Prop
  /-- broker.go:61-75 -/
  | subscribe {s t ch f subs'} : s.lock = none → s.threads t = .idle → register s.subs ch f = some subs' →
      Step s (.subscribed t ch f) { s with subs := subs', threads := upd s.threads t (.streaming ch) }
  /-- broker.go:65-67, 75-77 -/
  | refuse {s t ch f} : s.lock = none → s.threads t = .idle → register s.subs ch f = none →
      Step s (.refused t ch) s
  /-- broker.go:79 -/
  | cancel {s t ch} : s.threads t = .streaming ch →
      Step s (.cancel t) { s with threads := upd s.threads t (.cancelled ch) }
  /-- broker.go:81-95 -/
  | finish {s t ch subs' st} : s.lock = none → s.threads t = .cancelled ch →
      unregister s.subs ch = (subs', some st) →
      Step s (.returned t ch st) { s with subs := subs', threads := upd s.threads t .idle }
  /-- broker.go:81-93 -/
  | lost {s t ch subs'} : s.lock = none → s.threads t = .cancelled ch →
      unregister s.subs ch = (subs', none) →
      Step s (.programmerError t ch) { s with subs := subs', threads := upd s.threads t .idle }
  /-- broker.go:99-109 -/
  | stats {s ch} : s.lock = none → Step s (.stats ch (streamStats s.subs ch)) s
  /-- broker.go:25-36; without subscribers the trace is not read and nothing is visited -/
  | publish {s str order} : s.lock = none → Enumerates order s.subs →
      Step s (.publish str) { s with lock := some (str, order) }
  /-- broker.go:36-48 -/
  | visit {s str ch rest sub sub' c' v} : s.lock = some (str, ch :: rest) → s.subs ch = some sub →
      visit compile (cap ch) sub (s.chans ch) str = (sub', c', v) →
      Step s (.visited ch str v)
        { s with subs := upd s.subs ch (some sub'), chans := upd s.chans ch c', lock := some (str, rest) }
  /-- broker.go:49 -/
  | release {s str} : s.lock = some (str, []) → Step s .release { s with lock := none }
  /-- a receive with a value in the buffer -/
  | recv {s r ch x xs} : (s.chans ch).buf = x :: xs →
      Step s (.recv r ch x) { s with chans := upd s.chans ch { s.chans ch with buf := xs } }
  /-- a receive from an empty channel -/
  | wait {s r ch} : (s.chans ch).buf = [] →
      Step s (.wait r ch)
        { s with chans := upd s.chans ch { s.chans ch with waiting := (s.chans ch).waiting ++ [r] } }
  /-- a `select` that took another case -/
  | abandon {s r ch} : r ∈ (s.chans ch).waiting →
      Step s (.abandon r ch)
        { s with chans := upd s.chans ch { s.chans ch with waiting := (s.chans ch).waiting.erase r } }

/-- The histories, oldest label first, and the states they lead to. -/
inductive Run : List Label → St → Prop
  | init : Run [] {}
  | step {h s l s'} : Run h s → Step compile cap s l s' → Run (h ++ [l]) s'
end

end Trc.Broker
