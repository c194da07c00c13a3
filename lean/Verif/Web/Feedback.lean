/-!
# Streams that watch each other (trcweb/trace_server.go:225-357)

`handleStream` logs to the trace of its request.  If that trace is one of the collector that is streamed, as with `Middleware`, then
what is logged is published, too, and goes to all the streams whose filters match it, which are there to watch requests.  Here are any number of streams from one
broker, and what they log; of what is published only matters which trace it is about.  `Publish` holds the lock of the broker, so it is one
step (Verif/Broker/Model.lean has all its details).
-/

namespace Trc.Web.Feedback

/-- The streams: the capacity of their channels, and whether the filter of a stream matches the trace of another stream's request while that is active. -/
structure Cfg where
  n : Nat
  cap : Nat → Nat
  accepts : Nat → Nat → Bool

/-- What a message is about: the trace of a stream's request, or something else. -/
abbrev Msg := Option Nat

/-- Where a handler is: before trace_server.go:234 (0), or with `k - 1` of the lines 251-267 logged; before line 282; in the loop, the init event being written or not; has left it. -/
inductive PC where
  | setup (k : Nat)
  | ready
  | loop (init : Bool)
  | ended
deriving DecidableEq

/-- The goroutine of trace_server.go:272-276: not started, in `Stream`, back from `Stream`, and done. -/
inductive G where
  | waiting
  | streaming
  | back
  | done
deriving DecidableEq

structure Stream where
  pc : PC := .setup 0
  g : G := .waiting
  queue : List Msg := []
deriving DecidableEq

/-- All the streams; what has been published, by anyone; how many of that by others, on ticks, and as a stream could not write a trace. -/
structure S where
  streams : Nat → Stream := fun _ => {}
  log : List Msg := []
  ext : Nat := 0
  ticks : Nat := 0
  fails : Nat → Nat := fun _ => 0

/-- What `Publish` does to a subscriber, broker.go:24-49: a send, unless the filter does not match or the buffer is full.  A channel without buffer takes
a message if the handler waits for it. -/
def Offered (cap : Nat) (matches_ : Bool) (m : Msg) (a b : Stream) : Prop :=
  (b = { a with queue := a.queue ++ [m] } ∧ a.g = .streaming ∧ matches_ = true ∧ a.queue.length < max cap 1) ∨
  (b = a ∧ (a.g ≠ .streaming ∨ matches_ = false ∨ cap ≤ a.queue.length))

/-- `Publish`. -/
def Published (cfg : Cfg) (matches_ : Nat → Bool) (m : Msg) (a b : Nat → Stream) : Prop :=
  ∀ i, Offered (cfg.cap i) (matches_ i) m (a i) (b i)

/-- One stream has changed. -/
def set (f : Nat → Stream) (i : Nat) (x : Stream) : Nat → Stream := fun j => if j = i then x else f j

/-- Stream `i` logs a line: its trace is published. -/
def Logs (cfg : Cfg) (i : Nat) (a b : Nat → Stream) : Prop := Published cfg (fun j => cfg.accepts j i) (some i) a b

/-- The steps. -/
inductive Step (cfg : Cfg) : S → S → Prop
  /-- Others publish something, about their own traces or about those of the streams (as `Middleware` does). -/
  | other {s m matches_ b} : Published cfg matches_ m s.streams b →
    Step cfg s { s with streams := b, log := s.log ++ [m], ext := s.ext + 1 }
  /-- There is a filter, trace_server.go:234-243. -/
  | filter {s i} : i < cfg.n → (s.streams i).pc = .setup 0 → Step cfg s { s with streams := set s.streams i { s.streams i with pc := .setup 1 } }
  /-- The filter can't be decoded, and the default is used: trace_server.go:239. -/
  | filterFails {s i b} : i < cfg.n → (s.streams i).pc = .setup 0 → Logs cfg i (set s.streams i { s.streams i with pc := .setup 1 }) b →
    Step cfg s { s with streams := b, log := s.log ++ [some i] }
  /-- The filter is not valid, trace_server.go:245-249. -/
  | refused {s i} : i < cfg.n → (s.streams i).pc = .setup 1 →
    Step cfg s { s with streams := set s.streams i { s.streams i with pc := .ended, g := .done } }
  /-- trace_server.go:251, 254 or 256, 266, 267 -/
  | setup {s i k b} : i < cfg.n → (s.streams i).pc = .setup k → 1 ≤ k → k ≤ 4 →
    Logs cfg i (set s.streams i { s.streams i with pc := if k = 4 then .ready else .setup (k + 1) }) b →
    Step cfg s { s with streams := b, log := s.log ++ [some i] }
  /-- trace_server.go:273: the stream subscribes -/
  | subscribe {s i} : i < cfg.n → (s.streams i).g = .waiting → (∀ k, (s.streams i).pc ≠ .setup k) →
    Step cfg s { s with streams := set s.streams i { s.streams i with g := .streaming } }
  /-- `Stream` returns -/
  | unsubscribe {s i} : i < cfg.n → (s.streams i).g = .waiting ∨ (s.streams i).g = .streaming → (∀ k, (s.streams i).pc ≠ .setup k) →
    Step cfg s { s with streams := set s.streams i { s.streams i with g := .back } }
  /-- trace_server.go:274 -/
  | returned {s i b} : i < cfg.n → (s.streams i).g = .back → Logs cfg i (set s.streams i { s.streams i with g := .done }) b →
    Step cfg s { s with streams := b, log := s.log ++ [some i] }
  /-- trace_server.go:282 -/
  | ready {s i b} : i < cfg.n → (s.streams i).pc = .ready → Logs cfg i (set s.streams i { s.streams i with pc := .loop true }) b →
    Step cfg s { s with streams := b, log := s.log ++ [some i] }
  /-- The init event is written, trace_server.go:292-308. -/
  | init {s i} : i < cfg.n → (s.streams i).pc = .loop true →
    Step cfg s { s with streams := set s.streams i { s.streams i with pc := .loop false } }
  /-- It can't be written, trace_server.go:298, 306. -/
  | initFails {s i b} : i < cfg.n → (s.streams i).pc = .loop true → Logs cfg i (set s.streams i { s.streams i with pc := .loop false }) b →
    Step cfg s { s with streams := b, log := s.log ++ [some i] }
  /-- A tick: one line in any case, trace_server.go:313, 319, 327, 331. -/
  | tick {s i init b} : i < cfg.n → (s.streams i).pc = .loop init → Logs cfg i s.streams b →
    Step cfg s { s with streams := b, log := s.log ++ [some i], ticks := s.ticks + 1 }
  /-- A trace is received, and skipped since it is that of this stream, or written: trace_server.go:333-347. -/
  | receive {s i init m q} : i < cfg.n → (s.streams i).pc = .loop init → (s.streams i).queue = m :: q →
    Step cfg s { s with streams := set s.streams i { s.streams i with queue := q } }
  /-- A trace of another one is received, and can't be written: trace_server.go:340, 348. -/
  | receiveFails {s i init m q b} : i < cfg.n → (s.streams i).pc = .loop init → (s.streams i).queue = m :: q → m ≠ some i →
    Logs cfg i (set s.streams i { s.streams i with queue := q }) b →
    Step cfg s { s with streams := b, log := s.log ++ [some i], fails := fun j => if j = i then s.fails i + 1 else s.fails j }
  /-- trace_server.go:352-359 -/
  | stop {s i init b} : i < cfg.n → (s.streams i).pc = .loop init → Logs cfg i (set s.streams i { s.streams i with pc := .ended }) b →
    Step cfg s { s with streams := b, log := s.log ++ [some i] }

inductive Steps (cfg : Cfg) : S → S → Prop
  | refl {s} : Steps cfg s s
  | snoc {s s' s''} : Steps cfg s s' → Step cfg s' s'' → Steps cfg s s''

def Reach (cfg : Cfg) (s : S) : Prop := Steps cfg {} s

end Trc.Web.Feedback
