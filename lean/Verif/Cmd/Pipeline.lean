import Verif.Cmd.Stream

/-!
# `trc stream`: all URIs and the output (cmd/trc/stream.go:39-112, 183-208)

`runStreams` with a `runStream` for each URI, which are those of `Verif/Cmd/Stream.lean`, the channel `cfg.traces`
between them and `writeTraces`, and the run group.  The group is github.com/oklog/run: when one of its
functions returns, it calls the interrupt functions in order and waits for the others.  Here the first to
return is the signal handler, as the others return only when their contexts are cancelled.

The channel is a Go channel: a send puts the value into a free slot of the buffer, or hands it to the receiver if
that is waiting, which it only is if the buffer is empty.  What is written to standard output is the list of traces
given to the JSON encoder, with the number of the URI that each came from.
-/

namespace Trc.Cmd

open Trc.Web

/-- Where `runStreams` is. -/
inductive SPC
  /-- stream.go:106, at `<-ctx.Done()` -/
  | running
  /-- stream.go:109, at `wg.Wait()` -/
  | waiting
  | returned
deriving DecidableEq

/-- Where `writeTraces` is: in the `select` of its loop, stream.go:198-206, or past the end. -/
inductive WPC
  | running
  | returned
deriving DecidableEq

/-- The state: whether the signal handler has returned; whether the contexts of `runStreams` and `writeTraces` are
cancelled; the streams; the buffer of the channel; and what has been written. -/
structure PSt where
  signal : Bool := false
  rctx : Bool := false
  wctx : Bool := false
  spc : SPC := .running
  wpc : WPC := .running
  uris : Nat → RSt := fun _ => {}
  queue : List (Nat × Static) := []
  written : List (Nat × Static) := []

/-- The states of the streams after one of them took a step. -/
def setUri (f : Nat → RSt) (i : Nat) (u : RSt) : Nat → RSt := fun j => if j = i then u else f j

/-- The traces that the stream of a URI has sent to the channel. -/
def RSt.sent (u : RSt) : List Static := u.streams.flatMap (·.sent)

/-- A send to the channel, trace_server.go:507-510, in one of the calls of `Stream` for a URI. -/
inductive Sends : RSt → Static → RSt → Prop
  | mk {u a c b x} : u.streams = a ++ c :: b → c.pc = .sending x →
      Sends u x { u with streams := a ++ { c with pc := .reading, sent := c.sent ++ [x] } :: b }

section
variable (interval : Int) (n cap : Nat)

/-- The steps; `n` is the number of URIs and `cap` is `--recv-buffer`. -/
inductive PStep : PSt → PSt → Prop
  /-- stream.go:88: a signal arrives -/
  | signalled {s} : PStep s { s with signal := true }
  /-- stream.go:75-77: the first interrupt function -/
  | interruptStreams {s} : s.signal = true → PStep s { s with rctx := true }
  /-- stream.go:83-85: the second one -/
  | interruptWriter {s} : s.rctx = true → PStep s { s with wctx := true }
  /-- a stream does anything but send to the channel; it is told to stop only if the context of `runStreams` is
  cancelled -/
  | stream {s i u} : i < n → RStep interval (s.uris i) u → u.sent = (s.uris i).sent → (u.ctx = true → (s.uris i).ctx = false → s.rctx = true) →
      PStep s { s with uris := setUri s.uris i u }
  /-- a stream sends to the buffer -/
  | put {s i x u} : i < n → Sends (s.uris i) x u → s.queue.length < cap →
      PStep s { s with uris := setUri s.uris i u, queue := s.queue ++ [(i, x)] }
  /-- a stream sends to the waiting receiver, stream.go:200-202 -/
  | hand {s i x u} : i < n → Sends (s.uris i) x u → s.queue = [] → s.wpc = .running →
      PStep s { s with uris := setUri s.uris i u, written := s.written ++ [(i, x)] }
  /-- the writer receives from the buffer, stream.go:200-202 -/
  | receive {s y q} : s.wpc = .running → s.queue = y :: q →
      PStep s { s with queue := q, written := s.written ++ [y] }
  /-- stream.go:203-205 -/
  | writerDone {s} : s.wpc = .running → s.wctx = true → PStep s { s with wpc := .returned }
  /-- stream.go:106-108 -/
  | stopStreams {s} : s.spc = .running → s.rctx = true → PStep s { s with spc := .waiting }
  /-- stream.go:109-111 -/
  | streamsDone {s} : s.spc = .waiting → (∀ i, i < n → (s.uris i).pc = .returned) → PStep s { s with spc := .returned }

inductive PSteps : PSt → PSt → Prop
  | refl {s} : PSteps s s
  | snoc {s s' s''} : PSteps s s' → PStep interval n cap s' s'' → PSteps s s''

def PReach (s : PSt) : Prop := PSteps interval n cap {} s

/-- `g.Run()` returns, stream.go:90. -/
def PSt.over (s : PSt) : Prop := s.signal = true ∧ s.spc = .returned ∧ s.wpc = .returned

end

end Trc.Cmd
