import Verif.Web.StreamClient

/-!
# `trc stream`: one URI (cmd/trc/stream.go:114-181)

`runStream` in its goroutine, the reporter goroutine, and a goroutine for every call of
`StreamClient.Stream`, which is that of `Verif.Web.StreamClient`.  When the parent context ends,
what the network does and when somebody receives from `cfg.traces` is arbitrary.  The debug log is
in `Verif/Cmd/Watching.lean`.  A stats interval of zero or less makes `time.NewTicker` panic, which ends the program: it
is a state of its own.
-/

namespace Trc.Cmd

open Trc.Web

/-- Where `runStream` is. -/
inductive RPC
  /-- stream.go:126, at the `go` statement -/
  | start
  /-- stream.go:162, at the loop's condition -/
  | top
  /-- stream.go:167, in the `select` -/
  | select
  /-- stream.go:169-171, past `subctx.Done()`, at `<-errc` -/
  | stopping
  /-- stream.go:177, in `contextSleep` -/
  | sleeping
  /-- stream.go:147, in the deferred `<-reporterDone` -/
  | leaving
  | returned
  | crashed
deriving DecidableEq

/-- The reporter goroutine, stream.go:126-145. -/
inductive Reporter
  | unborn
  | born
  | running
  | done
deriving DecidableEq

/-- The state: `ctx` is whether the parent context is done; `streams` are all calls of `Stream` so far;
the `ctx` of each of them is whether its `subctx` is done. -/
structure RSt where
  ctx : Bool := false
  pc : RPC := .start
  rep : Reporter := .unborn
  streams : List CSt := []

/-- A context that is done. -/
def CSt.done (c : CSt) : CSt := { c with ctx := true }

/-- `cancel()` of the current iteration: the last element. -/
def cancelLast : List CSt → List CSt
  | [] => []
  | [c] => [CSt.done c]
  | c :: cs => c :: cancelLast cs

section
variable (interval : Int)

/-- The steps. -/
inductive RStep : RSt → RSt → Prop
  /-- the parent context ends, and with it the contexts derived from it -/
  | parentDone {s} : RStep s { s with ctx := true, streams := s.streams.map CSt.done }
  /-- a goroutine in `Stream`, or the one that it started -/
  | client {s a c c' b} : s.streams = a ++ c :: b → CStep c c' → c'.ctx = c.ctx →
      RStep s { s with streams := a ++ c' :: b }
  /-- stream.go:126, 150 -/
  | spawn {s} : s.pc = .start → RStep s { s with pc := .top, rep := .born }
  /-- stream.go:128 -/
  | ticker {s} : s.rep = .born → 0 < interval → RStep s { s with rep := .running }
  | tickerPanics {s} : s.rep = .born → interval ≤ 0 → RStep s { s with pc := .crashed }
  /-- stream.go:141-142, 127 -/
  | reporterDone {s} : s.rep = .running → s.ctx = true → RStep s { s with rep := .done }
  /-- stream.go:162-165 -/
  | begin {s} : s.pc = .top → s.ctx = false → RStep s { s with pc := .select, streams := s.streams ++ [{}] }
  /-- stream.go:162: the loop ends -/
  | exit {s} : s.pc = .top → s.ctx = true → RStep s { s with pc := .leaving }
  /-- stream.go:168-170 -/
  | subctxDone {s a c} : s.pc = .select → s.streams = a ++ [c] → c.ctx = true →
      RStep s { s with pc := .stopping, streams := cancelLast s.streams }
  /-- stream.go:171-172 -/
  | stopped {s a c r} : s.pc = .stopping → s.streams = a ++ [c] → c.pc = .returned r →
      RStep s { s with pc := .leaving }
  /-- stream.go:174-176 -/
  | failed {s a c r} : s.pc = .select → s.streams = a ++ [c] → c.pc = .returned r →
      RStep s { s with pc := .sleeping, streams := cancelLast s.streams }
  /-- stream.go:177-178: the time is up, or the context is done -/
  | wake {s} : s.pc = .sleeping → RStep s { s with pc := .top }
  /-- stream.go:146-148 -/
  | leave {s} : s.pc = .leaving → s.rep = .done → RStep s { s with pc := .returned }

inductive RSteps : RSt → RSt → Prop
  | refl {s} : RSteps s s
  | snoc {s s' s''} : RSteps s s' → RStep interval s' s'' → RSteps s s''

def RReach (s : RSt) : Prop := RSteps interval {} s

end

end Trc.Cmd
