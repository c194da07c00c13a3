import Verif.Cmd.Stream
import Verif.Util.Humanize

/-!
# `trc stream`: what it writes to its debug log about a URI (cmd/trc/stream.go:114-181)

`runStream` of `Verif/Cmd/Stream.lean` with a clock, with the ticker of the reporter, and with what `onRead` stores.
A call of `onRead` is one action, and so is what the reporter does at a tick. Times are those of the monotonic clock, in nanoseconds; the runtime may be late with
ticks.
-/

namespace Trc.Cmd

open Trc.Web

/-- What is written with `cfg.debug.Printf`, after the URI; stream.go. -/
inductive WLine where
  /-- `starting`, 150 -/
  | starting
  /-- `stream re/connected`, 121 -/
  | connected
  /-- `no data`, 137 -/
  | noData
  /-- `last data %s ago`, 139 -/
  | silent (ago : Duration)
  /-- `stream done`, 169 -/
  | streamDone
  /-- `stream error, will retry (%v)`, 175 -/
  | retrying (r : CRes)
  /-- `stopped`, 151 -/
  | stopped
deriving DecidableEq

/-- What happens, in order: something arrives, with its type; the reporter looks at the time of a tick; something is written. -/
inductive WEv where
  | arrives (t : Int) (type : String)
  | checks (ts : Int)
  | line (t : Int) (l : WLine)
deriving DecidableEq

/-- The state: `next` is when the ticker fires next, `due` what is in its channel, which has room for one, `last` is `lastData`. -/
structure WSt where
  r : RSt := {}
  now : Int := 0
  next : Int := 0
  due : Option Int := none
  last : Option Int := none
  hist : List WEv := []

/-- What the calls of `Stream` have read. -/
def RSt.reads (r : RSt) : List SSE := r.streams.flatMap (·.read)

/-- What the last call of `Stream` has returned. -/
def RSt.result (r : RSt) : Option CRes :=
  match r.streams.getLast? with
  | some { pc := .returned x, .. } => some x
  | _ => none

/-- What `runStream` writes when it goes on, stream.go:150-151, 169, 175. The deferred `Printf` runs before the deferred
function that waits for the reporter. -/
def lineOf (r r' : RSt) : Option WLine :=
  match r.pc, r'.pc with
  | .start, .top => some .starting
  | .select, .stopping => some .streamDone
  | .select, .sleeping => r.result.map .retrying
  | .top, .leaving => some .stopped
  | .stopping, .leaving => some .stopped
  | _, _ => none

/-- What the reporter writes at a tick, stream.go:132-140. -/
def report (interval : Int) (last : Option Int) (ts : Int) : Option WLine :=
  match last with
  | none => some .noData
  | some t => if ts - t > 2 * interval then some (.silent (Util.truncate (ts - t) 100000000)) else none

section
variable (interval : Int)

/-- The steps. -/
inductive WStep : WSt → WSt → Prop
  | pass {s t} : s.now ≤ t → WStep s { s with now := t }
  /-- a step of one of the goroutines in which nothing is read; stream.go:128: a new ticker fires after the interval -/
  | goes {s r'} : RStep interval s.r r' → r'.reads = s.r.reads →
      WStep s { s with
        r := r'
        next := if s.r.rep = .born ∧ r'.rep = .running then s.now + interval else s.next
        hist := s.hist ++ (lineOf s.r r').toList.map (.line s.now) }
  /-- `onRead`, stream.go:118-123, called at trace_server.go:496 -/
  | reads {s a c b ev} : s.r.streams = a ++ c :: b → c.pc = .reading →
      WStep s { s with
        r := { s.r with streams := a ++ { c with pc := dispatch ev, read := c.read ++ [ev] } :: b }
        last := some s.now
        hist := s.hist ++ .arrives s.now ev.type :: (if ev.type = "init" then [.line s.now .connected] else []) }
  /-- the runtime sends the time, unless the channel is full, and sets the ticker to the next multiple of the interval -/
  | fires {s t} : s.r.rep = .running → s.next ≤ s.now → s.now < t → t ≤ s.now + interval →
      WStep s { s with due := some (s.due.getD s.now), next := t }
  /-- stream.go:132-140 -/
  | checks {s ts} : s.r.rep = .running → s.due = some ts →
      WStep s { s with
        due := none
        hist := s.hist ++ .checks ts :: (report interval s.last ts).toList.map (.line s.now) }

inductive WSteps : WSt → WSt → Prop
  | refl {s} : WSteps s s
  | snoc {s s' s''} : WSteps s s' → WStep interval s' s'' → WSteps s s''

def WReach (s : WSt) : Prop := WSteps interval {} s

end

end Trc.Cmd
