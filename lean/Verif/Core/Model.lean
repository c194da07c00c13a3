import Verif.Go
import Verif.Time

/-!
# Model of `trace_core.go`: one core trace as a value

This file models the methods of `coreTrace`, `coreEvent` and `stringer` on values.
Pooling, i.e. the sharing of the objects behind these values, is modelled separately
in `Verif/Heap`, where every pooled object is shown to behave like the values here.

Inputs from outside are explicit: every method runs in an `Env` giving the clock
reading it sees and the state `w : W` of the rest of memory, which formatting reads
through the arguments (`Sys.sprintf`).  Each method takes `tr.mtx` for its whole body, so
it is one atomic step (see `Verif/Mutex`).  `runtime.Callers` is the list of captured
frames given to the logging call.
-/

namespace Trc.Core

/-- A `runtime.Frame` as far as it is used. -/
structure StdFrame where
  function : String
  file : String
  line : Nat
deriving DecidableEq, Repr, Inhabited

/-- `type Frame`, trace.go:100-103. -/
structure Frame where
  function : String
  fileLine : String
deriving DecidableEq, Repr, Inhabited

/-- `type Event`, trace.go:92-97. -/
structure Event where
  when_ : Time
  what : String
  stack : List Frame
  isError : Bool
deriving DecidableEq, Repr, Inhabited

/-- What the code gets from outside the repository: `fmt.Sprintf` on arguments `A`, which
may refer to memory `W`. -/
class Sys (W A : Type) where
  sprintf : W → String → List A → String

/-- The circumstances of one call: the clock reading and the state of memory. -/
structure Env (W : Type) where
  now : Time
  w : W

variable {W A : Type} [Sys W A]

/-! ## Stringer -/

/-- `type nullString`, trace_core.go:459-462. -/
structure NullString where
  valid : Bool
  value : String
deriving DecidableEq, Repr, Inhabited

/-- `zeroNullString`, trace_core.go:464. -/
def zeroNullString : NullString := { valid := false, value := "" }

/-- `type stringer`, trace_core.go:453-457. -/
structure Stringer (A : Type) where
  fmt : String
  args : List A
  str : NullString

/-- `newNormalStringer`, trace_core.go:466-473. -/
def newNormalStringer (w : W) (format : String) (args : List A) : Stringer A :=
  { fmt := format, args, str := { valid := true, value := Sys.sprintf w format args } }

/-- `newLazyStringer`, trace_core.go:475-482. -/
def newLazyStringer (format : String) (args : List A) : Stringer A :=
  { fmt := format, args, str := zeroNullString }

/-- `stringer.String`, trace_core.go:484-504, when no other reader interferes: the
compare-and-swap finds the value just loaded.  (Concurrent readers:
`Verif/Stringer`.) -/
def Stringer.string (z : Stringer A) (w : W) : String × Stringer A :=
  if z.str.valid then (z.str.value, z)
  else
    let ns : NullString := { valid := true, value := Sys.sprintf w z.fmt z.args }
    (ns.value, { z with str := ns })

/-! ## Core events -/

/-- `type coreEvent`, trace_core.go:334-341.  `pcs` are the frames captured in
`pc[:pcn]`, already symbolized; `pcn <= 0` is `pcs = []`. -/
structure CoreEvent (A : Type) where
  when_ : Time
  what : Stringer A
  pcs : List StdFrame
  stack : List Frame
  iserr : Bool

/-- The flags, trace_core.go:343-348. -/
def flagNormal : UInt8 := 0b00000000
def flagLazy : UInt8 := 0b00000001
def flagError : UInt8 := 0b00000010
def flagNoStack : UInt8 := 0b00000100

/-- `newCoreEvent`, trace_core.go:350-374 (the pooled object's old fields are all
overwritten). -/
def newCoreEvent (env : Env W) (flags : UInt8) (format : String) (args : List A)
    (callers : List StdFrame) : CoreEvent A :=
  { when_ := env.now
    what := if flags &&& flagLazy ≠ 0 then newLazyStringer format args
            else newNormalStringer env.w format args
    pcs := if flags &&& flagNoStack ≠ 0 then [] else callers
    stack := []
    iserr := flags &&& flagError ≠ 0 }

/-- `strings.HasPrefix` -/
def hasPrefix (s p : String) : Bool := p.toList.isPrefixOf s.toList
/-- `strings.HasSuffix` -/
def hasSuffix (s p : String) : Bool := p.toList.isSuffixOf s.toList

/-- `ignoreStackFrameFunction`, trace_core.go:426-440. -/
def ignoreStackFrameFunction (function : String) : Bool :=
  if !hasPrefix function "github.com/peterbourgon/trc" then false
  else if hasSuffix function "Tracef" || hasSuffix function "Errorf" then true
  else if hasPrefix function "github.com/peterbourgon/trc.Region" then true
  else if hasPrefix function "github.com/peterbourgon/trc/eztrc." then true
  else false

/-- `Frame{...}` made of a standard frame, trace_core.go:388-391. -/
def toFrame (fr : StdFrame) : Frame :=
  { function := fr.function, fileLine := fr.file ++ ":" ++ toString fr.line }

/-- The loop of `getStack`, trace_core.go:386-395: `fr`, `more` are the results of the
last `Next()` and `rest` the frames still to come; `more` is true iff `rest` is not
empty. -/
def framesLoop (fr : StdFrame) (more : Bool) (rest : List StdFrame) (acc : List Frame) : List Frame :=
  if more = false then acc
  else
    let acc' := if !ignoreStackFrameFunction fr.function then acc ++ [toFrame fr] else acc
    match rest with
    | [] => acc'
    | fr' :: rest' => framesLoop fr' (!rest'.isEmpty) rest' acc'

/-- `getStack`, trace_core.go:376-398. -/
def CoreEvent.getStack (ev : CoreEvent A) : List Frame × CoreEvent A :=
  match ev.pcs with
  | [] => ([], ev)
  | fr :: rest =>
    if ev.stack.length > 0 then (ev.stack, ev)
    else
      let st := framesLoop fr (!rest.isEmpty) rest ev.stack
      (st, { ev with stack := st })

/-- One iteration of `snapshotEvents`, trace_core.go:411-422. -/
def CoreEvent.snapshot (ev : CoreEvent A) (w : W) (stacks : Bool) : Event × CoreEvent A :=
  let (stack, ev₁) := if stacks then ev.getStack else ([], ev)
  let (what, z) := ev₁.what.string w
  ({ when_ := ev₁.when_, what, stack, isError := ev₁.iserr }, { ev₁ with what := z })

/-- `snapshotEvents`, trace_core.go:409-424: the snapshots and the events after it
(reading fills the caches). -/
def snapshotEvents (w : W) (stacks : Bool) : List (CoreEvent A) → List Event × List (CoreEvent A)
  | [] => ([], [])
  | ev :: evs =>
    let (e, ev') := ev.snapshot w stacks
    let (es, evs') := snapshotEvents w stacks evs
    (e :: es, ev' :: evs')

/-! ## Core traces -/

/-- trace_core.go:21-25 -/
def traceMaxEventsMin : Int := 10
def traceMaxEventsDefault : Int := 1000
def traceMaxEventsMax : Int := 10000

/-- `type coreTrace`, trace_core.go:72-85; `nostackflag` as the flag bits. -/
structure CoreTrace (A : Type) where
  source : String
  id : String
  category : String
  start : Time
  errored : Bool
  finished : Bool
  duration : Duration
  nostackflag : UInt8
  events : List (CoreEvent A)
  eventsmax : Int
  truncated : Int

/-- The global settings, trace_core.go:27-31 and :51. -/
structure Globals where
  traceMaxEvents : Int := traceMaxEventsDefault
  traceNoStacks : Bool := false

/-- `SetTraceMaxEvents`, trace_core.go:39-47. -/
def Globals.setTraceMaxEvents (g : Globals) (n : Int) : Globals :=
  let n := if n < traceMaxEventsMin then traceMaxEventsMin else n
  let n := if n > traceMaxEventsMax then traceMaxEventsMax else n
  { g with traceMaxEvents := n }

/-- `SetTraceStacks`, trace_core.go:58-60. -/
def Globals.setTraceStacks (g : Globals) (enable : Bool) : Globals :=
  { g with traceNoStacks := !enable }

/-- `newCoreTrace`, trace_core.go:112-128, on an object `old` obtained from the pool.
The ID (`ulid.MustNew`) is an input. -/
def newCoreTrace (g : Globals) (now : Time) (id source category : String)
    (old : CoreTrace A) : CoreTrace A :=
  { old with
    id, source, category
    start := now
    errored := false
    finished := false
    duration := 0
    nostackflag := if g.traceNoStacks then flagNoStack else 0
    events := []
    eventsmax := g.traceMaxEvents
    truncated := 0 }

/-- The zero object a pool makes when it is empty, trace_core.go:104-109. -/
def zeroTrace : CoreTrace A :=
  { source := "", id := "", category := "", start := .zero, errored := false,
    finished := false, duration := 0, nostackflag := 0, events := [], eventsmax := 0, truncated := 0 }

/-- `Duration`, trace_core.go:153-162; `time.Since(start)` is `now.Sub(start)`. -/
def CoreTrace.durationAt (tr : CoreTrace A) (now : Time) : Duration :=
  if tr.finished then tr.duration else now.sub tr.start

/-- `Tracef`, trace_core.go:164-178. -/
def CoreTrace.tracef (tr : CoreTrace A) (env : Env W) (format : String) (args : List A)
    (callers : List StdFrame) : CoreTrace A :=
  if tr.finished then tr
  else if (tr.events.length : Int) ≥ tr.eventsmax then { tr with truncated := tr.truncated + 1 }
  else { tr with events := tr.events ++ [newCoreEvent env (flagNormal ||| tr.nostackflag) format args callers] }

/-- `LazyTracef`, trace_core.go:180-194. -/
def CoreTrace.lazyTracef (tr : CoreTrace A) (env : Env W) (format : String) (args : List A)
    (callers : List StdFrame) : CoreTrace A :=
  if tr.finished then tr
  else if (tr.events.length : Int) ≥ tr.eventsmax then { tr with truncated := tr.truncated + 1 }
  else { tr with events := tr.events ++ [newCoreEvent env (flagLazy ||| tr.nostackflag) format args callers] }

/-- `Errorf`, trace_core.go:196-212. -/
def CoreTrace.errorf (tr : CoreTrace A) (env : Env W) (format : String) (args : List A)
    (callers : List StdFrame) : CoreTrace A :=
  if tr.finished then tr
  else
    let tr := { tr with errored := true }
    if (tr.events.length : Int) ≥ tr.eventsmax then { tr with truncated := tr.truncated + 1 }
    else { tr with events := tr.events ++ [newCoreEvent env (flagError ||| tr.nostackflag) format args callers] }

/-- `LazyErrorf`, trace_core.go:214-230. -/
def CoreTrace.lazyErrorf (tr : CoreTrace A) (env : Env W) (format : String) (args : List A)
    (callers : List StdFrame) : CoreTrace A :=
  if tr.finished then tr
  else
    let tr := { tr with errored := true }
    if (tr.events.length : Int) ≥ tr.eventsmax then { tr with truncated := tr.truncated + 1 }
    else { tr with events := tr.events ++
      [newCoreEvent env (flagLazy ||| flagError ||| tr.nostackflag) format args callers] }

/-- `Finish`, trace_core.go:232-242. -/
def CoreTrace.finish (tr : CoreTrace A) (now : Time) : CoreTrace A :=
  if tr.finished then tr
  else { tr with finished := true, duration := now.sub tr.start }

/-- The notice appended by `EventsDetail`, trace_core.go:274-279. -/
def truncatedNotice (now : Time) (truncated : Int) : Event :=
  { when_ := now, what := "(truncated event count " ++ toString truncated ++ ")", stack := [], isError := false }

/-- The number of events `EventsDetail(n, _)` asks for, trace_core.go:266-268. -/
def detailCount (len n : Int) : Int := if n ≤ 0 ∨ n > len then len else n

/-- `EventsDetail`, trace_core.go:262-284.  `none` is a slicing panic. -/
def CoreTrace.eventsDetail (tr : CoreTrace A) (env : Env W) (n : Int) (stacks : Bool) :
    Option (List Event × CoreTrace A) := do
  let n := detailCount tr.events.length n
  let latest ← Go.sliceFrom tr.events (tr.events.length - n)
  let (events, latest') := snapshotEvents env.w stacks latest
  let older ← Go.sliceTo tr.events (tr.events.length - n)
  let tr' := { tr with events := older ++ latest' }
  if tr.truncated > 0 then
    let events ← Go.sliceFrom (events ++ [truncatedNotice env.now tr.truncated]) 1
    return (events, tr')
  else
    return (events, tr')

/-- `SetMaxEvents`, trace_core.go:288-300. -/
def CoreTrace.setMaxEvents (tr : CoreTrace A) (max : Int) : CoreTrace A :=
  if max < traceMaxEventsMin then { tr with eventsmax := traceMaxEventsMin }
  else if max > traceMaxEventsMax then { tr with eventsmax := traceMaxEventsMax }
  else { tr with eventsmax := max }

/-! ## Histories -/

/-- The four logging methods. -/
inductive LogKind where
  | tracef | lazyTracef | errorf | lazyErrorf
deriving DecidableEq, Repr

/-- A call on a trace that can change its state. -/
inductive Call (A : Type) where
  | log (kind : LogKind) (format : String) (args : List A) (callers : List StdFrame)
  | finish
  | setMaxEvents (max : Int)
  /-- `EventsDetail(n, stacks)`; `Events()` is `EventsDetail(-1, true)`. -/
  | read (n : Int) (stacks : Bool)

/-- Run one call; the output is the events a `read` returns. -/
def CoreTrace.step (tr : CoreTrace A) (env : Env W) : Call A → Option (CoreTrace A × List Event)
  | .log .tracef f a c => some (tr.tracef env f a c, [])
  | .log .lazyTracef f a c => some (tr.lazyTracef env f a c, [])
  | .log .errorf f a c => some (tr.errorf env f a c, [])
  | .log .lazyErrorf f a c => some (tr.lazyErrorf env f a c, [])
  | .finish => some (tr.finish env.now, [])
  | .setMaxEvents m => some (tr.setMaxEvents m, [])
  | .read n s => (tr.eventsDetail env n s).map fun p => (p.2, p.1)

/-- A history: calls, each with its circumstances. -/
abbrev Hist (W A : Type) := List (Env W × Call A)

/-- Run a history. -/
def CoreTrace.run (tr : CoreTrace A) : Hist W A → Option (CoreTrace A)
  | [] => some tr
  | (env, c) :: h => do
    let (tr', _) ← tr.step env c
    tr'.run h

/-- `Events()`, trace_core.go:258-260, as an observation. -/
def CoreTrace.events' (tr : CoreTrace A) (env : Env W) : Option (List Event) :=
  (tr.eventsDetail env (-1) true).map Prod.fst

end Trc.Core
