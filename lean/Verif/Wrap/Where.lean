import Verif.Wrap.Easy

/-!
# Where events are logged: the stacks of a program that uses packages `trc` and `eztrc`

The stack of an event is that of the goroutine when the event is logged, of which `runtime.Callers(3, cev.pc[:])`
(trace_core.go:368) captures the eight innermost frames, beginning with the caller of the core trace's method: `Callers`,
`newCoreEvent` and that method are skipped.  So between the program and the core trace there are the methods of the
wrappers (`Tr.logActs`), below them the functions of packages `trc` and `eztrc` that log, and below them the program's own.
Functions that the compiler has inlined have frames of their own in what `Callers` captures.
-/

namespace Trc.Wrap

open Core

/-- Which package's functions a program calls. -/
inductive Via where
  | trc
  | eztrc
deriving DecidableEq, Repr

/-- The frame of `trc.Region` when it logs its first event, helpers.go:80. -/
def regionFrame : StdFrame := ⟨"github.com/peterbourgon/trc.Region", "", 0⟩

/-- The frame of the function that `trc.Region` returns, when it logs its last event, helpers.go:83.  It is called by the
program itself, also if it comes from `eztrc.Region`. -/
def finishFrame : StdFrame := ⟨"github.com/peterbourgon/trc.Region.func1", "", 0⟩

/-- The frame of `(*Collector).NewTrace` when it annotates a trace, collector.go:119. -/
def newTraceFrame : StdFrame := ⟨"github.com/peterbourgon/trc.(*Collector).NewTrace", "", 0⟩

/-- A program that logs, with the stack of its own functions, innermost first, at each call. -/
inductive Code (A : Type) where
  | done
  /-- `tr.Tracef(...)` and the like on the trace in the context; or `eztrc.Tracef(ctx, ...)` and the like -/
  | log (via : Via) (kind : LogKind) (format : String) (args : List A) (stack : List StdFrame) (next : Code A)
  /-- `ctx, tr, finish := trc.Region(ctx, name)`, the body, and `finish()`; or with `eztrc.Region` -/
  | region (via : Via) (name took : String) (opened closed : List StdFrame) (body next : Code A)
  /-- `ctx, tr := trc.Prefix(ctx, format, args...)` and the body; or with `eztrc.Prefix`, which makes no difference -/
  | pre (format : String) (args : List A) (body next : Code A)
  /-- `collector.NewTrace(ctx, category)`; or `eztrc.New(ctx, category)` -/
  | newTrace (via : Via) (category : String) (stack : List StdFrame) (next : Code A)

variable {A : Type} [Arg A]

/-- What it does on a context.  `trc.Region`: helpers.go:74-88; `eztrc.Region`: eztrc/easy.go:58-60; `eztrc.Tracef` and
the like: eztrc/easy.go:79-99; `NewTrace`: collector.go:117-121; `eztrc.New`: eztrc/easy.go:53-55. -/
def Code.acts (ctx : Ctx A) (orphan : Nat) : Code A → List (Act A)
  | .done => []
  | .log .trc kind format args stack next =>
    (get ctx orphan).2 ++ (get ctx orphan).1.logActs kind format args stack ++ next.acts ctx orphan
  | .log .eztrc kind format args stack next => ezLog ctx orphan kind format args stack ++ next.acts ctx orphan
  | .region via name took opened closed body next =>
    let called := match via with
      | .trc => opened
      | .eztrc => ezFrame "Region" :: opened
    let r := Wrap.region ctx orphan orphan name (regionFrame :: called)
    let r' := Wrap.region ctx orphan orphan name (finishFrame :: closed)
    r.2.2.1 ++ body.acts r.1 orphan ++ r'.2.2.2 took ++ next.acts ctx orphan
  | .pre format args body next =>
    let p := prefixed ctx orphan format args
    p.2.2 ++ body.acts p.1 orphan ++ next.acts ctx orphan
  | .newTrace .trc category stack next =>
    let p := Wrap.newTrace ctx orphan "" "" category [] (newTraceFrame :: stack)
    p.2.2 ++ next.acts p.1 orphan
  | .newTrace .eztrc category stack next =>
    let p := ezNew ctx orphan "" "" category [] stack
    p.2.2 ++ next.acts p.1 orphan

end Trc.Wrap
