import Verif.Core.Model
import Verif.Ring.ManyLemmas
import Verif.Search.Static

/-!
# Model of `decorators.go`, `helpers.go` and `Collector.NewTrace`

A trace as its user holds it is a pointer to a core trace, possibly wrapped.  A method of a wrapper
is straight-line code: it amounts to a list of actions, each of which is one step under a lock
(a method of a core trace, a `Publish`, a `Write`, an `Add` to a category).  Actions of several
goroutines may be interleaved in any way; an execution is a list of actions.

Core traces live at addresses that are not reused here (reuse: `Verif/Heap`).  A `Publish` is one
action here; it reads the trace in several steps, for which see `Verif/Wrap/Stream.lean`.
-/

namespace Trc.Wrap

open Core

/-- Values of type `any` include strings. -/
class Arg (A : Type) where
  str : String → A

instance : Arg String := ⟨fun s => s⟩

/-- A value of type `Trace`, of the types in this repository that log. -/
inductive Tr (A : Type) where
  /-- `*coreTrace` -/
  | core (addr : Nat)
  /-- `*publishTrace`, decorators.go:123-126 -/
  | publish (inner : Tr A)
  /-- `*logTrace`, decorators.go:50-54 -/
  | log (inner : Tr A) (id : String) (dst : Nat)
  /-- `*prefixTrace`, helpers.go:111-116 -/
  | pre (inner : Tr A) (format : String) (args : List A)

instance {A : Type} : Inhabited (Tr A) := ⟨.core 0⟩

variable {W A : Type} [Sys W A] [Arg A]

/-- The core trace inside: what the promoted methods `ID`, `Source`, `Category`, `Started`,
`Duration`, `Finished`, `Errored` and `Events` of the embedded `Trace` end up calling. -/
def Tr.root : Tr A → Nat
  | .core a => a
  | .publish t => t.root
  | .log t _ _ => t.root
  | .pre t _ _ => t.root

/-- Whether a type assertion for a method that is not in the interface `Trace` succeeds:
`SetMaxEvents` (helpers.go:40) and `EventsDetail` (trace_static.go:43) are methods of `coreTrace`
only, and embedding an interface promotes just the methods of that interface. -/
def Tr.isCore : Tr A → Bool
  | .core _ => true
  | _ => false

/-- The actions. -/
inductive Act (A : Type) where
  /-- `newCoreTrace(source, category)` at an unused address -/
  | make (addr : Nat) (source category : String)
  /-- a method of a core trace -/
  | call (addr : Nat) (c : Call A)
  /-- `Broker.Publish(ctx, tr)` -/
  | publish (tr : Tr A)
  /-- `fmt.Fprintf(dst, format, args...)` -/
  | write (dst : Nat) (format : String) (args : List A)
  /-- decorators.go:80-91: read the outcome of the trace and log it -/
  | writeDone (dst : Nat) (id : String) (tr : Tr A)
  /-- `categories.GetOrCreate(category).Add(tr)` and `maybeFree` of the dropped trace -/
  | retain (category : String) (tr : Tr A)

/-! ## Methods -/

/-- `strings.TrimSuffix(s, "\n")` -/
def trimNewline (s : String) : String :=
  match s.toList.reverse with
  | '\n' :: cs => String.ofList cs.reverse
  | _ => s

/-- `logEvent`, decorators.go:93-96. -/
def logEvent (id : String) (dst : Nat) (format : String) (args : List A) : Act A :=
  .write dst (id ++ " " ++ trimNewline format ++ "\n") args

/-- The name of a method in a stack frame. -/
def LogKind.name : LogKind → String
  | .tracef => "Tracef" | .lazyTracef => "LazyTracef" | .errorf => "Errorf" | .lazyErrorf => "LazyErrorf"

/-- The stack frame of a wrapper's logging method (file and line left out). -/
def frame (type : String) (kind : LogKind) : StdFrame :=
  ⟨"github.com/peterbourgon/trc.(*" ++ type ++ ")." ++ LogKind.name kind, "", 0⟩

/-- The prefix `logTrace` puts before an event, decorators.go:58-76. -/
def errMark : LogKind → String
  | .tracef => "" | .lazyTracef => "" | .errorf => "ERROR: " | .lazyErrorf => "ERROR: "

/-- `Tracef`, `LazyTracef`, `Errorf`, `LazyErrorf` of a trace; `stack` are the frames of the
callers, innermost first, of which `runtime.Callers` (trace_core.go:368) captures eight.
coreTrace: trace_core.go:164-230; logTrace: decorators.go:58-76; publishTrace:
decorators.go:130-148; prefixTrace: helpers.go:118-132. -/
def Tr.logActs : Tr A → LogKind → String → List A → List StdFrame → List (Act A)
  | .core a, kind, format, args, stack => [.call a (.log kind format args (stack.take 8))]
  | .publish t, kind, format, args, stack =>
    t.logActs kind format args (frame "publishTrace" kind :: stack) ++ [.publish t]
  | .log t id dst, kind, format, args, stack =>
    logEvent id dst (errMark kind ++ format) args :: t.logActs kind format args (frame "logTrace" kind :: stack)
  | .pre t pformat pargs, kind, format, args, stack =>
    t.logActs kind (pformat ++ format) (pargs ++ args) (frame "prefixTrace" kind :: stack)

/-- `Finish`; coreTrace: trace_core.go:232-242; logTrace: decorators.go:78-91; publishTrace:
decorators.go:150-153; prefixTrace: promoted. -/
def Tr.finishActs : Tr A → List (Act A)
  | .core a => [.call a .finish]
  | .publish t => t.finishActs ++ [.publish t]
  | .log t id dst => t.finishActs ++ [.writeDone dst id t]
  | .pre t _ _ => t.finishActs

/-- `Free`, if the trace has it, else nothing; `maybeFree`, collector.go:212-216; logTrace:
decorators.go:98-102; publishTrace: decorators.go:155-159. -/
def Tr.freed : Tr A → List Nat
  | .core a => [a]
  | .publish t => t.freed
  | .log t _ _ => t.freed
  | .pre _ _ _ => []

/-- `SetMaxEvents(tr, max)`, helpers.go:40-47. -/
def setMaxEvents (t : Tr A) (max : Int) : List (Act A) × Bool :=
  match t with
  | .core a => ([.call a (.setMaxEvents max)], true)
  | _ => ([], false)

/-! ## Contexts -/

/-- Keys of context values: `traceContextVal` or any other. -/
inductive Key where
  | trace
  | other (n : Nat)
deriving DecidableEq, Repr

/-- Context values. -/
inductive Val (A : Type) where
  | trace (tr : Tr A)
  | other (n : Nat)

/-- Contexts: the root, `context.WithValue`, or any other derivation. -/
inductive Ctx (A : Type) where
  | background
  | withValue (parent : Ctx A) (key : Key) (val : Val A)
  | derived (parent : Ctx A)

/-- `ctx.Value(key)` -/
def Ctx.value : Ctx A → Key → Option (Val A)
  | .background, _ => none
  | .withValue p k v, key => if k = key then some v else p.value key
  | .derived p, key => p.value key

/-- `Put`, helpers.go:15-17. -/
def put (ctx : Ctx A) (tr : Tr A) : Ctx A × Tr A := (.withValue ctx .trace (.trace tr), tr)

/-- `MaybeGet`, helpers.go:31-34. -/
def maybeGet (ctx : Ctx A) : Option (Tr A) :=
  match ctx.value .trace with
  | some (.trace tr) => some tr
  | _ => none

/-- `Get`, helpers.go:21-27; `orphan` is the address where an orphan would be made. -/
def get (ctx : Ctx A) (orphan : Nat) : Tr A × List (Act A) :=
  match maybeGet ctx with
  | some tr => (tr, [])
  | none => (.core orphan, [.make orphan "" "(orphan)"])

/-- Unicode white space, as `unicode.IsSpace`. -/
def isSpace (c : Char) : Bool :=
  c.toNat ∈ [0x09, 0x0a, 0x0b, 0x0c, 0x0d, 0x20, 0x85, 0xa0, 0x1680, 0x2028, 0x2029, 0x202f, 0x205f, 0x3000] ||
    (0x2000 ≤ c.toNat && c.toNat ≤ 0x200a)

/-- `strings.TrimSpace` -/
def trimSpace (s : String) : String :=
  String.ofList ((s.toList.dropWhile isSpace).reverse.dropWhile isSpace).reverse

/-- `Prefix`, helpers.go:94-109.  (`append` to the arguments may share memory:
`Verif/Wrap/Args.lean`.) -/
def prefixed (ctx : Ctx A) (orphan : Nat) (format : String) (args : List A) : Ctx A × Tr A × List (Act A) :=
  let original := get ctx orphan
  let format := trimSpace format
  if format = "" then (ctx, original.1, original.2)
  else
    let p := put ctx (.pre original.1 (format ++ " ") args)
    (p.1, p.2, original.2)

/-- `Region`, helpers.go:74-88: the context and trace, the actions of entering, and the actions of
finishing, given the humanized duration. -/
def region (ctx : Ctx A) (orphan orphan' : Nat) (name : String) (stack : List StdFrame) :
    Ctx A × Tr A × List (Act A) × (String → List (Act A)) :=
  let input := get ctx orphan
  let output := prefixed ctx orphan' "·" []
  (output.1, output.2.1,
   input.2 ++ output.2.2 ++ input.1.logActs .lazyTracef ("→ " ++ name) [] stack,
   fun took => input.1.logActs .lazyTracef ("← " ++ name ++ " [%s]") [Arg.str took] stack)

/-! ## Decorators and collectors -/

/-- A `DecoratorFunc`: the new trace and what is done to make it. -/
abbrev Decorator (A : Type) := (source category id : String) → Tr A → Tr A × List (Act A)

/-- `LogDecorator`, decorators.go:26-36.  `tr.Source()` and so on are given. -/
def logDecorator (dst : Nat) : Decorator A := fun source category id tr =>
  (.log tr id dst, [logEvent id dst "started, source '%s', category '%s'" [Arg.str source, Arg.str category]])

/-- `loggerWriter.Write`, decorators.go:43-48: `log.Logger.Print` of a text puts a header before it (the prefix
and what the flags ask for; log.go of the standard library), and a newline after it unless there is one. -/
def loggerRecord (header text : String) : String :=
  match (header ++ text).toList.reverse with
  | '\n' :: _ => header ++ text
  | _ => header ++ text ++ "\n"

/-- What a logger puts out for texts that are written one after the other, each with its header;
`Print` holds the logger's mutex.  `LoggerDecorator`, decorators.go:38-41. -/
def loggerOutput : List (String × String) → String
  | [] => ""
  | (header, text) :: l => loggerRecord header text ++ loggerOutput l

/-- `publishDecorator`, decorators.go:108-117. -/
def publishDecorator : Decorator A := fun _ _ _ tr => (.publish tr, [.publish tr])

/-- Applying decorators in order: `New`, trace_core.go:92-98, and collector.go:125-127. -/
def decorate (source category id : String) : List (Decorator A) → Tr A → Tr A × List (Act A)
  | [], tr => (tr, [])
  | d :: ds, tr =>
    let p := d source category id tr
    let q := decorate source category id ds p.1
    (q.1, p.2 ++ q.2)

/-- `New`, trace_core.go:92-98, for the address the core trace gets and the ID it gets. -/
def new (ctx : Ctx A) (addr : Nat) (id source category : String) (ds : List (Decorator A)) : Ctx A × Tr A × List (Act A) :=
  let p := decorate source category id ds (.core addr)
  let q := put ctx p.1
  (q.1, q.2, .make addr source category :: p.2)

/-- `Collector.NewTrace`, collector.go:117-134, with `New` as the new trace function. -/
def newTrace (ctx : Ctx A) (addr : Nat) (id source category : String) (ds : List (Decorator A)) (stack : List StdFrame) :
    Ctx A × Tr A × List (Act A) :=
  match maybeGet ctx with
  | some tr => (ctx, tr, tr.logActs .lazyTracef "(+ %s)" [Arg.str category] stack)
  | none =>
    let p := new ctx addr id source category [publishDecorator]
    let q := decorate source category id ds p.2.1
    let r := put p.1 q.1
    (r.1, r.2, p.2.2 ++ q.2 ++ [.retain category q.1])

/-! ## Executions -/

/-- The state the actions work on. -/
structure World (A : Type) where
  globals : Globals := {}
  traces : Nat → Option (CoreTrace A) := fun _ => none
  cats : Ring.RBs (Tr A) := Ring.newRBs 1000
  /-- lines written to each destination -/
  lines : List (Nat × String) := []
  /-- traces handed to subscribers, with the address of the trace published -/
  published : List (Nat × Static) := []
  /-- core traces whose `Free` was called -/
  freed : List Nat := []

/-- The circumstances of an action: also the ID for a new trace, and whether the broker has
subscribers. -/
structure AEnv (W : Type) extends Env W where
  id : String
  subscribed : Bool

/-- `trcutil.HumanizeDuration`, as a parameter. -/
class Humanize where
  duration : Duration → String

variable [Humanize]

/-- Change one trace. -/
def World.set (w : World A) (a : Nat) (t : CoreTrace A) : World A :=
  { w with traces := fun b => if b = a then some t else w.traces b }

/-- `events[len(events)-1:]`, trace_static.go:53, of an active trace; `none` is a panic. -/
def latestOf (finished : Bool) (events : List Event) : Option (List Event) :=
  if finished then some events else Go.sliceFrom events (events.length - 1)

/-- What `NewStreamTrace`, trace_static.go:40-76, makes of a trace that nobody changes meanwhile. -/
def streamEvents (t : CoreTrace A) (env : Env W) (canDetail : Bool) : Option (List Event × CoreTrace A) :=
  if canDetail then t.eventsDetail env (if t.finished then -1 else 1) false
  else do
    let (events, t') ← t.eventsDetail env (-1) true
    let events ← latestOf t.finished events
    return (events.map fun ev => { ev with stack := [] }, t')

def staticOf (t : CoreTrace A) (now : Time) (events : List Event) : Static :=
  { source := t.source, id := t.id, category := t.category, started := t.start,
    duration := t.durationAt now, finished := t.finished, errored := t.errored, events }

/-- `Broker.Publish`, broker.go:24-49, as far as the trace is concerned: without subscribers it
does nothing. -/
def World.publish (w : World A) (env : AEnv W) (tr : Tr A) : Option (World A) :=
  if env.subscribed then do
    let t ← w.traces tr.root
    let (events, t') ← streamEvents t env.toEnv tr.isCore
    let w' := w.set tr.root t'
    return { w' with published := w.published ++ [(tr.root, staticOf t env.now events)] }
  else some w

/-- The outcome that `logTrace.Finish` logs, decorators.go:80-90. -/
def outcome (t : CoreTrace A) : String := if t.errored then "errored" else "success"

/-- One action; `none` is a panic. -/
def World.act (w : World A) (env : AEnv W) : Act A → Option (World A)
  | .make a source category =>
    some (w.set a (newCoreTrace w.globals env.now env.id source category zeroTrace))
  | .call a c => do
    let t ← w.traces a
    let (t', _) ← t.step env.toEnv c
    return w.set a t'
  | .publish tr => w.publish env tr
  | .write dst format args =>
    some { w with lines := w.lines ++ [(dst, Sys.sprintf env.w format args)] }
  | .writeDone dst id tr => do
    let t ← w.traces tr.root
    return { w with lines := w.lines ++ [(dst, Sys.sprintf env.w (id ++ " " ++ trimNewline "done, %s, %s" ++ "\n")
      [(Arg.str (outcome t) : A), Arg.str (Humanize.duration (t.durationAt env.now))])] }
  | .retain category tr => do
    let (cats, dropped) ← w.cats.push category tr
    return { w with cats, freed := w.freed ++ dropped.flatMap Tr.freed }

/-- An execution. -/
def World.run (w : World A) : List (AEnv W × Act A) → Option (World A)
  | [] => some w
  | (env, a) :: h => do
    let w' ← w.act env a
    w'.run h

end Trc.Wrap
