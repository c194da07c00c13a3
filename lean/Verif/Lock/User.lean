import Verif.Lock.Model

/-!
# Locks while values are formatted (trace_core.go, broker.go, collector.go, decorators.go)

`Lock/Model.lean` leaves out the code of users which the library runs: the `String`, `Error` and `Format` methods
of the values that are logged.  `fmt.Sprintf` calls them, and here they may in turn call the library.

* `Tracef` and `Errorf` format at once, in `newNormalStringer`, which `newCoreEvent` calls while the trace is locked
  (trace_core.go:163-178,196-212,355-368,483-490).
* What `LazyTracef` and `LazyErrorf` log is formatted by the first `EventsDetail`, again while the trace is locked
  (trace_core.go:265-288,419-436,501-522).  `Events` is called by users, by `Publish` while the broker is locked
  (broker.go:24-36), and by the walk of a search while the ring buffer is locked (collector.go:148-173).
* A `LogDecorator` formats first, while nothing is locked (decorators.go:58-76): what values do then is as if the
  goroutine did it before the call, and is not part of the call here.

Formatting waits for nothing but locks.  `MultiSearcher.Search` and `Stream` are two calls here, one before and one
after they wait for something else (`Op.pause`); a goroutine may make them one after the other.
-/

namespace Trc.Lock

/-- What somebody does with locks: sections, one after another and one within another.  Every `Lock` of the library
is followed by `defer Unlock`, and `fmt.Sprintf` runs in between; so whatever users and the library do is of this form. -/
inductive Code where
  | done
  | lock (l : Lock) (body next : Code)

/-- The operations, in order. -/
def Code.ops : Code → List Op
  | .done => []
  | .lock l body next => locked l body.ops ++ next.ops

/-- One after the other. -/
def Code.andThen : Code → Code → Code
  | .done, d => d
  | .lock l body next, d => .lock l body (next.andThen d)

/-- A method of a core trace, trace_core.go:153-315, with what the values do that it formats. -/
def method (t : Nat) (fmt : Code) : Code := .lock (.trace t) fmt .done

/-- Getters of a trace, each with what the values do that it formats. -/
def looks (t : Nat) : List Code → Code
  | [] => .done
  | f :: fs => (method t f).andThen (looks t fs)

/-- `Broker.Publish`, broker.go:24-49. -/
def published (b t : Nat) (fs : List Code) : Code := .lock (.broker b) (looks t fs) .done

/-- `Tracef` and the like, decorators.go:58-76,130-148, helpers.go:118-132: `fmt` is what the values of the event do,
`fs b` what those do that are formatted for the subscribers of `b`. -/
def logged (t : Nat) (fmt : Code) (fs : Nat → List Code) : List Wrapper → Code
  | [] => method t fmt
  | .log :: ws => logged t fmt fs ws
  | .pub b :: ws => (logged t fmt fs ws).andThen (published b t (fs b))
  | .prefix :: ws => logged t fmt fs ws

/-- `Finish`, decorators.go:78-91,150-153. -/
def finished (t : Nat) (fs : Nat → List Code) : List Wrapper → Code
  | [] => method t .done
  | .log :: ws => (finished t fs ws).andThen ((method t .done).andThen (method t .done))
  | .pub b :: ws => (finished t fs ws).andThen (published b t (fs b))
  | .prefix :: ws => finished t fs ws

/-- `Free` of each, collector.go:108-110,129-131,212-216. -/
def frees : List Nat → Code
  | [] => .done
  | t :: ts => (method t .done).andThen (frees ts)

/-- `Resize` of each, ringbuffer.go:241-243. -/
def resizes : List Nat → Code
  | [] => .done
  | r :: rs => .lock (.ring r) .done (resizes rs)

/-- The callbacks of a walk, collector.go:150-171: each looks at a trace. -/
def seen : List (Nat × List Code) → Code
  | [] => .done
  | (t, fs) :: cs => (looks t fs).andThen (seen cs)

/-- The walks of a search, collector.go:148-173. -/
def walked : List (Nat × List (Nat × List Code)) → Code
  | [] => .done
  | (r, cs) :: ws => .lock (.ring r) (seen cs) (walked ws)

/-- Calls of the API, as in `Call`, with what the values do that they format. -/
inductive UCall where
  /-- a getter, or `SetMaxEvents` -/
  | get (t : Tr) (fmt : Code)
  /-- `Tracef`, `LazyTracef`, `Errorf`, `LazyErrorf`, `Region`, a region's end, `NewTrace` with a trace in the context,
  the events of `MultiSearcher.Search` -/
  | event (t : Tr) (fmt : Code) (fs : Nat → List Code)
  | finish (t : Tr) (fs : Nat → List Code)
  | free (t : Tr)
  /-- `NewTrace`, collector.go:117-134: the new trace has no event to be formatted when it is published -/
  | newTrace (c b r t n : Nat) (dropped : List Nat)
  | setCategorySize (c : Nat) (rings : List Nat) (dropped : List Nat)
  /-- `Search`, collector.go:137-195; `fs` is for the event of the trace in the context -/
  | search (c : Nat) (ws : List (Nat × List (Nat × List Code))) (t : Tr) (fs : Nat → List Code)
  /-- the beginning or the end of `Stream`, or `StreamStats`, broker.go:60-109 -/
  | stream (b : Nat)
  | publish (b t : Nat) (fs : List Code)

/-- What a call does with locks. -/
def UCall.code : UCall → Code
  | .get t fmt => method t.core fmt
  | .event t fmt fs => logged t.core fmt fs t.wrappers.reverse
  | .finish t fs => finished t.core fs t.wrappers.reverse
  | .free t => method t.core .done
  | .newTrace c b r t n dropped =>
    (published b t (List.replicate n .done)).andThen (.lock (.set c) .done (.lock (.ring r) .done (frees dropped)))
  | .setCategorySize c rings dropped => .lock (.set c) (resizes rings) (frees dropped)
  | .search c ws t fs => .lock (.set c) .done ((walked ws).andThen (logged t.core .done fs t.wrappers.reverse))
  | .stream b => .lock (.broker b) .done .done
  | .publish b t fs => published b t fs

/-- What a goroutine does next, when calls are as `P` says. -/
inductive UStep (P : UCall → Prop) : St → St → Prop where
  | call {s : St} (i : Nat) (c : UCall) : P c → s.code i = [] → UStep P s { s with code := upd s.code i c.code.ops }
  | acq {s : St} (i : Nat) (l : Lock) (k : List Op) : s.code i = .acq l :: k → s.owner l = none →
      UStep P s ⟨upd s.owner l (some i), upd s.code i k⟩
  | rel {s : St} (i : Nat) (l : Lock) (k : List Op) : s.code i = .rel l :: k →
      UStep P s ⟨upd s.owner l none, upd s.code i k⟩

inductive USteps (P : UCall → Prop) : St → St → Prop where
  | refl (s : St) : USteps P s s
  | head {s t u : St} : UStep P s t → USteps P t u → USteps P s u

def UReach (P : UCall → Prop) (s : St) : Prop := USteps P St.init s

end Trc.Lock
