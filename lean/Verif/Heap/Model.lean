import Verif.Core.Spec
import Verif.Ring.ManyLemmas

/-!
# Pooled objects: `trace_core.go` on a heap, under collectors

The functions of `Verif/Core/Model.lean` again, now on memory: trace, event and stringer
objects have addresses, are taken from and put back into `sync.Pool`s, and the stack of
an event is a slice of a backing array which snapshots share.

* What `sync.Pool.Get` returns is an arbitrary choice: any object in the pool, or a newly
  allocated one.  The garbage collector may empty the pools at any time.
* `append` to a full slice allocates a new array with an arbitrary amount of room.
* A program has any number of collectors, and they share the pools. A collector keeps traces in
  the ring buffers of `Verif/Ring`; a dropped trace is freed later by the goroutine that dropped
  it (collector.go:108-110, 129-131).
* Clients may call any method through any pointer they ever got, at any time.

A system state also records, in fields that no step reads (`ghost`, `reads`), the calls
made on each object since it was last taken from the pool, and what reads showed.
-/

namespace Trc.Heap

open Trc.Core
open Trc.Ring (RBs MOp)

/-- A slice of frames: backing array and length; its capacity is the size of the array. -/
structure Slice where
  arr : Nat
  len : Nat
deriving DecidableEq, Repr, Inhabited

/-- `type coreEvent` with pointers, trace_core.go:334-341. -/
structure HEvent where
  when_ : Time
  what : Option Nat
  pcs : List StdFrame
  stack : Slice
  iserr : Bool

/-- `&coreEvent{}`; array 0 is the empty array behind nil slices. -/
def zeroEvent : HEvent := { when_ := .zero, what := none, pcs := [], stack := ⟨0, 0⟩, iserr := false }

/-- `type coreTrace` with pointers to its events, trace_core.go:72-85. -/
structure HTrace where
  source : String := ""
  id : String := ""
  category : String := ""
  start : Time := .zero
  errored : Bool := false
  finished : Bool := false
  duration : Duration := 0
  nostackflag : UInt8 := 0
  events : List Nat := []
  eventsmax : Int := 0
  truncated : Int := 0

/-- internal/trcdebug/counters.go (those that are ever changed). -/
structure Counters where
  traceNew : Nat := 0
  traceAlloc : Nat := 0
  traceFree : Nat := 0
  traceLost : Nat := 0
  eventNew : Nat := 0
  eventAlloc : Nat := 0
  eventFree : Nat := 0
  strNew : Nat := 0
  strAlloc : Nat := 0
  strFree : Nat := 0

/-- Memory, the pools and the counters. `next…` are the addresses not yet allocated. -/
structure Heap (A : Type) where
  traces : Nat → HTrace
  events : Nat → HEvent
  strs : Nat → Stringer A
  arrays : Nat → List Frame
  nextT : Nat
  nextE : Nat
  nextS : Nat
  nextA : Nat
  tracePool : List Nat
  eventPool : List Nat
  strPool : List Nat
  n : Counters

variable {W A : Type} [Sys W A]

/-- Memory at program start. -/
def Heap.init : Heap A :=
  { traces := fun _ => {}, events := fun _ => zeroEvent
    strs := fun _ => { fmt := "", args := [], str := zeroNullString }
    arrays := fun _ => [], nextT := 0, nextE := 0, nextS := 0, nextA := 1
    tracePool := [], eventPool := [], strPool := [], n := {} }

/-- Function update. -/
def upd {β : Type} (f : Nat → β) (a : Nat) (b : β) : Nat → β := fun x => if x = a then b else f x

/-- The arbitrary choices made during one call: which pooled object `Get` returns (`none`, or
an index out of range, for a new one), and how much spare room `append` allocates. -/
structure Choice where
  trace : Option Nat := none
  event : Option Nat := none
  str : Option Nat := none
  grow : Nat → Nat := fun _ => 0

/-- The pooled object at the chosen position. -/
def choose (pool : List Nat) : Option Nat → Option Nat
  | none => none
  | some i => pool[i]?

/-! ## Stringers -/

/-- `stringerPool.Get()`, trace_core.go:446-451 -/
def Heap.getStr (h : Heap A) (c : Option Nat) : Heap A × Nat :=
  match choose h.strPool c with
  | some s => ({ h with strPool := h.strPool.erase s }, s)
  | none => ({ h with nextS := h.nextS + 1
                      strs := upd h.strs h.nextS { fmt := "", args := [], str := zeroNullString }
                      n := { h.n with strAlloc := h.n.strAlloc + 1 } }, h.nextS)

/-- `newNormalStringer`/`newLazyStringer`, trace_core.go:466-482, with the chosen contents. -/
def Heap.newStringer (h : Heap A) (c : Option Nat) (z : Stringer A) : Heap A × Nat :=
  let h := { h with n := { h.n with strNew := h.n.strNew + 1 } }
  let (h, s) := h.getStr c
  ({ h with strs := upd h.strs s z }, s)

/-! ## Events -/

/-- `coreEventPool.Get()`, trace_core.go:324-329 -/
def Heap.getEvent (h : Heap A) (c : Option Nat) : Heap A × Nat :=
  match choose h.eventPool c with
  | some e => ({ h with eventPool := h.eventPool.erase e }, e)
  | none => ({ h with nextE := h.nextE + 1, events := upd h.events h.nextE zeroEvent
                      n := { h.n with eventAlloc := h.n.eventAlloc + 1 } }, h.nextE)

/-- `newCoreEvent`, trace_core.go:350-374. -/
def Heap.newCoreEvent (h : Heap A) (ch : Choice) (env : Env W) (flags : UInt8) (format : String)
    (args : List A) (callers : List StdFrame) : Heap A × Nat :=
  let h := { h with n := { h.n with eventNew := h.n.eventNew + 1 } }
  let (h, e) := h.getEvent ch.event
  let (h, s) := h.newStringer ch.str
    (if flags &&& flagLazy ≠ 0 then newLazyStringer format args else newNormalStringer env.w format args)
  let old := h.events e
  let ev : HEvent :=
    { when_ := env.now, what := some s
      pcs := if flags &&& flagNoStack ≠ 0 then [] else callers
      stack := { old.stack with len := 0 }
      iserr := flags &&& flagError ≠ 0 }
  ({ h with events := upd h.events e ev }, e)

/-- `cev.stack = append(cev.stack, fr)`, trace_core.go:388-391. -/
def Heap.appendStack (h : Heap A) (e : Nat) (fr : Frame) (grow : Nat → Nat) : Heap A :=
  let sl := (h.events e).stack
  let arr := h.arrays sl.arr
  if sl.len < arr.length then
    { h with arrays := upd h.arrays sl.arr (arr.set sl.len fr)
             events := upd h.events e { h.events e with stack := { sl with len := sl.len + 1 } } }
  else
    { h with arrays := upd h.arrays h.nextA (arr.take sl.len ++ fr :: List.replicate (grow sl.len) default)
             nextA := h.nextA + 1
             events := upd h.events e { h.events e with stack := { arr := h.nextA, len := sl.len + 1 } } }

/-- The loop of `getStack`, trace_core.go:384-395; see `Core.framesLoop`. -/
def Heap.framesLoop (h : Heap A) (e : Nat) (grow : Nat → Nat) (fr : StdFrame) (more : Bool)
    (rest : List StdFrame) : Heap A :=
  if more = false then h
  else
    let h' := if !ignoreStackFrameFunction fr.function then h.appendStack e (toFrame fr) grow else h
    match rest with
    | [] => h'
    | fr' :: rest' => Heap.framesLoop h' e grow fr' (!rest'.isEmpty) rest'

/-- `getStack`, trace_core.go:376-398; the result shares its array with the event. -/
def Heap.getStack (h : Heap A) (e : Nat) (grow : Nat → Nat) : Heap A × Slice :=
  match (h.events e).pcs with
  | [] => (h, ⟨0, 0⟩)
  | fr :: rest =>
    if (h.events e).stack.len > 0 then (h, (h.events e).stack)
    else
      let h' := h.framesLoop e grow fr (!rest.isEmpty) rest
      (h', (h'.events e).stack)

/-- `coreEvent.free`, trace_core.go:400-407; `none` if the stringer is nil. -/
def Heap.freeEvent (h : Heap A) (e : Nat) : Option (Heap A) := do
  let s ← (h.events e).what
  return { h with
    strPool := s :: h.strPool
    events := upd h.events e { h.events e with
      what := none, pcs := [], stack := { (h.events e).stack with len := 0 } }
    eventPool := e :: h.eventPool
    n := { h.n with strFree := h.n.strFree + 1, eventFree := h.n.eventFree + 1 } }

/-- A snapshot `Event`, whose stack is a slice of a shared array (trace.go:92-97). -/
structure HSnap where
  when_ : Time
  what : String
  stack : Slice
  isError : Bool

/-- What a snapshot shows in a given memory. -/
def Heap.view (h : Heap A) (sn : HSnap) : Event :=
  { when_ := sn.when_, what := sn.what, stack := (h.arrays sn.stack.arr).take sn.stack.len
    isError := sn.isError }

/-- One iteration of `snapshotEvents`, trace_core.go:411-422; `none` if the stringer is nil. -/
def Heap.snapshot (h : Heap A) (e : Nat) (w : W) (stacks : Bool) (grow : Nat → Nat) :
    Option (HSnap × Heap A) := do
  let p := if stacks then h.getStack e grow else (h, ⟨0, 0⟩)
  let h := p.1
  let s ← (h.events e).what
  let q := (h.strs s).string w
  let h := { h with strs := upd h.strs s q.2 }
  return ({ when_ := (h.events e).when_, what := q.1, stack := p.2, isError := (h.events e).iserr }, h)

/-- `snapshotEvents`, trace_core.go:409-424. -/
def Heap.snapshotEvents (h : Heap A) (w : W) (stacks : Bool) (grow : Nat → Nat) :
    List Nat → Option (List HSnap × Heap A)
  | [] => some ([], h)
  | e :: es => do
    let p ← h.snapshot e w stacks grow
    let q ← p.2.snapshotEvents w stacks grow es
    return (p.1 :: q.1, q.2)

/-! ## Traces -/

/-- `newCoreTrace`, trace_core.go:112-128. -/
def Heap.newCoreTrace (h : Heap A) (g : Globals) (c : Option Nat) (now : Time) (id source category : String) :
    Heap A × Nat :=
  let h := { h with n := { h.n with traceNew := h.n.traceNew + 1 } }
  let (h, a) : Heap A × Nat :=
    match choose h.tracePool c with
    | some a => ({ h with tracePool := h.tracePool.erase a }, a)
    | none => ({ h with nextT := h.nextT + 1, traces := upd h.traces h.nextT {}
                        n := { h.n with traceAlloc := h.n.traceAlloc + 1 } }, h.nextT)
  let tr := h.traces a
  ({ h with traces := upd h.traces a { tr with
      id, source, category
      start := now
      errored := false
      finished := false
      duration := 0
      nostackflag := if g.traceNoStacks then flagNoStack else 0
      events := tr.events.take 0
      eventsmax := g.traceMaxEvents
      truncated := 0 } }, a)

/-- The common part of the logging methods, trace_core.go:172-177 etc. -/
def Heap.logEvent (h : Heap A) (a : Nat) (ch : Choice) (env : Env W) (flags : UInt8) (format : String)
    (args : List A) (callers : List StdFrame) : Heap A :=
  let tr := h.traces a
  if (tr.events.length : Int) ≥ tr.eventsmax then
    { h with traces := upd h.traces a { tr with truncated := tr.truncated + 1 } }
  else
    let (h, e) := h.newCoreEvent ch env (flags ||| tr.nostackflag) format args callers
    { h with traces := upd h.traces a { h.traces a with events := (h.traces a).events ++ [e] } }

/-- `Tracef`, `LazyTracef`, `Errorf`, `LazyErrorf`, trace_core.go:164-230. -/
def Heap.log (h : Heap A) (a : Nat) (ch : Choice) (env : Env W) (kind : LogKind) (format : String)
    (args : List A) (callers : List StdFrame) : Heap A :=
  if (h.traces a).finished then h
  else match kind with
    | .tracef => h.logEvent a ch env flagNormal format args callers
    | .lazyTracef => h.logEvent a ch env flagLazy format args callers
    | .errorf =>
      { h with traces := upd h.traces a { h.traces a with errored := true } }.logEvent
        a ch env flagError format args callers
    | .lazyErrorf =>
      { h with traces := upd h.traces a { h.traces a with errored := true } }.logEvent
        a ch env (flagLazy ||| flagError) format args callers

/-- `Finish`, trace_core.go:232-242. -/
def Heap.finish (h : Heap A) (a : Nat) (now : Time) : Heap A :=
  let tr := h.traces a
  if tr.finished then h
  else { h with traces := upd h.traces a { tr with finished := true, duration := now.sub tr.start } }

/-- `SetMaxEvents`, trace_core.go:288-300. -/
def Heap.setMaxEvents (h : Heap A) (a : Nat) (max : Int) : Heap A :=
  let tr := h.traces a
  let m := if max < traceMaxEventsMin then traceMaxEventsMin
    else if max > traceMaxEventsMax then traceMaxEventsMax else max
  { h with traces := upd h.traces a { tr with eventsmax := m } }

/-- `EventsDetail`, trace_core.go:262-284. -/
def Heap.eventsDetail (h : Heap A) (a : Nat) (env : Env W) (n : Int) (stacks : Bool) (grow : Nat → Nat) :
    Option (List HSnap × Heap A) := do
  let tr := h.traces a
  let n := detailCount tr.events.length n
  let latest ← Go.sliceFrom tr.events (tr.events.length - n)
  let p ← h.snapshotEvents env.w stacks grow latest
  if tr.truncated > 0 then
    let t := truncatedNotice env.now tr.truncated
    let events ← Go.sliceFrom (p.1 ++ [{ when_ := t.when_, what := t.what, stack := ⟨0, 0⟩, isError := false }]) 1
    return (events, p.2)
  else
    return p

/-- The loop of `Free`, trace_core.go:310-312. -/
def Heap.freeEvents (h : Heap A) : List Nat → Option (Heap A)
  | [] => some h
  | e :: es => do
    let h' ← h.freeEvent e
    h'.freeEvents es

/-- `Free`, trace_core.go:302-317. -/
def Heap.free (h : Heap A) (a : Nat) : Option (Heap A) :=
  if (h.traces a).finished = false then
    some { h with n := { h.n with traceLost := h.n.traceLost + 1 } }
  else do
    let h ← h.freeEvents (h.traces a).events
    return { h with
      traces := upd h.traces a { h.traces a with events := (h.traces a).events.take 0 }
      n := { h.n with traceFree := h.n.traceFree + 1 }
      tracePool := a :: h.tracePool }

/-- A call on the object at address `a`. -/
def Heap.call (h : Heap A) (a : Nat) (ch : Choice) (env : Env W) : Call A → Option (List HSnap × Heap A)
  | .log kind format args callers => some ([], h.log a ch env kind format args callers)
  | .finish => some ([], h.finish a env.now)
  | .setMaxEvents m => some ([], h.setMaxEvents a m)
  | .read n stacks => h.eventsDetail a env n stacks ch.grow

/-! ## The collectors and their clients -/

/-- A trace pointer, with the number of the `newCoreTrace` call that returned it. -/
structure Handle where
  addr : Nat
  cid : Nat
deriving DecidableEq, Repr, Inhabited

/-- Record of the current use of a trace object: how it was created and the calls made on it
since. -/
structure Ghost (W A : Type) where
  cid : Nat
  g : Globals
  start : Time
  id : String
  source : String
  category : String
  hist : Hist W A

/-- Record of a read: on which trace, the snapshots it returned, and what they showed. -/
structure Read where
  handle : Handle
  snaps : List HSnap
  seen : List Event

structure St (W A : Type) where
  heap : Heap A
  globals : Globals
  /-- the categories of each collector, in the order of the `NewCollector` calls -/
  rings : List (RBs Handle)
  /-- traces created but not (yet) added to a category, with the collector and the category -/
  inflight : List (Handle × Nat × String)
  /-- traces dropped from a category, about to be freed -/
  pending : List Handle
  ghost : Nat → Option (Ghost W A)
  reads : List Read

/-- A program before it makes any collector or trace. -/
def St.init : St W A :=
  { heap := Heap.init, globals := {}, rings := [], inflight := [], pending := []
    ghost := fun _ => none, reads := [] }

inductive Act (W A : Type) where
  /-- `SetTraceMaxEvents`, `SetTraceStacks` -/
  | set (s : Setting)
  /-- `NewCollector` and then `SetCategorySize`, collector.go:56-76, 107-112; a size of 0 is for none -/
  | newCollector (size : Int)
  /-- `newCoreTrace` in `NewTrace` of the `k`-th collector, or in `trc.New` -/
  | new (k : Nat) (now : Time) (id source category : String) (ch : Choice)
  /-- `c.categories.GetOrCreate(category)` in `NewTrace`, collector.go:129 -/
  | getOrCreate (k : Nat) (category : String)
  /-- `.Add(tr)` in `NewTrace` for the `i`-th trace in flight, collector.go:129 -/
  | add (i : Nat)
  /-- the parts of `SetCategorySize`, collector.go:108 -/
  | beginResize (k : Nat) (cap : Int) (order : List String)
  | resizeNext (k : Nat)
  /-- `maybeFree` of the `i`-th dropped trace, collector.go:109, 130 -/
  | free (i : Nat)
  /-- a method call through any pointer to the object at `addr` -/
  | call (addr : Nat) (env : Env W) (c : Call A) (ch : Choice)
  /-- the garbage collector removes an object from a pool -/
  | gcTrace (i : Nat)
  | gcEvent (i : Nat)
  | gcStr (i : Nat)

/-- A step of the ring buffers of the `k`-th collector, if there is one; dropped traces become pending. -/
def St.ring (s : St W A) (k : Nat) (op : MOp Handle) : Option (St W A) :=
  match s.rings[k]? with
  | none => some s
  | some rbs => do
    let (rbs', dropped) ← rbs.step op
    return { s with rings := s.rings.set k rbs', pending := s.pending ++ dropped }

/-- One step of some goroutine. -/
def St.step (s : St W A) : Act W A → Option (St W A)
  | .set x => some { s with globals := s.globals.apply x }
  | .newCollector size => -- collector.go:74; ringbuffer.go:231-234
    some { s with rings := s.rings ++ [Ring.newRBs (if size ≤ 0 then 1000 else size)] }
  | .new k now id source category ch =>
    let cid := s.heap.n.traceNew
    let p := s.heap.newCoreTrace s.globals ch.trace now id source category
    some { s with
      heap := p.1
      inflight := s.inflight ++ [(⟨p.2, cid⟩, k, category)]
      ghost := upd s.ghost p.2 (some { cid, g := s.globals, start := now, id, source, category, hist := [] }) }
  | .getOrCreate k category => s.ring k (.getOrCreate category)
  | .add i =>
    match s.inflight[i]? with
    | none => some s
    | some (hd, k, category) =>
      match s.rings[k]? with
      | none => some s
      | some rbs =>
        if (rbs.bufs.find category).isSome then
          { s with inflight := s.inflight.eraseIdx i }.ring k (.add category hd)
        else some s
  | .beginResize k cap order => s.ring k (.beginResize cap order)
  | .resizeNext k => s.ring k .resizeNext
  | .free i =>
    match s.pending[i]? with
    | none => some s
    | some hd => do
      let heap ← s.heap.free hd.addr
      return { s with
        heap, pending := s.pending.eraseIdx i
        ghost := if (s.heap.traces hd.addr).finished then upd s.ghost hd.addr none else s.ghost }
  | .call a env c ch =>
    if a < s.heap.nextT then do
      let p ← s.heap.call a ch env c
      return { s with
        heap := p.2
        ghost := upd s.ghost a ((s.ghost a).map fun gh => { gh with hist := gh.hist ++ [(env, c)] })
        reads := match s.ghost a, c with
          | some gh, .read _ _ => s.reads ++ [⟨⟨a, gh.cid⟩, p.1, p.1.map p.2.view⟩]
          | _, _ => s.reads }
    else some s
  | .gcTrace i => some { s with heap := { s.heap with tracePool := s.heap.tracePool.eraseIdx i } }
  | .gcEvent i => some { s with heap := { s.heap with eventPool := s.heap.eventPool.eraseIdx i } }
  | .gcStr i => some { s with heap := { s.heap with strPool := s.heap.strPool.eraseIdx i } }

def St.run (s : St W A) : List (Act W A) → Option (St W A)
  | [] => some s
  | a :: as => do
    let s' ← s.step a
    s'.run as

end Trc.Heap
