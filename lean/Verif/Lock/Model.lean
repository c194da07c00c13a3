/-!
# Which locks the methods take (collector.go, broker.go, trace_core.go, ringbuffer.go, decorators.go)

A method is the list of what it does with locks.  What it does depends on data: how many candidates
a buffer has, whether there are subscribers, how many getters a filter calls.  These are arguments
of the definitions here; the theorems are for all of them, so also for those the data would give.

All locks are `sync.Mutex`.  `Unlock` is always deferred, so a panic releases the locks too.

Not modelled: user code that is called by the library, i.e. custom traces and decorators, the
writers of `LogDecorator`, and the `String` methods of arguments of events (but see
`C75_reentrant_argument_deadlocks`); and the locks inside `sync.Pool`, the ULID entropy, and channels, which
are never held when another lock is taken.
-/

namespace Trc.Lock

/-- The mutexes. -/
inductive Lock where
  /-- `RingBuffers.mtx` of a collector, ringbuffer.go:188 -/
  | set (collector : Nat)
  /-- `RingBuffer.mtx`, ringbuffer.go:9 -/
  | ring (buffer : Nat)
  /-- `Broker.mtx`, broker.go:11 -/
  | broker (broker : Nat)
  /-- `coreTrace.mtx`, trace_core.go:73 -/
  | trace (trace : Nat)
deriving DecidableEq, Repr

inductive Op where
  | acq (l : Lock)
  | rel (l : Lock)
  /-- waiting for something else than a lock: the end of a context, results on a channel -/
  | pause
deriving DecidableEq, Repr

/-- `mtx.Lock(); defer mtx.Unlock(); body` -/
def locked (l : Lock) (body : List Op) : List Op := .acq l :: body ++ [.rel l]

/-! ## Traces -/

/-- What a core trace is wrapped in. -/
inductive Wrapper where
  | log
  | pub (broker : Nat)
  | prefix

/-- A trace: a core trace and its wrappers, the innermost first. -/
structure Tr where
  core : Nat
  wrappers : List Wrapper

/-- A method of a core trace that takes the lock, trace_core.go:153-315: `Duration`, `Tracef`, `LazyTracef`,
`Errorf`, `LazyErrorf`, `Finish`, `Finished`, `Errored`, `EventsDetail`, `SetMaxEvents`, `Free`.  All of
them hold it until they return, and take no other. -/
def coreCall (t : Nat) : List Op := locked (.trace t) []

/-- Some calls of getters; those of wrappers are promoted from the embedded trace. -/
def getters (t : Nat) : Nat → List Op
  | 0 => []
  | n + 1 => coreCall t ++ getters t n

/-- `Broker.Publish`, broker.go:24-49: without subscribers it calls no getter, otherwise
`NewStreamTrace` does; the filters only see the static copy. -/
def publish (b : Nat) (t : Nat) (n : Nat) : List Op := locked (.broker b) (getters t n)

/-- `Tracef` and the like, decorators.go:58-76,130-148, helpers.go:118-132. -/
def event (t : Nat) (n : Nat) : List Wrapper → List Op
  | [] => coreCall t
  | w :: ws =>
    -- `ws` are inside of `w`
    match w with
    | .log => event t n ws
    | .pub b => event t n ws ++ publish b t n
    | .prefix => event t n ws

/-- `Finish`, decorators.go:78-91,150-153. -/
def finish (t : Nat) (n : Nat) : List Wrapper → List Op
  | [] => coreCall t
  | w :: ws =>
    match w with
    | .log => finish t n ws ++ (coreCall t ++ coreCall t)
    | .pub b => finish t n ws ++ publish b t n
    | .prefix => finish t n ws

def Tr.event (t : Tr) (n : Nat) : List Op := Lock.event t.core n t.wrappers.reverse
def Tr.finish (t : Tr) (n : Nat) : List Op := Lock.finish t.core n t.wrappers.reverse

/-- `Free` of each, collector.go:108-110,129-131,212-216. -/
def freeAll : List Nat → List Op
  | [] => []
  | t :: ts => coreCall t ++ freeAll ts

/-! ## Collectors -/

/-- A critical section for each buffer: of `Resize`, ringbuffer.go:241-243. -/
def resizeAll : List Nat → List Op
  | [] => []
  | r :: rs => locked (.ring r) [] ++ resizeAll rs

/-- The callbacks of a walk: each calls getters of a candidate, collector.go:150-171. -/
def candidates : List (Nat × Nat) → List Op
  | [] => []
  | (t, n) :: cs => getters t n ++ candidates cs

/-- The walks of a search, collector.go:148-173. -/
def walks : List (Nat × List (Nat × Nat)) → List Op
  | [] => []
  | (r, cs) :: ws => locked (.ring r) (candidates cs) ++ walks ws

/-- Calls of the API. -/
inductive Call where
  /-- a getter, or `SetMaxEvents` -/
  | get (t : Tr)
  /-- `Tracef`, `LazyTracef`, `Errorf`, `LazyErrorf`, `Region`, and a region's end -/
  | event (t : Tr) (n : Nat)
  | finish (t : Tr) (n : Nat)
  | free (t : Tr)
  /-- `NewTrace` with a trace in the context, collector.go:117-120 -/
  | newTraceOld (t : Tr) (n : Nat)
  /-- `NewTrace`, collector.go:117-134; the dropped trace is freed after the buffer's lock is released -/
  | newTrace (c b r : Nat) (t n : Nat) (dropped : List Nat)
  /-- `SetCategorySize`, collector.go:107-112 -/
  | setCategorySize (c : Nat) (rings : List Nat) (dropped : List Nat)
  /-- `Search`, collector.go:137-195; `t` is the trace in the context -/
  | search (c : Nat) (ws : List (Nat × List (Nat × Nat))) (t : Tr) (n : Nat)
  /-- `MultiSearcher.Search`, search_types.go:137-227; the searches are threads of their own -/
  | multiSearch (t : Tr) (n : Nat)
  /-- `Stream`, broker.go:60-96 -/
  | stream (b : Nat)
  /-- `Stream` of a channel that has a subscription -/
  | streamAgain (b : Nat)
  /-- `StreamStats`, broker.go:99-109 -/
  | streamStats (b : Nat)
  /-- `Publish` of any trace -/
  | publish (b : Nat) (t n : Nat)

/-- What a call does with locks. -/
def Call.ops : Call → List Op
  | .get t => coreCall t.core
  | .event t n => t.event n
  | .finish t n => t.finish n
  | .free t => coreCall t.core
  | .newTraceOld t n => t.event n
  | .newTrace c b r t n dropped =>
    Lock.publish b t n ++ (locked (.set c) [] ++ (locked (.ring r) [] ++ freeAll dropped))
  | .setCategorySize c rings dropped => locked (.set c) (resizeAll rings) ++ freeAll dropped
  | .search c ws t n => locked (.set c) [] ++ (walks ws ++ t.event n)
  | .multiSearch t n => t.event n ++ (.pause :: t.event n)
  | .stream b => locked (.broker b) [] ++ (.pause :: locked (.broker b) [])
  | .streamAgain b => locked (.broker b) []
  | .streamStats b => locked (.broker b) []
  | .publish b t n => Lock.publish b t n

/-! ## Goroutines -/

/-- Goroutines and locks.  There are arbitrarily many goroutines; at first all of them are idle. -/
structure St where
  /-- who has a lock -/
  owner : Lock → Option Nat
  /-- what a goroutine has still to do in its current call -/
  code : Nat → List Op

def upd {α β : Type} [DecidableEq α] (f : α → β) (a : α) (b : β) : α → β := fun x => if x = a then b else f x

def St.init : St := ⟨fun _ => none, fun _ => []⟩

/-- What a goroutine does next.  `Lock` waits until the mutex is free. -/
inductive Step : St → St → Prop where
  | call {s : St} (i : Nat) (c : Call) : s.code i = [] → Step s { s with code := upd s.code i c.ops }
  | acq {s : St} (i : Nat) (l : Lock) (k : List Op) : s.code i = .acq l :: k → s.owner l = none →
      Step s ⟨upd s.owner l (some i), upd s.code i k⟩
  | rel {s : St} (i : Nat) (l : Lock) (k : List Op) : s.code i = .rel l :: k →
      Step s ⟨upd s.owner l none, upd s.code i k⟩
  | pause {s : St} (i : Nat) (k : List Op) : s.code i = .pause :: k → Step s { s with code := upd s.code i k }

inductive Steps : St → St → Prop where
  | refl (s : St) : Steps s s
  | tail {s t u : St} : Steps s t → Step t u → Steps s u

def Reach (s : St) : Prop := Steps St.init s

/-- A goroutine waits for a lock that somebody has. -/
def St.Waiting (s : St) (i : Nat) (l : Lock) : Prop := (∃ k, s.code i = .acq l :: k) ∧ s.owner l ≠ none

/-- A goroutine can go on with the call it is in, and needs nothing but locks to do so. -/
def St.CanStep (s : St) (i : Nat) : Prop :=
  (∃ l k, s.code i = .acq l :: k ∧ s.owner l = none) ∨ ∃ l k, s.code i = .rel l :: k

end Trc.Lock
