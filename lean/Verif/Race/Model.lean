import Verif.Lock.Model

/-!
# Which memory the methods touch, and under which locks

Calls of the API as sequences of locking and memory operations, run by any number of goroutines in any
interleaving.  What a call does depends on data: whether a trace is finished, which events it has, what
a buffer drops.  These are arguments of the definitions here, and the operations only go on if they are
what is in memory, so the theorems are for all that data could give.

Memory is divided into locations as coarse as the locking allows; a race on a field is one on its
location.  An object from a `sync.Pool` has lifetimes: each `Get` begins one.  A pointer to it, and so an
access through the pointer, belongs to the lifetime in which the pointer was obtained; no code looks at that.

Collectors and brokers exist from the start, and are configured (`SetSourceName`, `SetNewTrace`, `SetDecorators`)
before they are used.  Operations on atomics (`traceMaxEvents`, `traceNoStacks`, `stringer.str`, the debug
counters), the ULID entropy, channels and the pools' own memory are no accesses.  Not modelled: user
code, as in `Verif/Lock/Model.lean`, and a trace that is put into the pool twice (see C20).
-/

namespace Trc.Race

open Trc.Lock (Lock upd)

abbrev Tid := Nat

/-- Objects that are created during the run. -/
inductive Obj where
  /-- `coreTrace`, trace_core.go:72-85 -/
  | trace (a : Nat)
  /-- `coreEvent` or `stringer`, trace_core.go:334-341, 453-457 -/
  | part (e : Nat)
  /-- `RingBuffer`, ringbuffer.go:8-13 -/
  | ring (r : Nat)
deriving DecidableEq, Repr

def Obj.isPart : Obj → Bool
  | .part _ => true
  | _ => false

/-- Locations. -/
inductive Loc where
  /-- `id`, `source`, `category`, `start` -/
  | imm (a : Nat)
  /-- the other fields of a `coreTrace`, and the array behind `events` -/
  | var (a : Nat)
  /-- the fields of a `coreEvent` or `stringer` -/
  | part (e : Nat)
  /-- the array behind `stack` of a `coreEvent` -/
  | frames (e : Nat)
  /-- the fields of a `RingBuffer` and its array -/
  | ring (r : Nat)
  /-- the fields of a `RingBuffers` and its map, ringbuffer.go:187-191 -/
  | set (k : Nat)
  /-- `subs` of a `Broker`, and the subscribers -/
  | broker (b : Nat)
  /-- the unused rest of the array behind `args` of a `prefixTrace`, helpers.go:111-116 -/
  | args (p : Nat)
deriving DecidableEq, Repr

/-- A pointer to an object in a lifetime: to a trace, to a buffer, or, for a part, to the frames of an event in a
snapshot. -/
abbrev Token := Obj × Nat

/-- What goroutines do, as seen by the Go memory model. -/
inductive Ev where
  | lock (m : Lock)
  | unlock (m : Lock)
  /-- a read or write, through a pointer of the given lifetime -/
  | acc (write : Bool) (l : Loc) (g : Nat)
  /-- `Get` of a pool, or allocation -/
  | get (o : Obj)
  | put (o : Obj)
  /-- communication with another goroutine: channels, `go` statements, contexts, wait groups -/
  | send (k : Nat)
  | recv (k : Nat)
deriving DecidableEq, Repr

/-- Operations: events, and what goes with them. -/
inductive Instr where
  | lock (m : Lock)
  | unlock (m : Lock)
  /-- take an object from its pool, or allocate it, which begins lifetime `g` -/
  | get (o : Obj) (g : Nat)
  /-- write a location of an object one has taken and that nobody else knows -/
  | init (l : Loc) (o : Obj) (g : Nat)
  /-- the object is ready -/
  | ready (o : Obj) (g : Nat)
  /-- access a location through a pointer; `none` if the object is there from the start -/
  | acc (write : Bool) (l : Loc) (p : Option Token)
  /-- take an event or stringer from its pool and put it into the trace -/
  | take (a e : Nat)
  /-- access an event or stringer of the trace -/
  | accPart (write : Bool) (a e : Nat)
  /-- put an event or stringer of the trace into its pool -/
  | putPart (a e : Nat)
  /-- write the frames of an event -/
  | fill (a e : Nat)
  /-- take the frames of an event into a snapshot -/
  | snap (a e g : Nat)
  /-- put a trace into the pool -/
  | put (a g : Nat)
  /-- store a pointer in what the lock guards -/
  | stash (m : Lock) (p : Token)
  /-- load a pointer from it -/
  | fetch (m : Lock) (p : Token)
  /-- load it and remove it -/
  | drop (m : Lock) (p : Token)
  /-- communicate, handing over pointers -/
  | send (k : Nat) (ps : List Token)
  | recv (k : Nat) (ps : List Token)
  /-- `append(ptr.args, args...)` with capacity to spare -/
  | append (p : Nat)
deriving DecidableEq, Repr

/-- The state of a run. -/
structure St where
  /-- all that has happened, in order -/
  tr : List (Tid × Ev) := []
  owner : Lock → Option Tid := fun _ => none
  /-- the rest of each goroutine's current call -/
  code : Tid → List Instr := fun _ => []
  /-- the pointers of each goroutine -/
  has : Tid → List Token := fun _ => []
  /-- the objects that it is constructing -/
  raw : Tid → List Token := fun _ => []
  store : Lock → List Token := fun _ => []
  msgs : Nat → Option (List Token) := fun _ => none
  /-- the number of lifetimes -/
  gens : Obj → Nat := fun _ => 0
  pooled : Obj → Bool := fun _ => false
  /-- the trace that an event or stringer is part of -/
  home : Nat → Option Nat := fun _ => none
  /-- the event has its frames -/
  filled : Nat → Bool := fun _ => false

def St.emit (s : St) (t : Tid) (e : Ev) : St := { s with tr := s.tr ++ [(t, e)] }

/-- An object may be taken: it has never been used, or is in the pool. -/
def St.available (s : St) (o : Obj) : Bool := s.gens o == 0 || s.pooled o

/-- The object a location belongs to. -/
def Loc.obj : Loc → Option Obj
  | .imm a => some (.trace a)
  | .var a => some (.trace a)
  | .ring r => some (.ring r)
  | .frames e => some (.part e)
  | _ => none

/-- The lifetime that an access through a pointer belongs to. -/
def genOf : Option Token → Nat
  | some p => p.2
  | none => 0

/-- The pointer can be used for the location. -/
def St.usable (s : St) (t : Tid) (l : Loc) : Option Token → Bool
  | some p => l.obj == some p.1 && (s.has t).contains p
  | none => match l with
    | .set _ => true
    | .broker _ => true
    | _ => false

/-- One operation; `none` if it cannot be done, or not now. -/
def exec (s : St) (t : Tid) : Instr → Option St
  | .lock m =>
    if s.owner m = none then some { s.emit t (.lock m) with owner := upd s.owner m (some t) } else none
  | .unlock m =>
    if s.owner m = some t then some { s.emit t (.unlock m) with owner := upd s.owner m none } else none
  | .get o g =>
    if o.isPart = false ∧ s.available o = true ∧ g = s.gens o + 1 then
      some { s.emit t (.get o) with
        gens := upd s.gens o g, pooled := upd s.pooled o false, raw := upd s.raw t ((o, g) :: s.raw t) }
    else none
  | .init l o g => if l.obj = some o ∧ (o, g) ∈ s.raw t then some (s.emit t (.acc true l g)) else none
  | .ready o g =>
    if (o, g) ∈ s.raw t then
      some { s with raw := upd s.raw t ((s.raw t).filter (· ≠ (o, g))), has := upd s.has t ((o, g) :: s.has t) }
    else none
  | .acc w l p => if s.usable t l p then some (s.emit t (.acc w l (genOf p))) else none
  | .take a e =>
    if s.available (.part e) = true then
      some { s.emit t (.get (.part e)) with
        gens := upd s.gens (.part e) (s.gens (.part e) + 1), pooled := upd s.pooled (.part e) false
        home := upd s.home e (some a), filled := upd s.filled e false }
    else none
  | .accPart w a e => if s.home e = some a then some (s.emit t (.acc w (.part e) 0)) else none
  | .putPart a e =>
    if s.home e = some a then
      some { s.emit t (.put (.part e)) with home := upd s.home e none, pooled := upd s.pooled (.part e) true }
    else none
  | .fill a e =>
    if s.home e = some a ∧ s.filled e = false then
      some { s.emit t (.acc true (.frames e) (s.gens (.part e))) with filled := upd s.filled e true }
    else none
  | .snap a e g =>
    if s.home e = some a ∧ s.filled e = true ∧ g = s.gens (.part e) then
      some { s with has := upd s.has t ((.part e, g) :: s.has t) }
    else none
  | .put a g =>
    if (.trace a, g) ∈ s.has t ∧ s.pooled (.trace a) = false then
      some { s.emit t (.put (.trace a)) with pooled := upd s.pooled (.trace a) true }
    else none
  | .stash m p => if p ∈ s.has t then some { s with store := upd s.store m (p :: s.store m) } else none
  | .fetch m p => if p ∈ s.store m then some { s with has := upd s.has t (p :: s.has t) } else none
  | .drop m p =>
    if p ∈ s.store m then
      some { s with has := upd s.has t (p :: s.has t), store := upd s.store m ((s.store m).erase p) }
    else none
  | .send k ps =>
    if s.msgs k = none ∧ ∀ p ∈ ps, p ∈ s.has t then
      some { s.emit t (.send k) with msgs := upd s.msgs k (some ps) }
    else none
  | .recv k ps =>
    if s.msgs k = some ps then some { s.emit t (.recv k) with has := upd s.has t (ps ++ s.has t) } else none
  | .append p => some (s.emit t (.acc true (.args p) 0))

/-! ## The methods -/

/-- `mtx.Lock(); defer mtx.Unlock(); body` -/
def locked (m : Lock) (body : List Instr) : List Instr := .lock m :: body ++ [.unlock m]

/-- A pointer to a trace. -/
structure Handle where
  a : Nat
  g : Nat
deriving DecidableEq, Repr

def Handle.token (h : Handle) : Token := (.trace h.a, h.g)

/-- Access to the fields of a trace. -/
def imm (h : Handle) : Instr := .acc false (.imm h.a) (some h.token)
def var (w : Bool) (h : Handle) : Instr := .acc w (.var h.a) (some h.token)

/-- How an event, or its stringer, is read, trace_core.go:376-424. -/
inductive ReadPart where
  /-- a stringer, or an event without its stack -/
  | plain (e : Nat)
  /-- the stack has been computed before -/
  | stack (e g : Nat)
  /-- the stack is computed -/
  | newStack (e g : Nat)

/-- `snapshotEvents` for one event, trace_core.go:409-424, `getStack`, 376-398. -/
def ReadPart.code (a : Nat) : ReadPart → List Instr
  | .plain e => [.accPart false a e]
  | .stack e g => [.accPart false a e, .snap a e g]
  | .newStack e g => [.accPart true a e, .fill a e, .snap a e g]

/-- Methods that read a trace, and reading a snapshot. -/
inductive Look where
  /-- `ID`, `Source`, `Category`, `Started`, trace_core.go:137-151 -/
  | attr
  /-- `Duration`, trace_core.go:153-162 -/
  | duration
  /-- `Finished`, `Errored`, trace_core.go:244-256 -/
  | flag
  /-- `Events`, `EventsDetail`, trace_core.go:258-284 -/
  | events (parts : List ReadPart)
  /-- reading the frames in a snapshot: `Filter.Allow`, filter.go:157-164, encoding -/
  | frames (e g : Nat)

def Look.code (h : Handle) : Look → List Instr
  | .attr => [imm h]
  | .duration => locked (.trace h.a) [var false h, imm h]
  | .flag => locked (.trace h.a) [var false h]
  | .events parts => locked (.trace h.a) (var false h :: parts.flatMap (ReadPart.code h.a))
  | .frames e g => [.acc false (.frames e) (some (.part e, g))]

/-- Some of them. -/
def looks (h : Handle) (ls : List Look) : List Instr := ls.flatMap (Look.code h)

/-- `SetMaxEvents`, trace_core.go:288-300. -/
def setMaxEvents (h : Handle) : List Instr := locked (.trace h.a) [var true h]

/-- What becomes of an event that is logged. -/
inductive Outcome where
  /-- the trace is finished -/
  | ignored
  | truncated
  /-- stored in the given objects -/
  | stored (parts : List Nat)

def Outcome.code (h : Handle) : Outcome → List Instr
  | .ignored => []
  | .truncated => [var true h]
  | .stored parts => parts.flatMap (fun e => [.take h.a e, .accPart true h.a e]) ++ [var true h]

/-- `Tracef`, `LazyTracef`, `Errorf`, `LazyErrorf`, trace_core.go:164-230, `newCoreEvent`, 350-374. -/
def coreLog (h : Handle) (o : Outcome) : List Instr := locked (.trace h.a) (var false h :: o.code h)

/-- `Finish`, trace_core.go:232-242. -/
def coreFinish (h : Handle) (already : Bool) : List Instr :=
  locked (.trace h.a) (var false h :: if already then [] else [imm h, var true h])

/-- `Free`, trace_core.go:302-317; `finished` are the parts that are freed, if the trace is finished. -/
def coreFree (h : Handle) (finished : Option (List Nat)) : List Instr :=
  locked (.trace h.a) (var false h :: match finished with
    | none => []
    | some es => es.flatMap (fun e => [.accPart true h.a e, .putPart h.a e]) ++ [var true h, .put h.a h.g])

def freeAll (ds : List (Handle × Option (List Nat))) : List Instr := ds.flatMap fun d => coreFree d.1 d.2

/-- `Broker.Publish`, broker.go:24-49: `NewStreamTrace` (trace_static.go:40-76) calls getters; the filters and statistics of
subscribers are written. -/
def publish (b : Nat) (h : Handle) (ls : List Look) : List Instr :=
  locked (.broker b) (.acc false (.broker b) none :: (looks h ls ++ [.acc true (.broker b) none]))

/-- What a trace is wrapped in, with what the wrapper does in a call. -/
inductive Wrapper where
  /-- decorators.go:50-102: it only writes to the user's writer -/
  | log
  /-- decorators.go:123-159 -/
  | pub (b : Nat) (ls : List Look)
  /-- helpers.go:111-132; `spare`: `args` has capacity to spare and the event has arguments -/
  | prefix (p : Nat) (spare : Bool)

/-- `Tracef` and the like through wrappers, the outermost first. -/
def event (h : Handle) (o : Outcome) : List Wrapper → List Instr
  | [] => coreLog h o
  | .log :: ws => event h o ws
  | .pub b ls :: ws => event h o ws ++ publish b h ls
  | .prefix p spare :: ws => (if spare then [.append p] else []) ++ event h o ws

/-- `Finish` through wrappers. -/
def finish (h : Handle) (already : Bool) : List Wrapper → List Instr
  | [] => coreFinish h already
  | .log :: ws => finish h already ws ++ looks h [.duration, .flag]
  | .pub b ls :: ws => finish h already ws ++ publish b h ls
  | .prefix _ _ :: ws => finish h already ws

/-- `GetOrCreate`, ringbuffer.go:204-215. -/
def getOrCreate (k r : Nat) (new : Bool) : List Instr :=
  locked (.set k) (.acc false (.set k) none ::
    if new then [.get (.ring r) 1, .init (.ring r) (.ring r) 1, .ready (.ring r) 1, .acc true (.set k) none, .stash (.set k) (.ring r, 1)]
    else [.fetch (.set k) (.ring r, 1)])

/-- Access to a buffer. -/
def ring (w : Bool) (r : Nat) : Instr := .acc w (.ring r) (some (.ring r, 1))

/-- `Add`, ringbuffer.go:95-126: the new trace, and the one that is dropped. -/
def add (r : Nat) (h : Handle) (dropped : List Handle) : List Instr :=
  locked (.ring r) (ring false r :: (dropped.map (fun d => .drop (.ring r) d.token) ++ [ring true r, .stash (.ring r) h.token]))

/-- `Resize` of a buffer, ringbuffer.go:26-90. -/
def resizeOne (r : Nat) (dropped : List Handle) : List Instr :=
  locked (.ring r) (ring false r :: (dropped.map (fun d => .drop (.ring r) d.token) ++ [ring true r]))

/-- `newCoreTrace`, trace_core.go:112-128. -/
def newCoreTrace (h : Handle) : List Instr :=
  [.get (.trace h.a) h.g, .init (.imm h.a) (.trace h.a) h.g, .init (.var h.a) (.trace h.a) h.g, .ready (.trace h.a) h.g]

/-- The candidates of a walk, collector.go:150-171. -/
def candidates (r : Nat) (cs : List (Handle × List Look)) : List Instr :=
  cs.flatMap fun c => .fetch (.ring r) c.1.token :: looks c.1 c.2

/-- The walk of a buffer, ringbuffer.go:131-152. -/
def walk (r : Nat) (cs : List (Handle × List Look)) : List Instr := locked (.ring r) (ring false r :: candidates r cs)

/-- Calls of the API. -/
inductive Call where
  /-- a getter of a trace, or reading a snapshot; `NewSearchTrace` and `NewStreamTrace` -/
  | look (h : Handle) (ls : List Look)
  | setMaxEvents (h : Handle)
  | event (h : Handle) (o : Outcome) (ws : List Wrapper)
  | finish (h : Handle) (already : Bool) (ws : List Wrapper)
  /-- `New`, trace_core.go:92-98 -/
  | new (h : Handle)
  /-- `NewTrace`, collector.go:117-134, `publishDecorator`, decorators.go:108-117; the decorators call getters -/
  | newTrace (h : Handle) (b : Nat) (ls decorators : List Look) (k r : Nat) (newRing : Bool)
      (dropped : List (Handle × Option (List Nat)))
  /-- `SetCategorySize`, collector.go:107-112, `RingBuffers.Resize`, ringbuffer.go:231-246 -/
  | setCategorySize (k : Nat) (rings : List (Nat × List Handle)) (dropped : List (Handle × Option (List Nat)))
  /-- `Search`, collector.go:137-195, but for the event that it logs -/
  | search (k : Nat) (walks : List (Nat × List (Handle × List Look)))
  /-- `Stream`, broker.go:60-96, of a channel without subscription; the message is the end of the context -/
  | stream (b : Nat) (done : Nat)
  /-- `StreamStats`, broker.go:99-109, and `Stream` of a channel that has one -/
  | streamStats (b : Nat)
  | publish (b : Nat) (h : Handle) (ls : List Look)
  /-- what the program's goroutines tell each other -/
  | send (k : Nat) (ps : List Token)
  | recv (k : Nat) (ps : List Token)

/-- The operations of a call. -/
def Call.code : Call → List Instr
  | .look h ls => looks h ls
  | .setMaxEvents h => Race.setMaxEvents h
  | .event h o ws => Race.event h o ws
  | .finish h already ws => Race.finish h already ws
  | .new h => newCoreTrace h
  | .newTrace h b ls decorators k r newRing dropped =>
    newCoreTrace h ++ (Race.publish b h ls ++ (looks h decorators ++
      (getOrCreate k r newRing ++ (add r h (dropped.map (·.1)) ++ freeAll dropped))))
  | .setCategorySize k rings dropped =>
    locked (.set k) (.acc true (.set k) none :: rings.flatMap (fun r => .fetch (.set k) (.ring r.1, 1) :: resizeOne r.1 r.2)) ++
      freeAll dropped
  | .search k walks =>
    locked (.set k) (.acc false (.set k) none :: walks.map (fun w => .fetch (.set k) (.ring w.1, 1))) ++
      walks.flatMap (fun w => walk w.1 w.2)
  | .stream b done =>
    locked (.broker b) [.acc false (.broker b) none, .acc true (.broker b) none] ++
      (.recv done [] :: locked (.broker b) [.acc false (.broker b) none, .acc true (.broker b) none])
  | .streamStats b => locked (.broker b) [.acc false (.broker b) none]
  | .publish b h ls => Race.publish b h ls
  | .send k ps => [.send k ps]
  | .recv k ps => [.recv k ps]

/-- A goroutine begins a call or goes on with it. -/
inductive Step : St → St → Prop where
  | call {s : St} (t : Tid) (c : Call) : s.code t = [] → Step s { s with code := upd s.code t c.code }
  | run {s s' : St} (t : Tid) (i : Instr) (rest : List Instr) : s.code t = i :: rest → exec s t i = some s' →
      Step s { s' with code := upd s'.code t rest }

/-- The states that can be reached. -/
inductive Reach : St → Prop where
  | init : Reach {}
  | step {s s' : St} : Reach s → Step s s' → Reach s'

end Trc.Race
