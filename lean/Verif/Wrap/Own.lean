import Verif.Search.Static

/-!
# Traces of other types: `NewSearchTrace`, `NewStreamTrace` and `TrimStacks` in memory

`Trace` (trace.go:23-88) is an interface, and a program can search and publish traces of types of its
own, or static traces that it got from somewhere.  `Events` of such a trace may return a copy, as the
traces of trc do (trace_core.go:262-284), or the slice that the trace keeps, as `StaticTrace.Events` does
(trace_static.go:116).  `NewStreamTrace` and `TrimStacks` write to the slice they get.  So here events are
in memory: a list of arrays, and slices that point into them.

Simplified: an event's own stack is a value, since nothing writes to its frames; `events[i].Stack[:0]` and
`ev.Stack[:depth]` only change the slice kept in the event.  Nothing else writes to the arrays: the
program does not log to these traces meanwhile.  A type with a method `EventsDetail` makes copies, as
trc's does.
-/

namespace Trc.Own

open Core (Event Frame)

/-- All the arrays of events, by their numbers. -/
abbrev Mem := List (List Event)

/-- A `[]Event`: a part of an array. -/
structure Slice where
  arr : Nat
  off : Nat
  len : Nat
deriving DecidableEq, Repr, Inhabited

/-- What a slice shows. -/
def Slice.view (m : Mem) (s : Slice) : List Event := (((m[s.arr]?).getD []).drop s.off).take s.len

/-- `make` and filling it, as in `EventsDetail`, trace_core.go:409-424. -/
def alloc (m : Mem) (evs : List Event) : Slice × Mem := (⟨m.length, 0, evs.length⟩, m ++ [evs])

/-- A loop that assigns to each element of a slice. -/
def write (m : Mem) (s : Slice) (f : Event → Event) : Mem :=
  m.modify s.arr fun l => l.mapIdx fun j e => if s.off ≤ j ∧ j < s.off + s.len then f e else e

/-- How a type implements `Events` and whether it has `EventsDetail`. -/
inductive Kind
  /-- `EventsDetail` exists, and makes copies: trace_core.go:262-284. -/
  | detail
  /-- `Events` returns a copy. -/
  | copies
  /-- `Events` returns the slice that the trace keeps: trace_static.go:116. -/
  | shares
deriving DecidableEq, Repr, Inhabited

/-- A trace: what the other getters return does not change. -/
structure Tr where
  kind : Kind
  source : String := ""
  id : String := ""
  category : String := ""
  started : Time := ⟨0, none⟩
  duration : Duration := 0
  finished : Bool := false
  errored : Bool := false
  events : Slice
deriving DecidableEq, Repr, Inhabited

/-- `tr.Events()`. -/
def Tr.getEvents (tr : Tr) (m : Mem) : Slice × Mem :=
  match tr.kind with
  | .shares => (tr.events, m)
  | _ => alloc m (tr.events.view m)

/-- The last `n` events, or all of them if `n` is negative, without stacks: `EventsDetail(n, false)`,
trace_core.go:262-284. -/
def Tr.detail (tr : Tr) (m : Mem) (n : Int) : Slice × Mem :=
  let evs := (tr.events.view m).map fun ev => { ev with stack := [] }
  alloc m (if n < 0 then evs else evs.drop (evs.length - n.toNat))

/-- `NewSearchTrace`, trace_static.go:24-35. -/
def newSearchTrace (m : Mem) (tr : Tr) : Tr × Mem :=
  let (s, m) := tr.getEvents m
  ({ tr with kind := .shares, events := s }, m)

/-- `TrimStacks`, trace_static.go:120-134. -/
def trimStacks (m : Mem) (st : Tr) (depth : Int) : Mem :=
  if depth = 0 then m
  else
    let depth := if depth < 0 then 0 else depth
    write m st.events (trimEvent depth.toNat)

/-- `NewStreamTrace`, trace_static.go:40-76; `none` is the panic of line 53. -/
def newStreamTrace (m : Mem) (tr : Tr) : Option (Tr × Mem) := do
  let isActive := !tr.finished
  let (s, m) ← match tr.kind, isActive with
    | .detail, true => some (tr.detail m 1)
    | .detail, false => some (tr.detail m (-1))
    | _, true =>
      let (s, m) := tr.getEvents m
      if s.len = 0 then none
      else
        let s : Slice := ⟨s.arr, s.off + (s.len - 1), 1⟩
        some (s, write m s fun ev => { ev with stack := [] })
    | _, false =>
      let (s, m) := tr.getEvents m
      some (s, write m s fun ev => { ev with stack := [] })
  return ({ tr with kind := .shares, events := s }, m)

/-- The traces that a program knows, and memory. -/
structure St where
  traces : List Tr
  mem : Mem

/-- What can be done to the trace with number `i`. -/
inductive Look
  /-- `NewSearchTrace(candidate).TrimStacks(req.StackDepth)`: collector.go:168. -/
  | search (i : Nat) (depth : Int)
  /-- `Publish` to a broker with so many subscribers: broker.go:24-49. -/
  | publish (i : Nat) (subs : Nat)
  /-- `TrimStacks` by the program. -/
  | trim (i : Nat) (depth : Int)

/-- One of them. The copy that is made is a trace, too. -/
def St.step (s : St) : Look → Option St
  | .search i depth => do
    let tr ← s.traces[i]?
    let (st, m) := newSearchTrace s.mem tr
    return ⟨s.traces ++ [st], trimStacks m st depth⟩
  | .publish i subs => do
    let tr ← s.traces[i]?
    if subs = 0 then return s
    let (st, m) ← newStreamTrace s.mem tr
    return ⟨s.traces ++ [st], m⟩
  | .trim i depth => do
    let tr ← s.traces[i]?
    if tr.kind = .shares then return ⟨s.traces, trimStacks s.mem tr depth⟩
    return s

/-- Any number of them. -/
def St.run (s : St) : List Look → Option St
  | [] => some s
  | l :: ls => (s.step l).bind (·.run ls)

/-- What `Events` of a trace shows. -/
def St.shown (s : St) (i : Nat) : Option (List Event) := (s.traces[i]?).map fun tr => tr.events.view s.mem

end Trc.Own
