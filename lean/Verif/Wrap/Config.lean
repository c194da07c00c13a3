import Verif.Go

/-!
# Configuration of collectors (collector.go:13-135)

A program makes collectors, changes their settings, changes arrays of decorators that it has given
to them, and makes traces.  Pointers to collectors, arrays and brokers are numbers.  A trace is a value
of any type `T`; a decorator makes another of it.  What decorators and traces do besides is in
`Verif/Wrap/Model.lean`, the categories in `Verif/Ring`; here each new trace is recorded with its collector
and category.
-/

namespace Trc.Config

variable (T : Type)

/-- `type DecoratorFunc`, decorators.go:16. -/
abbrev Deco := T → T

/-- `type NewTraceFunc`, collector.go:23-26: the trace it returns. -/
abbrev NewFunc := (source category : String) → List (Deco T) → T

/-- A slice: `len` elements of an array from `off` on. -/
structure Slice where
  array : Nat
  off : Nat
  len : Nat
deriving DecidableEq

/-- `type Collector`, collector.go:13-19, without the categories. -/
structure Coll where
  source : String
  /-- `none` is nil -/
  newTrace : Option (NewFunc T)
  broker : Nat
  decorators : Slice

/-- A new trace, and where it was put. -/
structure Made where
  coll : Nat
  category : String
  trace : T

structure State where
  arrays : List (List (Deco T)) := []
  colls : List (Coll T) := []
  /-- number of brokers made so far -/
  brokers : Nat := 0
  made : List (Made T) := []

/-- What a program does. -/
inductive Op where
  /-- an array of decorators, as for `[]DecoratorFunc{...}` or for the arguments of `SetDecorators(d1, d2)` -/
  | array (ds : List (Deco T))
  /-- `ds[i] = d`, for an array -/
  | assign (array i : Nat) (d : Deco T)
  /-- `NewBroker()` -/
  | broker
  /-- `NewCollector(CollectorConfig{...})`; `none` is nil -/
  | create (source : String) (newTrace : Option (NewFunc T)) (broker : Option Nat) (decorators : Slice)
  | setSourceName (c : Nat) (name : String)
  | setNewTrace (c : Nat) (f : Option (NewFunc T))
  /-- `SetDecorators(ds...)` -/
  | setDecorators (c : Nat) (ds : Slice)
  /-- `NewTrace(ctx, category)`; `ctx` is the trace in the context -/
  | newTrace (c : Nat) (ctx : Option T) (category : String)

variable {T}

/-- The elements of a slice. -/
def State.read (s : State T) (sl : Slice) : List (Deco T) :=
  (((s.arrays[sl.array]?).getD []).drop sl.off).take sl.len

section
variable (core : String → String → T) (publish : Nat → Deco T)

/-- `New`, trace_core.go:92-98. -/
def new : NewFunc T := fun source category ds => ds.foldl (fun tr d => d tr) (core source category)

/-- `NewCollector`, collector.go:56-76, and the number of brokers then. -/
def newCollector (brokers : Nat) (source : String) (f : Option (NewFunc T)) (b : Option Nat) (ds : Slice) : Coll T × Nat :=
  let source := if source = "" then "default" else source
  let f := match f with
    | none => some (new core)
    | some f => some f
  match b with
  | none => (⟨source, f, brokers, ds⟩, brokers + 1)
  | some b => (⟨source, f, b, ds⟩, brokers)

/-- `Collector.NewTrace`, collector.go:117-134, for a collector: the trace that is returned, that the
returned context has, and, if it is a new one, that is put in the category; `none` is a panic. -/
def Coll.make (s : State T) (c : Coll T) (category : String) : Option T :=
  match c.newTrace with
  | none => none
  | some f => some ((s.read c.decorators).foldl (fun tr d => d tr) (f c.source category [publish c.broker]))

/-- One step of a program; `none` is a panic. -/
def step (s : State T) : Op T → Option (State T)
  | .array ds => some { s with arrays := s.arrays ++ [ds] }
  | .assign a i d => some { s with arrays := s.arrays.modify a fun l => l.set i d }
  | .broker => some { s with brokers := s.brokers + 1 }
  | .create source f b ds =>
    let (c, n) := newCollector core s.brokers source f b ds
    some { s with colls := s.colls ++ [c], brokers := n }
  | .setSourceName c name => -- collector.go:81-84
    if c < s.colls.length then some { s with colls := s.colls.modify c fun x => { x with source := name } } else none
  | .setNewTrace c f => -- collector.go:89-92
    if c < s.colls.length then some { s with colls := s.colls.modify c fun x => { x with newTrace := f } } else none
  | .setDecorators c ds => -- collector.go:97-100
    if c < s.colls.length then some { s with colls := s.colls.modify c fun x => { x with decorators := ds } } else none
  | .newTrace c ctx category =>
    match s.colls[c]? with
    | none => none
    | some x =>
      match ctx with
      | some _ => some s
      | none => (x.make publish s category).map fun tr => { s with made := s.made ++ [⟨c, category, tr⟩] }

/-- A program that has run without a panic. -/
def run (ops : List (Op T)) : Option (State T) := ops.foldlM (step core publish) {}

end

end Trc.Config
