import Verif.Ring.Model

/-!
# Specification of a ring buffer: a bounded newest-first list
-/

namespace Trc.Ring.Spec

variable {α : Type}

/-- A "most recent `cap`" list, newest first. -/
structure Recent (α : Type) where
  cap : Nat
  items : List α

/-- Put the value in front and cut to the capacity. Returns what was cut. -/
def Recent.add (r : Recent α) (v : α) : Recent α × List α :=
  ({ r with items := (v :: r.items).take r.cap },
   if r.cap = 0 then [] else (v :: r.items).drop r.cap)

/-- Non-positive capacities are ignored; otherwise cut to the new capacity.
Returns what was cut. -/
def Recent.resize (r : Recent α) (c : Int) : Recent α × List α :=
  if c ≤ 0 then (r, []) else ({ cap := c.toNat, items := r.items.take c.toNat }, r.items.drop c.toNat)

/-- One call. -/
def Recent.step (r : Recent α) : Op α → Recent α × List α
  | .add v => r.add v
  | .resize c => r.resize c

/-- A history of calls. -/
def Recent.run (r : Recent α) : List (Op α) → Recent α × List (List α)
  | [] => (r, [])
  | op :: ops =>
    let (r₁, d) := r.step op
    let (r₂, ds) := r₁.run ops
    (r₂, d :: ds)

/-- The empty list with a given capacity, after a history. -/
def recent (cap : Nat) (ops : List (Op α)) : Recent α × List (List α) :=
  Recent.run { cap, items := [] } ops

/-- The values added by a history, oldest first. -/
def added (ops : List (Op α)) : List α :=
  ops.filterMap fun | .add v => some v | .resize _ => none

/-- Visit a list with a callback until it errors. -/
def visit {σ ε : Type} (fn : σ → α → σ × Option ε) : List α → σ → σ × Option ε
  | [], s => (s, none)
  | x :: xs, s =>
    match fn s x with
    | (s', some e) => (s', some e)
    | (s', none) => visit fn xs s'

end Trc.Ring.Spec
