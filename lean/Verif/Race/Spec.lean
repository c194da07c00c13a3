import Verif.Race.Model

/-!
# Happens before, and data races (https://go.dev/ref/mem)
-/

namespace Trc.Race

/-- An operation that synchronizes before a later one of another goroutine: unlocking a mutex before locking it, `Put` of
an object into a pool before `Get` of it, sending before receiving. -/
def synchronizes : Ev → Ev → Bool
  | .unlock m, .lock m' => decide (m = m')
  | .put o, .get o' => decide (o = o')
  | .send k, .recv k' => decide (k = k')
  | _, _ => false

/-- The first of two operations is before the second in the same goroutine, or synchronizes before it. -/
def edge (tr : List (Tid × Ev)) (i j : Nat) : Bool :=
  decide (i < j) && match tr[i]?, tr[j]? with
    | some x, some y => decide (x.1 = y.1) || synchronizes x.2 y.2
    | _, _ => false

/-- Happens before. -/
inductive HB (tr : List (Tid × Ev)) : Nat → Nat → Prop where
  | edge {i j : Nat} : edge tr i j = true → HB tr i j
  | trans {i j k : Nat} : HB tr i j → Race.edge tr j k = true → HB tr i k

/-- The operations are accesses to the same location by different goroutines, at least one of them writes, and neither happens
before the other. -/
def Racing (tr : List (Tid × Ev)) (i j : Nat) : Prop :=
  ∃ t t' w w' l g g', tr[i]? = some (t, .acc w l g) ∧ tr[j]? = some (t', .acc w' l g') ∧
    t ≠ t' ∧ (w = true ∨ w' = true) ∧ ¬ HB tr i j ∧ ¬ HB tr j i

end Trc.Race
