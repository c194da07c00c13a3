/-!
# Go run-time primitives used by the model

A Go panic is the value `none`.  Nothing in this file models repository code; it
fixes the meaning of the Go operations that the models are written in.
-/

namespace Trc.Go

/-- `l[i]` on a Go slice: panics (`none`) unless `0 ≤ i < len(l)`. -/
def get {α : Type} (l : List α) (i : Int) : Option α :=
  if i < 0 then none else l[i.toNat]?

/-- `l[i] = x` on a Go slice: panics (`none`) unless `0 ≤ i < len(l)`. -/
def set {α : Type} (l : List α) (i : Int) (x : α) : Option (List α) :=
  if 0 ≤ i ∧ i < l.length then some (l.set i.toNat x) else none

/-- `make([]T, n)`: panics (`none`) if `n < 0`; elements are the zero value. -/
def make {α : Type} [Inhabited α] (n : Int) : Option (List α) :=
  if n < 0 then none else some (List.replicate n.toNat default)

/-- `l[i:]` on a Go slice: panics (`none`) unless `0 ≤ i ≤ len(l)`. -/
def sliceFrom {α : Type} (l : List α) (i : Int) : Option (List α) :=
  if 0 ≤ i ∧ i ≤ l.length then some (l.drop i.toNat) else none

/-- `l[:i]` on a Go slice, for `i ≤ len(l)`: panics (`none`) unless
`0 ≤ i ≤ len(l)`.  (Go also allows `len < i ≤ cap`; no modelled call does so.) -/
def sliceTo {α : Type} (l : List α) (i : Int) : Option (List α) :=
  if 0 ≤ i ∧ i ≤ l.length then some (l.take i.toNat) else none

end Trc.Go
