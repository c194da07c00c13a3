import Verif.Ring.Lemmas

/-!
# Model of `internal/trcringbuf/ringbuffer.go`: `RingBuffers`

The Go map from category to buffer is an association list with distinct keys.  The
iteration order of a Go map is arbitrary, so operations that iterate take the order
as an argument.

`RingBuffers.Resize` holds `rbs.mtx` while it resizes the buffers one by one, each
under its own lock; a concurrent `Add` to a buffer can come between two of those
steps, while `GetOrCreate` and another `Resize` must wait.  The operations below are
these individual steps, so that a list of operations is an arbitrary interleaving of
any number of goroutines.
-/

set_option linter.unusedSectionVars false

namespace Trc.Ring

variable {α : Type} [Inhabited α]

/-- A Go `map[string]V` as an association list. -/
abbrev Assoc (V : Type) := List (String × V)

namespace Assoc
variable {V : Type}

/-- `m[k]` with comma-ok. -/
def find (m : Assoc V) (k : String) : Option V :=
  (m.find? (fun p => p.1 == k)).map Prod.snd

/-- `m[k] = v` -/
def insert : Assoc V → String → V → Assoc V
  | [], k, v => [(k, v)]
  | (k', v') :: m, k, v => if k' = k then (k, v) :: m else (k', v') :: insert m k v

/-- The keys. -/
def keys (m : Assoc V) : List String := m.map Prod.fst

end Assoc

/-- `type RingBuffers[T any]`, ringbuffer.go:187-191.  `resizing` is the part of an
in-progress `Resize` (which holds `rbs.mtx`): the categories not yet resized. -/
structure RBs (α : Type) where
  cap : Int
  bufs : Assoc (RB α)
  resizing : Option (List String) := none

/-- `NewRingBuffers`, ringbuffer.go:195-200. -/
def newRBs (cap : Int) : RBs α := { cap, bufs := [] }

/-- The steps of the methods of `RingBuffers` and of its buffers. -/
inductive MOp (α : Type) where
  /-- `GetOrCreate(category)`: one critical section under `rbs.mtx`. -/
  | getOrCreate (category : String)
  /-- `Add(v)` on the buffer returned by an earlier `GetOrCreate(category)`: one
  critical section under that buffer's lock. -/
  | add (category : String) (v : α)
  /-- `Resize(cap)` takes `rbs.mtx` and sets `rbs.cap`; it is going to visit the
  categories in the given (arbitrary) order. -/
  | beginResize (cap : Int) (order : List String)
  /-- The next iteration of the loop of the `Resize` in progress, or its end. -/
  | resizeNext

/-- `GetOrCreate`, ringbuffer.go:204-215. -/
def RBs.getOrCreate (s : RBs α) (category : String) : Option (RBs α) :=
  match s.bufs.find category with
  | some _ => some s
  | none => do
    let rb ← newRB s.cap
    return { s with bufs := s.bufs.insert category rb }

/-- One step.  A step that has to wait for `rbs.mtx`, and an `add` to a buffer that
was never created (no such pointer exists), changes nothing.  The output is the list
of values handed back as dropped. -/
def RBs.step (s : RBs α) : MOp α → Option (RBs α × List α)
  | .getOrCreate category =>                       -- ringbuffer.go:204-215
    match s.resizing with
    | some _ => some (s, [])
    | none => do
      let s' ← s.getOrCreate category
      return (s', [])
  | .add category v =>                             -- ringbuffer.go:95-126
    match s.bufs.find category with
    | none => some (s, [])
    | some rb => do
      let (rb', d) ← add rb v
      return ({ s with bufs := s.bufs.insert category rb' }, d.toList)
  | .beginResize cap order =>                      -- ringbuffer.go:231-239
    if cap ≤ 0 then some (s, []) else
    match s.resizing with
    | some _ => some (s, [])
    | none =>
      if order.isPerm s.bufs.keys then
        some ({ s with cap, resizing := some order }, [])
      else some (s, [])
  | .resizeNext =>                                 -- ringbuffer.go:241-245
    match s.resizing with
    | none => some (s, [])
    | some [] => some ({ s with resizing := none }, [])
    | some (category :: rest) =>
      match s.bufs.find category with
      | none => some ({ s with resizing := some rest }, [])
      | some rb => do
        let (rb', d) ← resize rb s.cap
        return ({ s with bufs := s.bufs.insert category rb', resizing := some rest }, d)

/-- An interleaving of steps; outputs the dropped values in order. -/
def RBs.run (s : RBs α) : List (MOp α) → Option (RBs α × List α)
  | [] => some (s, [])
  | op :: ops => do
    let (s₁, d) ← s.step op
    let (s₂, ds) ← s₁.run ops
    return (s₂, d ++ ds)

/-- `Resize`, ringbuffer.go:231-246, run without interruption. -/
def RBs.resizeAll (s : RBs α) (cap : Int) (order : List String) : Option (RBs α × List α) :=
  s.run (.beginResize cap order :: List.replicate (order.length + 1) .resizeNext)

/-- `GetOrCreate(category).Add(v)`, as in collector.go:129. -/
def RBs.push (s : RBs α) (category : String) (v : α) : Option (RBs α × List α) :=
  s.run [.getOrCreate category, .add category v]

/-- The buffer of a category, if any. -/
def RBs.buf (s : RBs α) (category : String) : Option (RB α) := s.bufs.find category

/-- What walking a category's buffer shows; a category that was never created has
no buffer and shows nothing. -/
def RBs.contents (s : RBs α) (category : String) : Option (List α) :=
  match s.buf category with
  | none => some []
  | some rb => walkAll rb

namespace Spec

/-! ## A family of bounded lists, one per category -/

/-- Specification of a family of bounded lists: each category, if it exists, is a
"most recent" list; `cap` is the configured size; `keys` are the existing categories;
`resizing` are the categories a resize in progress has yet to reach. -/
structure Family (α : Type) where
  cap : Nat
  cat : String → Option (Recent α)
  keys : List String
  resizing : Option (List String)

def Family.new (cap : Nat) : Family α :=
  { cap, cat := fun _ => none, keys := [], resizing := none }

/-- Replace one category. -/
def Family.upd (f : Family α) (k : String) (r : Recent α) : String → Option (Recent α) :=
  fun k' => if k = k' then some r else f.cat k'

/-- The values of a category, newest first. -/
def Family.items (f : Family α) (k : String) : List α :=
  match f.cat k with
  | none => []
  | some r => r.items

/-- One step of the family, and the values it gives back. -/
def Family.step (f : Family α) : MOp α → Family α × List α
  | .getOrCreate k =>
    match f.resizing, f.cat k with
    | none, none =>
      ({ f with cat := f.upd k { cap := f.cap, items := [] }, keys := f.keys ++ [k] }, [])
    | _, _ => (f, [])
  | .add k v =>
    match f.cat k with
    | none => (f, [])
    | some r => ({ f with cat := f.upd k (r.add v).1 }, (r.add v).2)
  | .beginResize c order =>
    if c ≤ 0 ∨ f.resizing.isSome ∨ ¬ order.isPerm f.keys then (f, [])
    else ({ f with cap := c.toNat, resizing := some order }, [])
  | .resizeNext =>
    match f.resizing with
    | none => (f, [])
    | some [] => ({ f with resizing := none }, [])
    | some (k :: rest) =>
      match f.cat k with
      | none => ({ f with resizing := some rest }, [])
      | some r =>
        ({ f with cat := f.upd k (r.resize f.cap).1, resizing := some rest }, (r.resize f.cap).2)

def Family.run (f : Family α) : List (MOp α) → Family α × List α
  | [] => (f, [])
  | op :: ops => (((f.step op).1.run ops).1, (f.step op).2 ++ ((f.step op).1.run ops).2)

end Spec

end Trc.Ring
