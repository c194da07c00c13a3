import Verif.Core.Model

/-!
# Concurrent readers of one `stringer` (trace_core.go:484-504)

`String()` is split at its atomic operations on `z.str`.  Any number of readers, each
reading any number of times, interleave with each other and with changes of the memory
the arguments refer to.  Formatting takes its arguments at one moment (its own step); a
data race inside `fmt.Sprintf` itself is not modelled.
-/

namespace Trc.StringerConc

open Trc.Core

variable {W A : Type} [Sys W A]

/-- Where a reader is in `String()`. -/
inductive PC where
  /-- not in a call -/
  | idle
  /-- after the first `Load` found no valid string (line 486-489), before `Sprintf` -/
  | loaded
  /-- after `Sprintf` (line 492-493), before `CompareAndSwap` -/
  | formatted (v : String)
  /-- after a failed `CompareAndSwap` (line 494), before the second `Load` -/
  | lost
  /-- in the panic of line 501 -/
  | panicked
deriving DecidableEq

/-- The shared stringer, memory, the readers, and what calls of `String` returned so far
(oldest first). -/
structure St (W : Type) where
  str : NullString
  mem : W
  pc : Nat → PC
  results : List (Nat × String)

/-- A step: memory changes, or a reader runs its next atomic operation. -/
inductive Action (W : Type) where
  | mutate (w : W)
  | reader (i : Nat)

def St.setPC (s : St W) (i : Nat) (p : PC) : St W :=
  { s with pc := fun j => if j = i then p else s.pc j }

def St.ret (s : St W) (i : Nat) (v : String) : St W :=
  { s.setPC i .idle with results := s.results ++ [(i, v)] }

/-- One step of `String()` on a stringer with format `f` and arguments `args`. -/
def St.step (f : String) (args : List A) (s : St W) : Action W → St W
  | .mutate w => { s with mem := w }
  | .reader i =>
    match s.pc i with
    | .idle => if s.str.valid then s.ret i s.str.value else s.setPC i .loaded
    | .loaded => s.setPC i (.formatted (Sys.sprintf s.mem f args))
    | .formatted v =>
      if s.str = zeroNullString then { s with str := { valid := true, value := v } }.ret i v
      else s.setPC i .lost
    | .lost => if s.str.valid then s.ret i s.str.value else s.setPC i .panicked
    | .panicked => s

/-- The stringer as `newLazyStringer` / `newNormalStringer` leave it, no reader active. -/
def St.init (z : Stringer A) (w : W) : St W :=
  { str := z.str, mem := w, pc := fun _ => .idle, results := [] }

/-- Executions, from the state `s₀`. -/
inductive Exec (f : String) (args : List A) (s₀ : St W) : List (Action W) → St W → Prop
  | nil : Exec f args s₀ [] s₀
  | snoc {acts s} (a : Action W) : Exec f args s₀ acts s → Exec f args s₀ (acts ++ [a]) (s.step f args a)

end Trc.StringerConc
