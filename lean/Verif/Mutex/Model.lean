/-!
# Goroutines using one object behind one `sync.Mutex`

All methods of `RingBuffer` (ringbuffer.go:32-33, 96-97, 132-133, 157-158), of
`RingBuffers` (206-207, 220-221, 237-238), of `coreTrace` that touch mutable fields
(trace_core.go:154-155 … 303-304) and of `Broker` (broker.go:25-26, 62-63, 82-83, 100-101)
have the shape

    mtx.Lock(); defer mtx.Unlock(); body; return result

Here `body` is any finite list of steps on the shared object and the goroutine's local
variables.  The scheduler may interleave steps of any number of goroutines; the mutex
lets one in at a time, in any order.
-/

namespace Trc.Mutex

/-- An operation: its local variables, its steps under the lock, and what it returns. -/
structure Op (σ L R : Type) where
  init : L
  steps : List (σ → L → σ × L)
  result : L → R

variable {σ L R : Type}

/-- Run steps without interference. -/
def runSteps : List (σ → L → σ × L) → σ → L → σ × L
  | [], s, l => (s, l)
  | f :: fs, s, l => runSteps fs (f s l).1 (f s l).2

/-- Run a whole operation without interference. -/
def Op.run (op : Op σ L R) (s : σ) : σ × R :=
  let p := runSteps op.steps s op.init
  (p.1, op.result p.2)

/-- Where a goroutine is. -/
inductive Thread (σ L R : Type) where
  | idle
  /-- called, not holding the lock yet -/
  | waiting (op : Op σ L R)
  /-- holding the lock; `ticket` numbers the acquisitions -/
  | holding (ticket : Nat) (op : Op σ L R) (l : L) (rest : List (σ → L → σ × L))
  /-- unlocked, not returned yet -/
  | unlocked (ticket : Nat) (r : R)

/-- The system.  `acquired` and `returned` only record what happened. -/
structure St (σ L R : Type) where
  shared : σ
  locked : Bool
  thread : Nat → Thread σ L R
  acquired : List (Op σ L R)
  returned : List (Nat × R)

inductive Action (σ L R : Type) where
  /-- goroutine `i` calls `op` -/
  | call (i : Nat) (op : Op σ L R)
  /-- goroutine `i` runs its next step: lock, one step of the body, unlock, or return -/
  | sched (i : Nat)

def St.set (s : St σ L R) (i : Nat) (t : Thread σ L R) : St σ L R :=
  { s with thread := fun j => if j = i then t else s.thread j }

/-- One step; a goroutine that cannot run (waiting for a taken lock, or idle) does not
change the state. -/
def St.step (s : St σ L R) : Action σ L R → St σ L R
  | .call i op =>
    match s.thread i with
    | .idle => s.set i (.waiting op)
    | _ => s
  | .sched i =>
    match s.thread i with
    | .idle => s
    | .waiting op =>
      if s.locked then s
      else { s.set i (.holding s.acquired.length op op.init op.steps) with
              locked := true, acquired := s.acquired ++ [op] }
    | .holding k op l (f :: fs) =>
      { s.set i (.holding k op (f s.shared l).2 fs) with shared := (f s.shared l).1 }
    | .holding k op l [] => { s.set i (.unlocked k (op.result l)) with locked := false }
    | .unlocked k r => { s.set i .idle with returned := s.returned ++ [(k, r)] }

def St.run (s : St σ L R) : List (Action σ L R) → St σ L R
  | [] => s
  | a :: as => (s.step a).run as

def St.init (s₀ : σ) : St σ L R :=
  { shared := s₀, locked := false, thread := fun _ => .idle, acquired := [], returned := [] }

/-! ## Specification: whole operations one at a time -/

def seqState (s₀ : σ) : List (Op σ L R) → σ
  | [] => s₀
  | op :: ops => seqState (op.run s₀).1 ops

def seqResults (s₀ : σ) : List (Op σ L R) → List R
  | [] => []
  | op :: ops => (op.run s₀).2 :: seqResults (op.run s₀).1 ops

end Trc.Mutex
