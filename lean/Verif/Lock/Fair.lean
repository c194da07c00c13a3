import Verif.Lock.User

/-!
# Executions that go on forever, with fair mutexes

`Lock/User.lean` says what can happen next.  Here is what happens in the long run.  Of the scheduler it is assumed that a
goroutine which can go on does so at some time; and of `sync.Mutex`, that who waits for a mutex gets it at some time if
it is released again and again.  (The documentation of `sync.Mutex` promises this: a waiter that has waited for more than
a millisecond is handed the mutex before those who come later.)
-/

namespace Trc.Lock

/-- What happens, step after step, while goroutines make calls as `P` says.  Now and then nothing happens. -/
structure Run (P : UCall → Prop) where
  st : Nat → St
  init : st 0 = St.init
  step : ∀ n, st (n + 1) = st n ∨ UStep P (st n) (st (n + 1))

/-- Fairness of the scheduler and of mutexes. -/
structure Run.Fair {P : UCall → Prop} (r : Run P) : Prop where
  /-- nobody who could release a lock never does -/
  unlock : ∀ i n l k, (r.st n).code i = .rel l :: k → ∃ m, n ≤ m ∧ (r.st m).code i ≠ .rel l :: k
  /-- nobody waits forever for a lock that is free again and again -/
  lock : ∀ i n l k, (r.st n).code i = .acq l :: k → (∀ m, n ≤ m → ∃ m', m ≤ m' ∧ (r.st m').owner l = none) →
    ∃ m, n ≤ m ∧ (r.st m).code i ≠ .acq l :: k

end Trc.Lock
