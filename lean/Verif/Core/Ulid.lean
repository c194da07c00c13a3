import Verif.Time

/-!
# Trace IDs (trace_core.go:66, 110-116, 137-139)

`newCoreTrace` reads the clock and then asks for an ID, `ulid.MustNew(ulid.Timestamp(now), traceIDEntropy)`; the two are
separate steps, and other goroutines can do the same in between.  The package github.com/oklog/ulid/v2, version 2.1.0, is not
in the repository: the functions below follow its documentation.  An ID is a number of 128 bits, the
milliseconds in the upper 48 of them and the entropy in the lower 80; it is used as a string of 26
characters in Crockford's base 32.  `DefaultEntropy` is a monotonic reader behind a lock: asked for the same millisecond as the last
time it adds a random number from 1 to 2³² − 1 to the last entropy, otherwise it reads new random bits.  What is random
is arbitrary here.
-/

namespace Trc.Ulid

open Trc

/-- 1970 in nanoseconds since the zero time. -/
def unixEpoch : Int := 62135596800 * 1000000000

/-- `ulid.Timestamp`: the milliseconds since 1970, as a uint64. -/
def timestamp (t : Time) : Nat := (((t.wall - unixEpoch) / 1000000) % 2 ^ 64).toNat

/-- `ulid.MaxTime`. -/
def maxTime : Nat := 2 ^ 48 - 1

/-- The monotonic reader: the millisecond and the entropy of the last ID. -/
structure Reader where
  ms : Nat := 0
  entropy : Nat := 0
deriving DecidableEq

/-- What the random source gives when it is asked: 80 new bits, and the increment. -/
structure Random where
  bits : Nat
  inc : Nat

/-- The random source is used as it is meant to be. -/
structure Random.Valid (r : Random) : Prop where
  bits : r.bits < 2 ^ 80
  inc : 0 < r.inc ∧ r.inc < 2 ^ 32

/-- `MonotonicRead`; `none` is `ErrMonotonicOverflow`. -/
def Reader.read (m : Reader) (ms : Nat) (r : Random) : Option (Reader × Nat) :=
  if m.entropy ≠ 0 ∧ m.ms = ms then
    if m.entropy + r.inc < 2 ^ 80 then some ({ m with entropy := m.entropy + r.inc }, m.entropy + r.inc) else none
  else some ({ ms := ms, entropy := r.bits }, r.bits)

/-- `ulid.New` with the reader: the ID as a number.  `none` are its errors, with which `MustNew` panics. -/
def Reader.new (m : Reader) (ms : Nat) (r : Random) : Option (Reader × Nat) :=
  if maxTime < ms then none
  else (m.read ms r).map fun p => (p.1, ms * 2 ^ 80 + p.2)

/-- `ulid.Encoding`. -/
def alphabet : List Char := "0123456789ABCDEFGHJKMNPQRSTVWXYZ".toList

/-- The digits of a number in base 32, the first one the most significant. -/
def digits : Nat → Nat → List Nat
  | 0, _ => []
  | k + 1, n => n / 32 ^ k :: digits k (n % 32 ^ k)

/-- `ULID.String`. -/
def str (n : Nat) : String := String.ofList ((digits 26 n).map fun d => alphabet.getD d '0')

/-- The state: the reader, the times that goroutines have read but not used yet, and the traces created, oldest
first: their start times and IDs. -/
structure St where
  reader : Reader := {}
  now : Nat → Option Time := fun _ => none
  made : List (Time × String) := []

/-- A goroutine reads the clock, trace_core.go:114, or gets the ID, trace_core.go:116. -/
inductive Ev
  | clock (g : Nat) (t : Time)
  | id (g : Nat) (r : Random)

/-- `none` is a panic. -/
def step (s : St) : Ev → Option St
  | .clock g t => some { s with now := fun g' => if g' = g then some t else s.now g' }
  | .id g r =>
    match s.now g with
    | none => some s
    | some t =>
      (s.reader.new (timestamp t) r).map fun p =>
        { reader := p.1, now := fun g' => if g' = g then none else s.now g', made := s.made ++ [(t, str p.2)] }

def run (s : St) : List Ev → Option St
  | [] => some s
  | e :: es => (step s e).bind fun s' => run s' es

end Trc.Ulid
