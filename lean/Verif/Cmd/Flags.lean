import Verif.Cmd.Pipeline

/-!
# `trc stream`: the values of its flags (cmd/trc/stream.go:31-43)

The values that `register` sets up and that `Exec` uses without looking at them.
-/

namespace Trc.Cmd

/-- The fields of `streamConfig`, stream.go:19-29, with the defaults of `register`, stream.go:31-37. -/
structure StreamFlags where
  streamEvents : Bool := false
  sendBuf : Int := 100
  recvBuf : Int := 100
  statsInterval : Int := 10 * 1000000000
  retryInterval : Int := 1 * 1000000000
deriving DecidableEq

/-- `make(chan trc.Trace, n)`, stream.go:43: the runtime panics if the size is negative, or more than what it can allocate. -/
def makeChan (limit : Nat) (n : Int) : Option Nat := if n < 0 ∨ n > limit then none else some n.toNat

/-- What can become of `Exec`, stream.go:39-91, for `n` URIs, run with `limit` as the largest channel. -/
inductive Becomes (limit n : Nat) (flags : StreamFlags) : PSt → Prop
  | steps {cap s} : makeChan limit flags.recvBuf = some cap → PReach flags.statsInterval n cap s → Becomes limit n flags s

/-- A panic in a goroutine, which ends the program. -/
def PSt.crashed (n : Nat) (s : PSt) : Prop := ∃ i, i < n ∧ (s.uris i).pc = .crashed

end Trc.Cmd
