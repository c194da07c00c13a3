import Verif.Cmd.Main
import Verif.Wrap.Searching
import Verif.Wrap.Easy

/-!
# What `trc search` tells about itself

The commands of `trc` trace themselves: `newTrace` (trc.go:58-63) makes a trace in no collector whose events are written
to the logger for `--log trace`.  The search (search.go:48-97) logs to it by way of the context, as modelled in
`Verif/Wrap/Searching.lean`.  What the other loggers write to standard error, in between, is left out.
-/

namespace Trc.Cmd

open Trc.Wrap

variable {W A : Type} [Arg A]

/-- `newTrace`, trc.go:58-63, for the address and the ID that the trace gets; `dst` is the log writer (util.go:20-25). -/
def newTrace (ctx : Ctx A) (addr : Nat) (id category : String) (dst : Nat) : Ctx A × Tr A × List (Act A) :=
  let p := new ctx addr id "trc" category []
  let q := logDecorator dst "trc" category id p.2.1
  let r := put p.1 q.1
  (r.1, r.2, p.2.2 ++ q.2)

/-- What the logger for traces puts on standard error, main.go:106-121, of the texts that are written to its log writer, which prints each of them
(util.go:22-25): nothing if the level says so.  With `log.Lmsgprefix` alone, the header is the prefix. -/
def traceOutput (level : String) (texts : List String) : Option String :=
  match logging level with
  | none => none
  | some (_, _, on) => some (if on then loggerOutput (texts.map fun t => ("[TRACE] ", t)) else "")

/-- A text for the destination. -/
def writesTo (dst : Nat) : Act A → Bool
  | .write d _ _ => decide (d = dst)
  | .writeDone d _ _ => decide (d = dst)
  | _ => false

/-- A call on the core trace that does not just read it. -/
def callsOn (addr : Nat) : Act A → Bool
  | .call _ (.read _ _) => false
  | .call b _ => decide (b = addr)
  | _ => false

/-- The actions for a line that is logged with the trace of its context. -/
def loggedActs (x : Logged A) : List (Act A) :=
  (get x.ctx 0).2 ++ (get x.ctx 0).1.logActs x.kind x.format x.args x.stack

/-- An execution of `Exec`, search.go:48-97: the trace is made, then the servers are searched, and the trace is finished when the function
returns.  The servers are given by their URIs, with what their clients return.  The clients log concurrently: their texts are written in the order
in which the lines are listed, and the events are added in any order; otherwise anything may happen meanwhile. -/
structure SearchTraced (v : Values A) (limit : Int) (ctx : Ctx A) (addr : Nat) (id : String) (dst : Nat) (servers : List (String × Except String Counts))
    (ex : List (AEnv W × Act A)) : Prop where
  run : ∃ first mid last lines answer,
    ex = first ++ mid ++ last ∧
    first.map Prod.snd = (newTrace ctx addr id "search" dst).2.2 ∧
    Searches v limit [] (newTrace ctx addr id "search" dst).1 (.multi (servers.map fun s => .client s.1 s.2)) lines answer ∧
    (mid.map Prod.snd).filter (writesTo dst) = (lines.flatMap loggedActs).filter (writesTo dst) ∧
    ((mid.map Prod.snd).filter (callsOn addr)).Perm ((lines.flatMap loggedActs).filter (callsOn addr)) ∧
    (∀ p ∈ mid, ∀ source category, p.2 ≠ .make addr source category) ∧
    last.map Prod.snd = (newTrace ctx addr id "search" dst).2.1.finishActs

end Trc.Cmd
