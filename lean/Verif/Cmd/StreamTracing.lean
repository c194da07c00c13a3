import Verif.Cmd.Tracing
import Verif.Web.Using

/-!
# What `trc stream` tells about itself

Like `trc search` (`Verif/Cmd/Tracing.lean`), `trc stream` makes a trace in no collector whose events are written to the logger for `--log trace`
(stream.go:40-41).  For each server a goroutine puts the URI in front of what is logged to the trace (stream.go:115) and calls `StreamClient.Stream` with
that context again and again (stream.go:162-181).  When and why the calls are made and return is modelled in `Verif/Cmd/Stream.lean` and
`Verif/Cmd/Pipeline.lean`, and the loop of `Stream` in `Verif/Web/Using.lean`; here is what it logs, with formats and arguments.
-/

namespace Trc.Cmd

open Trc.Wrap Trc.Web Trc.Web.Using Core

/-- The values of type `any` that are logged: also `trc.StreamStats`. -/
structure StreamValues (A : Type) extends Values A where
  stats : Int × Int × Int → A

/-- A call of `Stream`: the events that it reads, and the error that it returns. -/
structure Call where
  evs : List Ev
  err : Option String

variable {W A : Type} [Arg A]

/-- What the `switch` logs for an event, trace_server.go:498-522. -/
def eventLines (v : StreamValues A) (ev : Ev) : List (LogKind × String × List A) :=
  if ev.type = "init" then [(.lazyTracef, "init: %s", [Arg.str ev.raw])]
  else if ev.type = "trace" then []
  else if ev.type = "stats" then
    match unmarshal (0, 0, 0) decStreamStats ev.json with
    | some st => [(.lazyTracef, "%s", [v.stats st])]
    | none => []
  else [(.lazyTracef, "unknown event type %q", [Arg.str ev.type])]

/-- What is logged when `Stream` returns, trace_server.go:442-446. -/
def endLines (v : StreamValues A) : Option String → List (LogKind × String × List A)
  | none => []
  | some e => [(.errorf, "error: %v", [v.err e])]

/-- What a call logs. -/
def Call.lines (v : StreamValues A) (c : Call) : List (LogKind × String × List A) := c.evs.flatMap (eventLines v) ++ endLines v c.err

/-- The context for a URI, stream.go:115. -/
def uriCtx (ctx : Ctx A) (uri : String) : Ctx A := (prefixed ctx 0 "<%s>" [Arg.str uri]).1

/-- An execution of `Exec`, stream.go:39-93, for servers given by their URIs and the calls of `Stream` that are made for them, one after the other: the trace
is made, then the goroutines log (each line is listed with the number of the server), and when all have ended (stream.go:109) the trace is finished.  Texts
are written in the order in which the lines are listed, and the events are added in any order; otherwise anything may happen meanwhile. -/
structure StreamTraced (v : StreamValues A) (ctx : Ctx A) (addr : Nat) (id : String) (dst : Nat) (servers : List (String × List Call))
    (ex : List (AEnv W × Act A)) : Prop where
  run : ∃ (first mid last : List (AEnv W × Act A)) (lines : List (Nat × Logged A)),
    ex = first ++ mid ++ last ∧
    first.map Prod.snd = (newTrace ctx addr id "stream" dst).2.2 ∧
    (∀ x ∈ lines, x.1 < servers.length) ∧
    (∀ i uri calls, servers[i]? = some (uri, calls) →
      ((lines.filter fun x => decide (x.1 = i)).map fun x => { x.2 with stack := [] }) =
        (calls.flatMap (Call.lines v)).map (ownLine [uri] (uriCtx (newTrace ctx addr id "stream" dst).1 uri) [])) ∧
    (mid.map Prod.snd).filter (writesTo dst) = ((lines.map Prod.snd).flatMap loggedActs).filter (writesTo dst) ∧
    ((mid.map Prod.snd).filter (callsOn addr)).Perm (((lines.map Prod.snd).flatMap loggedActs).filter (callsOn addr)) ∧
    (∀ p ∈ mid, ∀ source category, p.2 ≠ .make addr source category) ∧
    last.map Prod.snd = (newTrace ctx addr id "stream" dst).2.1.finishActs

end Trc.Cmd
