import Verif.Wrap.Model

/-!
# What searches log

`Collector.Search` (collector.go:137-195), `SearchClient.Search` (trcweb/trace_server.go:179-222) and
`MultiSearcher.Search` (search_types.go:137-227) log to the trace in the context that they are given.
Here is what they log, for searchers that are put together in any way; the goroutines of a
multi-search are interleaved in any way.  What a searcher finds is given (it is modelled in
`Verif/Search` and `Verif/Web/Server.lean`); of a response only the numbers matter here.  The limit is that
of the normalized request.
-/

namespace Trc.Wrap

open Core

/-- The numbers of a response: `TotalCount`, `MatchCount` and `len(Traces)`. -/
structure Counts where
  total : Int := 0
  matched : Int := 0
  returned : Int := 0
deriving DecidableEq, Repr

/-- What `Search` returns: the response, unless it is nil, and the error, unless it is nil. -/
abbrev Answer := Option Counts × Option String

/-- Searchers, and what they find. -/
inductive Srch where
  /-- A `Collector`. -/
  | collector (source : String) (c : Counts)
  /-- A `SearchClient`, whose search fails with the error, or succeeds. -/
  | client (uri : String) (res : Except String Counts)
  /-- A searcher of another type: it logs some texts, and answers as it likes. -/
  | other (texts : List (LogKind × String)) (answer : Answer)
  /-- A `MultiSearcher`. -/
  | multi (members : List Srch)

/-- A logging call of a search with the trace of the context.  `ids` are those of the members through which
the context came, the first multi-search first. -/
structure Logged (A : Type) where
  ids : List String
  ctx : Ctx A
  kind : LogKind
  format : String
  args : List A
  stack : List StdFrame

/-- The values of type `any` that are logged besides strings. -/
structure Values (A : Type) where
  num : Int → A
  err : String → A

variable {A : Type} [Arg A]

/-- The last line of a successful search, collector.go:183 and trace_server.go:219. -/
def foundLine (v : Values A) (name : String) (c : Counts) : LogKind × String × List A :=
  (.lazyTracef, "%s -> total %d, matched %d, returned %d", [Arg.str name, v.num c.total, v.num c.matched, v.num c.returned])

/-- The line for a failed search, trace_server.go:182-186. -/
def failedLine (v : Values A) (e : String) : LogKind × String × List A := (.errorf, "error: %v", [v.err e])

/-- The lines for what a member returned, search_types.go:171-194. -/
def gatherLines (v : Values A) (id : String) : Answer → List (LogKind × String × List A)
  | (none, none) => [(.tracef, "%s: weird: no result, no error", [Arg.str id])]
  | (none, some e) => [(.tracef, "%s: error: %v", [Arg.str id, v.err e])]
  | (some _, none) => []
  | (some _, some e) => [(.tracef, "%s: weird: valid result (accepting it) with error: %v", [Arg.str id, v.err e])]

/-- The numbers with those of a member, search_types.go:178-194. -/
def Counts.gather (agg : Counts) : Answer → Counts
  | (none, _) => agg
  | (some c, _) => ⟨agg.total + c.total, agg.matched + c.matched, agg.returned + c.returned⟩

/-- search_types.go:203-206 -/
def Counts.limit (agg : Counts) (limit : Int) : Counts :=
  if agg.returned > limit then { agg with returned := limit } else agg

/-- `strconv.Itoa(i+1)`, search_types.go:157. -/
def memberID (i : Nat) : String := toString (i + 1)

/-- The context of a member, search_types.go:154. -/
def memberCtx (ctx : Ctx A) (i : Nat) : Ctx A := (prefixed ctx 0 "<%s>" [Arg.str (memberID i)]).1

/-- Where the goroutine of the caller is: before search_types.go:159, in the loop of lines 169-195 (with the
members received from so far, and the numbers), before line 208, and past it. -/
inductive MPC where
  | scattering
  | gathering (got : List Nat) (agg : Counts)
  | gathered (got : List Nat) (agg : Counts)
  | done (got : List Nat) (agg : Counts)

/-- A multi-search: what each member has still to log (`none`: its tuple is sent), the channel, where the
caller is, and what has been logged. -/
structure MSt (A : Type) where
  left : List (Option (List (Logged A)))
  chan : List Nat := []
  pc : MPC := .scattering
  out : List (Logged A) := []

/-- A line that the multi-search logs itself. -/
def ownLine (ids : List String) (ctx : Ctx A) (stack : List StdFrame) (l : LogKind × String × List A) : Logged A :=
  ⟨ids, ctx, l.1, l.2.1, l.2.2, stack⟩

/-- The steps of `MultiSearcher.Search` on a context; `answers` is what the members return. -/
inductive MStep (v : Values A) (limit : Int) (ids : List String) (ctx : Ctx A) (answers : List Answer) : MSt A → MSt A → Prop
  /-- A member logs. -/
  | say {s i x rest} : s.left[i]? = some (some (x :: rest)) →
    MStep v limit ids ctx answers s { s with left := s.left.set i (some rest), out := s.out ++ [x] }
  /-- A member returns, search_types.go:156. -/
  | send {s i} : s.left[i]? = some (some []) →
    MStep v limit ids ctx answers s { s with left := s.left.set i none, chan := s.chan ++ [i] }
  /-- search_types.go:159 -/
  | scattered {s stack} : s.pc = .scattering →
    MStep v limit ids ctx answers s { s with
      pc := .gathering [] {}
      out := s.out ++ [ownLine ids ctx stack (.tracef, "scattered request count %d", [v.num answers.length])] }
  /-- search_types.go:170-194 -/
  | receive {s got agg i chan a stack} : s.pc = .gathering got agg → got.length < answers.length → s.chan = i :: chan →
    answers[i]? = some a →
    MStep v limit ids ctx answers s { s with
      chan := chan
      pc := .gathering (got ++ [i]) (agg.gather a)
      out := s.out ++ (gatherLines v (memberID i) a).map (ownLine ids ctx stack) }
  /-- search_types.go:197 -/
  | gathered {s got agg stack} : s.pc = .gathering got agg → got.length = answers.length →
    MStep v limit ids ctx answers s { s with
      pc := .gathered got agg
      out := s.out ++ [ownLine ids ctx stack (.tracef, "gathered responses", [])] }
  /-- search_types.go:203-208 -/
  | total {s got agg stack} : s.pc = .gathered got agg →
    MStep v limit ids ctx answers s { s with
      pc := .done got (agg.limit limit)
      out := s.out ++ [ownLine ids ctx stack (.tracef, "total %d, matched %d, returned %d",
        [v.num (agg.limit limit).total, v.num (agg.limit limit).matched, v.num (agg.limit limit).returned])] }

inductive MSteps (v : Values A) (limit : Int) (ids : List String) (ctx : Ctx A) (answers : List Answer) : MSt A → MSt A → Prop
  | refl {s} : MSteps v limit ids ctx answers s s
  | snoc {s s' s''} : MSteps v limit ids ctx answers s s' → MStep v limit ids ctx answers s' s'' → MSteps v limit ids ctx answers s s''

/-- `s.Search(ctx, req)` may log these lines, in this order, and return this answer. -/
inductive Searches (v : Values A) (limit : Int) : List String → Ctx A → Srch → List (Logged A) → Answer → Prop
  | collector {ids ctx source c stack} :
    Searches v limit ids ctx (.collector source c) [ownLine ids ctx stack (foundLine v source c)] (some c, none)
  | found {ids ctx uri c stack} :
    Searches v limit ids ctx (.client uri (.ok c)) [ownLine ids ctx stack (foundLine v uri c)] (some c, none)
  | failed {ids ctx uri e stack} :
    Searches v limit ids ctx (.client uri (.error e)) [ownLine ids ctx stack (failedLine v e)] (none, some e)
  | other {ids ctx texts answer stack} :
    Searches v limit ids ctx (.other texts answer)
      (texts.map fun x => ownLine ids ctx stack (x.1, "%s", [Arg.str x.2])) answer
  | multi {ids ctx} {members : List Srch} {lists : List (List (Logged A))} {answers : List Answer} {s got agg} : lists.length = members.length → answers.length = members.length →
    (∀ (i : Nat) m l a, members[i]? = some m → lists[i]? = some l → answers[i]? = some a →
      Searches v limit (ids ++ [memberID i]) (memberCtx ctx i) m l a) →
    MSteps v limit ids ctx answers { left := lists.map some } s → s.pc = .done got agg →
    Searches v limit ids ctx (.multi members) s.out (some agg, none)

end Trc.Wrap
