import Verif.Ring.Many
import Verif.Core.Model
import Verif.Wrap.Model
import Verif.Wrap.Fmt
import Verif.Search.Search

/-!
# The repository's own tests, run on the model

These are tests of the model, not proofs of anything about the code: each `example` is a test of the
repository, with its inputs, on the model instead of the code, and says that the model gives what the
test wants.  A model that departed from the code where the tests look would fail here.

Not here: tests of uniqueness of IDs and of concurrency (their claims are theorems), the end to end test
(its claim is a theorem for all requests), and the benchmarks.
-/

namespace Trc.RepoTests

/-! ## internal/trcringbuf/ringbuffer_test.go -/

section RingBuffer

open Ring

/-- `top`, ringbuffer_test.go:23-33. -/
def top (rb : RB Int) (k : Int) : Option (List Int) :=
  (walk rb (fun (res : List Int) i => if k ≥ 0 ∧ (res.length : Int) ≥ k then (res, some "done") else (res ++ [i], none)) []).map Prod.fst

/-- A new buffer, after some calls. -/
def buffer (cap : Int) (ops : List (Op Int)) : Option (RB Int) := (exec cap ops).map Prod.fst

/-- What `top` gives for several sizes. -/
def tops (cap : Int) (ops : List (Op Int)) (ks : List Int) : Option (List (List Int)) :=
  (buffer cap ops).bind fun rb => ks.mapM (top rb)

-- TestRingBuffer, ringbuffer_test.go:19-79
example : tops 3 [] [-1, 0, 99] = some [[], [], []] := by decide +kernel
example : tops 3 [.add 1] [-1, 0, 1, 2, 3, 4] = some [[1], [], [1], [1], [1], [1]] := by decide +kernel
example : tops 3 [.add 1, .add 2] [-1, 0, 1, 2, 3, 4] = some [[2, 1], [], [2], [2, 1], [2, 1], [2, 1]] := by decide +kernel
example : tops 3 [.add 1, .add 2, .add 3] [-1, 0, 1, 2, 3, 4] =
    some [[3, 2, 1], [], [3], [3, 2], [3, 2, 1], [3, 2, 1]] := by decide +kernel
example : (exec 3 [.add 1, .add 2, .add 3, .add 4]).map Prod.snd = some [[], [], [], [(1 : Int)]] := by decide +kernel
example : tops 3 [.add 1, .add 2, .add 3, .add 4] [-1, 0, 1, 2, 3, 4] =
    some [[4, 3, 2], [], [4], [4, 3], [4, 3, 2], [4, 3, 2]] := by decide +kernel
example : tops 3 [.add 1, .add 2, .add 3, .add 4, .add 5, .add 6] [-1, 99] = some [[6, 5, 4], [6, 5, 4]] := by decide +kernel

/-- `firstLast`, ringbuffer_test.go:84-95. -/
def firstLast (rb : RB Int) : Option (Int × Int) :=
  (walk rb (fun (s : Int × Int × Int) i => ((s.1 + 1, if s.1 = 0 then i else s.2.1, i), (none : Option Unit))) (0, 0, 0)).map
    fun p => p.1.2

-- TestRingBufferStats, ringbuffer_test.go:81-146
example : (buffer 0 []).bind stats = some (0, 0, 0) := by decide +kernel
example : (buffer 0 [.add 1, .add 2]).bind stats = some (0, 0, 0) ∧ (buffer 0 [.add 1, .add 2]).bind firstLast = some (0, 0) := by
  decide +kernel
example : (buffer 10 [.add 1, .add 2, .add 3]).bind stats = some (3, 1, 3) ∧
    (buffer 10 [.add 1, .add 2, .add 3]).bind firstLast = some (3, 1) := by decide +kernel
example : let rb := buffer 123 ((List.range 909).map fun (i : Nat) => .add ((42 + i : Nat) : Int))
    rb.bind stats = some (950, 828, 123) ∧ rb.bind firstLast = some (950, 828) := by decide +kernel

-- TestRingBufferResize, ringbuffer_test.go:148-187
example : tops 3 [.add 1, .add 2, .add 3] [3] = some [[3, 2, 1]] := by decide +kernel
example : (exec 3 [.add 1, .add 2, .add 3, .resize 2, .resize 4]).map Prod.snd = some [[], [], [], [(1 : Int)], []] := by decide +kernel
example : tops 3 [.add 1, .add 2, .add 3, .resize 2] [3] = some [[3, 2]] := by decide +kernel
example : tops 3 [.add 1, .add 2, .add 3, .resize 2, .resize 4] [3] = some [[3, 2]] := by decide +kernel
example : tops 3 [.add 1, .add 2, .add 3, .resize 2, .resize 4, .add 4, .add 5, .add 6, .add 7] [3, 10] =
    some [[7, 6, 5], [7, 6, 5, 4]] := by decide +kernel

end RingBuffer

/-! ## trace_test.go -/

section CoreTrace

open Core

/-- The arguments of the tests are slices of integers, which formatting reads from memory. -/
structure Slice where
  addr : Nat

/-- `fmt.Sprint` of a slice. -/
def sprintSlice (l : List Nat) : String := "[" ++ String.intercalate " " (l.map toString) ++ "]"

instance : Fmt.Render (Nat → List Nat) Slice :=
  ⟨fun w _ _ a => (sprintSlice (w a.addr)).toList, fun w a => (sprintSlice (w a.addr)).toList⟩

def mem (l : List Nat) : Nat → List Nat := fun _ => l

/-- A call at a time. -/
def at_ (t : Int) (w : List Nat) : Env (Nat → List Nat) := ⟨⟨t, none⟩, mem w⟩

def fresh : CoreTrace Slice := newCoreTrace {} ⟨0, none⟩ "id" "src" "foo" zeroTrace

def after (h : Hist (Nat → List Nat) Slice) : Option (CoreTrace Slice) := fresh.run h

/-- The texts of `Events()`. -/
def texts (h : Hist (Nat → List Nat) Slice) (w : List Nat) : Option (List String) :=
  ((after h).bind fun t => t.events' (at_ 100 w)).map fun l => l.map (·.what)

def log (k : LogKind) (f : String) : Call Slice := .log k f [] []

-- Errored, trace_test.go:31-45
example : (after []).map (·.errored) = some false := by decide +kernel
example : (after [(at_ 1 [], log .errorf "err")]).map (·.errored) = some true := by decide +kernel
example : (after [(at_ 1 [], log .errorf "err"), (at_ 2 [], .finish)]).map (·.errored) = some true := by decide +kernel

/-- Before and after the calls that are to have no effect. -/
def before : Hist (Nat → List Nat) Slice := [(at_ 1 [], log .tracef "first"), (at_ 2 [], log .lazyTracef "second")]
def late : Hist (Nat → List Nat) Slice :=
  [(at_ 4 [], log .tracef "should be no-op"), (at_ 5 [], log .lazyTracef "should be no-op"),
   (at_ 6 [], log .errorf "should not error"), (at_ 7 [], log .lazyErrorf "should not error")]

-- Finish prevents updates, trace_test.go:47-84
example : (after before).map (·.finished) = some false := by decide +kernel
example : (after (before ++ [(at_ 3 [], .finish)])).map (·.finished) = some true := by decide +kernel
example : (after (before ++ [(at_ 3 [], .finish)])).map (·.durationAt ⟨4, none⟩) =
    (after (before ++ [(at_ 3 [], .finish)] ++ late)).map (·.durationAt ⟨8, none⟩) := by decide +kernel
example : (after (before ++ [(at_ 3 [], .finish)] ++ late)).map (·.errored) = some false := by decide +kernel
example : (after before).bind (·.events' (at_ 3 [])) =
    (after (before ++ [(at_ 3 [], .finish)] ++ late)).bind (·.events' (at_ 9 [])) := by decide +kernel

-- Normal events, trace_test.go:86-95, and lazy events, trace_test.go:97-106
example : texts [(at_ 1 [1, 2, 3], .log .tracef "a=%v" [⟨0⟩] []), (at_ 2 [1, 2, 3], .finish)] [0, 2, 3] = some ["a=[1 2 3]"] := by
  decide +kernel
example : texts [(at_ 1 [1, 2, 3], .log .lazyTracef "a=%v" [⟨0⟩] []), (at_ 2 [1, 2, 3], .finish)] [0, 2, 3] = some ["a=[0 2 3]"] := by
  decide +kernel

-- Error event, trace_test.go:108-113
example : (after [(at_ 1 [], log .errorf "this is an error"), (at_ 2 [], .finish)]).map (·.errored) = some true := by decide +kernel

-- optional SetMaxEvents, trace_test.go:115-134: the test allows 32 or 33; it is 32
example : (texts ((at_ 1 [], .setMaxEvents 32) :: (List.range 49).map fun (i : Nat) => (at_ i [], log .tracef "event")) []).map
    List.length = some 32 := by decide +kernel

end CoreTrace

/-! ## stack_test.go -/

section Stacks

open Core

def frame (function : String) (line : Nat) : StdFrame := ⟨function, "/src/trc/stack_test.go", line⟩
def foo (line : Nat) : StdFrame := frame "github.com/peterbourgon/trc_test.testCallStackFoo" line
def bar (line : Nat) : StdFrame := frame "github.com/peterbourgon/trc_test.testCallStackBar" line
def baz (line : Nat) : StdFrame := frame "github.com/peterbourgon/trc_test.testCallStackBaz" line
def ez (function : String) : StdFrame := ⟨"github.com/peterbourgon/trc/eztrc." ++ function, "/src/trc/eztrc/eztrc.go", 100⟩

/-- The frames below. -/
def below : List StdFrame :=
  [frame "github.com/peterbourgon/trc_test.TestEventStacks" 41, ⟨"testing.tRunner", "testing.go", 1595⟩, ⟨"runtime.goexit", "asm.s", 1650⟩]

/-- The calls of the test, each with what `runtime.Callers(3, …)` finds, at most 8 frames. -/
def stackCalls : List (LogKind × String × List StdFrame) :=
  [(.tracef, "foo 1", foo 15 :: below), (.lazyTracef, "bar 1", bar 23 :: foo 16 :: below),
   (.tracef, "baz 1", ez "Tracef" :: baz 30 :: bar 24 :: foo 16 :: below),
   (.lazyTracef, "quux", ez "LazyTracef" :: frame "github.com/peterbourgon/trc_test.testCallStackBaz.func1" 32 :: baz 33 :: bar 24 :: foo 16 :: below),
   (.tracef, "baz 2", ez "Tracef" :: baz 34 :: bar 24 :: foo 16 :: below),
   (.lazyTracef, "bar 2", bar 25 :: foo 16 :: below), (.tracef, "foo 2", foo 17 :: below)]

-- TestEventStacks, stack_test.go:37-91
example : ((after (stackCalls.map (fun c => (at_ 1 [], Call.log c.1 c.2.1 [] c.2.2)) ++ [(at_ 2 [], .finish)])).bind
      fun t => t.events' (at_ 3 [])).map (fun l => l.map fun e => (e.stack.head?, e.what)) =
    some [(some ⟨"github.com/peterbourgon/trc_test.testCallStackFoo", "/src/trc/stack_test.go:15"⟩, "foo 1"),
      (some ⟨"github.com/peterbourgon/trc_test.testCallStackBar", "/src/trc/stack_test.go:23"⟩, "bar 1"),
      (some ⟨"github.com/peterbourgon/trc_test.testCallStackBaz", "/src/trc/stack_test.go:30"⟩, "baz 1"),
      (some ⟨"github.com/peterbourgon/trc_test.testCallStackBaz.func1", "/src/trc/stack_test.go:32"⟩, "quux"),
      (some ⟨"github.com/peterbourgon/trc_test.testCallStackBaz", "/src/trc/stack_test.go:34"⟩, "baz 2"),
      (some ⟨"github.com/peterbourgon/trc_test.testCallStackBar", "/src/trc/stack_test.go:25"⟩, "bar 2"),
      (some ⟨"github.com/peterbourgon/trc_test.testCallStackFoo", "/src/trc/stack_test.go:17"⟩, "foo 2")] := by decide +kernel

end Stacks

/-! ## helpers_test.go and the contexts of trace_test.go -/

section Wrapped

open Core Wrap

instance : Humanize := ⟨fun _ => "123µs"⟩

def aenv (id : String) : AEnv Unit := { now := ⟨1, none⟩, w := (), id, subscribed := false }

/-- Actions on a new world. -/
def world (acts : List (Act String)) : Option (World String) := ({} : World String).run (acts.map fun a => (aenv "id", a))

def eventTexts (acts : List (Act String)) : Option (List String) :=
  (((world acts).bind fun w => w.traces 0).bind fun t => t.events' (⟨⟨2, none⟩, ()⟩ : Env Unit)).map fun l => l.map (·.what)

-- TestRegion, helpers_test.go:11-46: the test looks for parts of these texts
example :
    let n := new .background 0 "id" "source" "category" []
    let r := region n.1 1 2 "region" []
    eventTexts (n.2.2 ++ n.2.1.logActs .tracef "before x1" [] [] ++ r.2.2.1 ++ r.2.1.logActs .tracef "within x2" [] [] ++
      r.2.2.2 "123µs" ++ n.2.1.logActs .tracef "after x3" [] [] ++ n.2.1.finishActs) =
    some ["before x1", "→ region", "· within x2", "← region [123µs]", "after x3"] := by decide +kernel

-- TestPrefix, helpers_test.go:48-82
example :
    let n := new .background 0 "id" "source" "category" []
    let p := prefixed n.1 1 "prefix" []
    eventTexts (n.2.2 ++ n.2.1.logActs .tracef "before x1" [] [] ++ p.2.2 ++ p.2.1.logActs .tracef "one" [] [] ++
      p.2.1.logActs .lazyTracef "two" [] [] ++ p.2.1.logActs .errorf "three" [] [] ++
      n.2.1.logActs .tracef "after x2" [] [] ++ n.2.1.finishActs) =
    some ["before x1", "prefix one", "prefix two", "prefix three", "after x2"] := by decide +kernel

-- TestTraceContext, trace_test.go:176-223: a trace is known here by the address of its core trace
example : (maybeGet (.background : Ctx String)).isNone = true := rfl
example : let n := new (.background : Ctx String) 0 "id" "src" "1" []
    (maybeGet n.1).map Tr.root = some n.2.1.root := rfl
example : let n₀ := new (.background : Ctx String) 0 "id0" "src" "a" []
    let n₁ := new n₀.1 1 "id1" "src" "b" []
    let n₃ := new n₁.1 2 "id2" "src" "c" []
    n₀.2.1.root ≠ n₁.2.1.root ∧ (Wrap.get n₁.1 9).1.root = n₁.2.1.root ∧ (Wrap.get n₃.1 9).1.root = n₃.2.1.root := by decide +kernel

end Wrapped

/-! ## collector_test.go -/

section Collector

/-- A trace that was finished when the search began. -/
def trace (id category : String) (started : Int) (events : List (Bool × String)) : Static :=
  { source := "default", id, category, started := ⟨started, none⟩, duration := 5, finished := true,
    errored := events.any Prod.fst, events := events.map fun e => ⟨⟨started, none⟩, e.2, [], e.1⟩ }

/-- The traces of the collector in the test, after `NewTrace` of each. -/
def collected (l : List Static) (cap : Int) : Option (Ring.RBs Static) :=
  l.foldlM (fun s t => (s.push t.category t).map Prod.fst) (Ring.newRBs cap)

/-- Newest first. -/
def insert (t : Static) : List Static → List Static
  | [] => [t]
  | x :: l => if x.started.wall < t.started.wall then t :: x :: l else x :: insert t l

def hasSub (sub s : String) : Bool := (List.range (s.length + 1)).any fun i => sub.toList.isPrefixOf (s.toList.drop i)

/-- What `regexp.Compile` makes of the queries of the test. -/
def compile : Compile := fun q =>
  if q = "event (1" then .error "missing closing )"
  else if q = "event (1|3)" then .ok fun s => hasSub "event 1" s || hasSub "event 3" s
  else .ok (hasSub q)

def ask (s : Option (Ring.RBs Static)) (req : SearchRequest) : Option SearchResponse :=
  s.bind fun s => search compile (fun l => l.foldr insert []) "default" req (fun t _ => t) (s.bufs.map Prod.snd)

/-- What the tests look at. -/
def told (s : Option (Ring.RBs Static)) (req : SearchRequest) : Option (Int × Int × List String × List String) :=
  (ask s req).map fun r => (r.totalCount, r.matchCount, r.traces.map (·.id), r.problems)

def scenario : Option (Ring.RBs Static) := collected
  [trace "id1" "category-a" 1 [(false, "event 1 (foo)"), (false, "event 2 (bar)")],
   trace "id2" "category-a" 2 [(true, "event 3 (baz)")],
   trace "id3" "category-b" 3 [(false, "event 4 (foo)"), (false, "event 5 (bar)"), (false, "event 6 (baz)")]] 1000

-- TestSearchScenarios, collector_test.go:10-92
example : told scenario {} = some (3, 3, ["id3", "id2", "id1"], []) := by decide +kernel
example : told scenario { filter := { isErrored := true } } = some (3, 1, ["id2"], []) := by decide +kernel
example : told scenario { filter := { query := "foo" } } = some (3, 2, ["id3", "id1"], []) := by decide +kernel
example : told scenario { filter := { query := "event (1|3)" } } = some (3, 2, ["id2", "id1"], []) := by decide +kernel
example : (told scenario { filter := { query := "event (1" } }).map (fun r => r.2.2.2.length) = some 1 := by decide +kernel
example : (({ filter := { query := "event (1|3)" } } : SearchRequest).normalize compile).map (fun p => p.1.filter.query) =
    some "event (1|3)" := by decide +kernel
example : (({ filter := { query := "event (1" } } : SearchRequest).normalize compile).map (fun p => p.1.filter.query) = some "" := by
  decide +kernel

def hundred : Option (Ring.RBs Static) :=
  collected ((List.range 100).map fun (i : Nat) => trace (toString i) "my category" i [(false, "some event")]) 1000

def fewer : Option (Ring.RBs Static) := hundred.bind fun s => (s.resizeAll 33 ["my category"]).map Prod.fst

/-- The counts, and the first and the last trace. -/
def ends (s : Option (Ring.RBs Static)) (req : SearchRequest) : Option (Int × Nat × Option String × Option String) :=
  (told s req).map fun r => (r.1, r.2.2.1.length, r.2.2.1.head?, r.2.2.1.getLast?)

-- TestCollectorResize, collector_test.go:94-135
example : ends hundred { limit := 100 } = some (100, 100, some "99", some "0") := by decide +kernel
example : ends fewer { limit := 100 } = some (33, 33, some "99", some "67") := by decide +kernel

end Collector

/-! ## search_stats_test.go -/

section Stats

-- TestSearchStatsMerge, search_stats_test.go:11-57, with two collectors and four traces
example :
    let s₁ := (ask (collected [trace "a" "foo" 1 [], trace "b" "bar" 2 []] 1000) {}).map (·.stats)
    let s₂ := (ask (collected [trace "c" "foo" 1 [], trace "d" "quux" 2 []] 1000) {}).map (·.stats)
    (do let s₁ ← s₁
        let s₂ ← s₂
        let m ← (newSearchStats []).merge s₁ s₁.categories
        let m ← m.merge s₂ s₂.categories
        let o ← m.overall (m.categories.map Prod.snd)
        return (o.activeCount, o.erroredCount, o.bucketCounts.length, o.totalCount)) =
    some (0, 0, 9, 4) := by decide +kernel

-- TestSearchStatsIsZero, search_stats_test.go:59-81
example : ({ bucketing := [], categories := [] } : SearchStats).isZero = true := by decide +kernel
example : ({ bucketing := [], categories := [("foo", newCategoryStats "foo" defaultBucketing)] } : SearchStats).isZero = true := by
  decide +kernel
example : ({ bucketing := defaultBucketing, categories := [] } : SearchStats).isZero = false := by decide +kernel

end Stats

end Trc.RepoTests
