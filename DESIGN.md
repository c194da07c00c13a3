# Design: a Lean 4 model of peterbourgon/trc

## Approach

The Go code in `/repo` was read as text and modelled function by function in
Lean 4 under `lean/Verif/`. Nothing was extracted from it or run. Every
definition cites the file and lines it models.

* Go `int` is `Int` (or `Nat` where the code keeps it non-negative); overflow of
  counters is not modelled. `time.Duration` is `Int` nanoseconds; where 64 bits
  matter (C73, C80) they are a hypothesis.
* `time.Time` is a wall reading plus an optional monotonic reading; comparison
  and subtraction follow Go's rule (monotonic if both have one, else wall).
  The saturation of `Time.Sub` at 292 years is not modelled.
* A run-time panic (index out of range, explicit `panic`, nil dereference) is an
  explicit value (`none` in an `Option` result, or a state of its own), never a
  default value. "Does not panic" is a theorem.
* Goroutines are state machines over explicit steps; a schedule is an arbitrary
  list of steps. A step is a section under one lock, an atomic operation, or a
  channel operation.
* Go slices are lists, except where aliasing matters: there memory has addresses
  (`Verif/Heap`, `Verif/Search/StatsHeap.lean`, `Verif/Wrap/Args.lean`).
* Map iteration order, `select` choice, `sync.Pool` behaviour, channel receivers,
  clock readings, the network and unstable sorting are arbitrary inputs which the
  theorems quantify over.
* Code of others (`regexp`, `runtime.Callers`, `mime.ParseMediaType`, searchers,
  HTTP handlers, eventsource) is a parameter, or modelled after its source or
  standard where a property depends on it (`fmt.Sprintf`, `time.ParseDuration`,
  `net/url`, `html/template`'s URL escaping, browsers). What is assumed is
  stated where it is used and collected below.

Layout: model files per area (`Verif/Ring`, `Core`, `Heap`, `Search`, `Broker`,
`Wrap`, `Web`, `Cmd`, ...), with lemmas beside them, and `Verif/Props/*.lean` with the property
theorems `Cnn_...`. Specifications are separate definitions in the Props
files (or `Spec.lean`), written in terms of calls and results and not with the
model's own helper functions. Each theorem has an `example` or witness nearby that its hypotheses can be
met in a case that is not trivial.

`Verif/RepoTests.lean` runs the repository's own deterministic tests (ring buffer, traces, contexts,
stacks, regions and prefixes, searches, resizing, statistics) on the model. These are tests of the
model against what the authors of the code expect of it, and no theorem depends on them.

When a property turned out to be false of the code, its negation is proved with a
concrete run of the model as witness (`..._violated`) and the strongest true part
that was found as `..._partial`; `MANIFEST.json` then says `partial` and the note
says what is missing. The statement in `properties.jsonl` stays the full one.

Proof methods: refinement to an abstract machine and induction over histories
(ring buffer, core trace), ownership invariants over memory (pools),
invariants over all schedules of transition systems (mutex, stringers, broker,
stream handler, stream client, `trc stream`), a rank argument (locks), permutation
and order arguments (search, statistics), and round trips of parsers and printers
(URLs, durations, JSON).

## Trusted base

* Lean 4.33.0's kernel.
* Axioms: of the 637 theorems in the manifest, 518 depend on `propext`, `Classical.choice` and `Quot.sound`, 77 on `propext` and
  `Quot.sound`, 36 on `propext`, and 6 on none. There are no
  axioms of our own, no `sorry`, no `native_decide`, no `bv_decide`.
* Mathlib: single modules about lists, rational numbers, order and the finite
  (`Mathlib.Data.List.*`, `Mathlib.Data.Rat.*`, `Mathlib.Algebra.Order.Field.*`,
  `Mathlib.Order.WellFounded`, `Mathlib.Data.Fintype.Pigeonhole`) and some tactics, in
  the files that import them; most files use Lean's core library only. Everything taken from it is
  checked by the kernel.
* The reading of the Go code, and of the standard library where it is modelled.

## What is modelled, and how faithfully

| code | model | left out or simplified |
|------|-------|------------------------|
| `internal/trcringbuf/ringbuffer.go` | `Ring/Model.lean`, `Ring/Many.lean`, `Search/During.lean` | nothing |
| `trace_core.go` | `Core/Model.lean` (values), `Heap/Model.lean` (pools and memory), `Stringer/Model.lean` (atomic operations), `Core/Ulid.lean` (IDs) | the package ulid is not in the repository and modelled after its documentation; formatting takes its arguments at one moment |
| `trace.go`, `trace_static.go` | `Search/Static.lean`, `Wrap/Stream.lean`, `Wrap/Own.lean`, `Web/Seconds.lean` | rounding of `duration_sec` is a parameter |
| `collector.go` | `Search/Search.lean`, `Search/During.lean`, `Wrap/Model.lean` (`NewTrace`), `Wrap/Config.lean`, `Heap/Model.lean` | |
| `broker.go` | `Broker/Model.lean` | counters are natural numbers |
| `decorators.go`, `helpers.go` | `Wrap/Model.lean`, `Wrap/Args.lean`, `Wrap/Fmt.lean`, `Wrap/Where.lean` | formatting of log headers |
| `eztrc/easy.go` | `Wrap/Easy.lean` | `Collector`, `Handler`, `Middleware` (they return those of `trc` and `trcweb`) |
| `filter.go` | `Search/Filter.lean` | regular expressions are parameters |
| `search_types.go` | `Search/Request.lean`, `Search/Multi.lean`, `Search/Shared.lean`, `Search/Gather.lean`, `Web/RequestText.lean`, `Wrap/Searching.lean` | the response's duration |
| `search_stats.go` | `Search/Stats.lean`, `Search/StatsHeap.lean`, `Search/Rates.lean` | floats are rationals |
| locks of all of the above | `Mutex/Model.lean`, `Lock/Model.lean`, `Lock/User.lean` (with the methods of logged values), `Lock/Fair.lean` (infinite executions) | custom traces, decorators and writers |
| memory accesses of all of the above | `Race/Model.lean` (happens-before: `Race/Spec.lean`) | user code; fields are grouped by the lock that guards them |
| `internal/trcutil/humanize.go` | `Util/Humanize.lean`, `Util/HumanizeString.lean`, `Util/Numbers.lean` | |
| `trcweb/util.go` | `Web/Util.lean`, `Web/Query.lean`, `Web/Duration.lean` | |
| `trcweb/middleware.go` | `Web/Middleware.lean`, `Web/MiddlewareActs.lean`, `Web/Behind.lean` | HTTP/2, handlers with several goroutines |
| `trcweb/trace_server.go` | `Web/Server.lean`, `Web/StreamHandler.lean`, `Web/StreamRequest.lean`, `Web/StreamLines.lean`, `Web/ServedStream.lean`, `Web/ServerFields.lean`, `Web/Client.lean`, `Web/StreamClient.lean`, `Web/Using.lean`, `Web/SSEText.lean`, `Web/JSON.lean`, `Web/Feedback.lean`, `Wrap/Handling.lean`, `Web/ServedSearch.lean`, `Wrap/Searching.lean` | the eventsource package and net/http themselves |
| `trcweb/render.go`, `trcweb/assets/traces.html` | `Wrap/Handling.lean`, `Web/Render.lean`, `Web/Page.lean`, `Web/EventText.lean`, `Web/Marks.lean`, `Web/Form.lean`, `Web/Highlight.lean`, `Web/Assets.lean`, `Web/Age.lean`, `Web/Shown.lean`, `Web/Timeline.lean`, `Web/Use.lean`, `Web/DebugInfo.lean`, `Web/Clock.lean`, `Web/SourceLink.lean`, `Web/Topline.lean` | other styling |
| `cmd/trc/search.go`, `stream.go`, `main.go`, `trc.go`, `util.go` | `Cmd/Uris.lean`, `Cmd/Search.lean`, `Cmd/Stream.lean`, `Cmd/Watching.lean`, `Cmd/SearchLog.lean`, `Cmd/StreamLog.lean`, `Cmd/StreamTracing.lean`, `Cmd/Pipeline.lean`, `Cmd/Main.lean`, `Cmd/Output.lean`, `Cmd/Flags.lean`, `Cmd/Tracing.lean`, `Web/JSONText.lean` | flag parsing |

Not modelled at all: tests and `_examples`; the parsing of flags (package ff) and the signal handling in `cmd/trc/main.go`; the parts of
`traces.html` that are styling; integer overflow of counters;
data races on words (torn reads); the garbage collector, except that it may empty pools.

## Assumptions by area

* **Heap (C17, C19-C23, C112, C114, C122, C130).** Any number of collectors share the pools; `NewCollector` and the
  `SetCategorySize` before its first use are one step. Calls made "on an object" include those through stale
  pointers. Clients do not call `Free` themselves. A custom `NewTraceFunc` does
  not return the same trace twice.
* **Other types of traces (C131).** Only memory of events: a trace's other getters are constant, and the program does not
  log to such a trace while it is looked at.
* **Wrappers (C24, C54-C60, C76-C78, C86, C87).** Arguments are values, except in `Wrap/Args.lean`; a
  `Publish` is one action, except in `Wrap/Stream.lean`; addresses are not
  reused (that is `Verif/Heap`). `Sprintf` without `*` widths and `[n]` indexes.
* **IDs (C99).** What is known of the package ulid: `Core/Ulid.lean`.
* **URIs (C100).** `url.ParseRequestURI` and `URL.String` as far as `Cmd/Uris.lean` models them (which parts of a URL are
  well-formed is a parameter), and that a `UniqueList` flag leaves out repeated values.
* **Broker (C49-C53).** Only the broker sends on a subscribed channel and nobody closes it.
* **Search (C25-C48, C88).** Searchers given to a multi-searcher change the shared
  request only by normalizing it again, and return. C88: each trace is added once.
* **Rates, percentages (C79, C91, C115).** Floating point numbers are exact rationals.
* **Numbers (C101).** A float64 is a rational; of division by 1000 that it is monotonic and has a relative error of at
  most 2⁻⁵²; sizes below 2⁵³ bytes.
* **Highlighting (C102).** What of CSS selectors and of html/template's filter for CSS values is in `Web/Highlight.lean`; the
  two categories compared do not have the same SHA-256.
* **Page (C104).** What of html/template is in `Web/Assets.lean`: the set of templates includes the root, "in no
  particular order"; a definition replaces one of the same name unless it is empty. Parsing and executing are parameters.
* **Ages (C106).** `Date.parse` reads what `time.RFC3339` writes; JavaScript's numbers are exact integers here.
* **Fields of a server (C107).** Each statement of `initialize` is one step; nil interfaces and nil pointers in them are
  distinguished. That a method of a nil collector panics is taken from `collector.go`.
* **Middleware, end to end (C110).** The handler is a function from the context it is given to a sequence of steps, with the writer or
  arbitrary actions on traces; the time it took is a parameter. A trace is searched while the request is served or after that.
* **Exit status (C109).** What the ff package makes of the arguments, and that it gives `ErrNoExec` for a command without
  `Exec`, are parameters.
* **Web (C61-C72).** Strings are valid UTF-8. The floating point product in
  `ParseDuration` is exact where all values are integers below 2^53. Go's limit on the number of query parameters is not
  modelled; nil and empty slices are not distinguished.
* **Middleware (C65, C66).** net/http's writer without hijacking, broken
  connections or HTTP/2; a handler is a finite list of calls with an outcome.
* **Streams (C69, C81-C83, C127).** The eventsource package is external: it returns
  `ErrClosed` only after `Close` or a 204, and delivers events in order. C127 models the
  text that its encoder writes and reads it as the HTML standard says; that its own
  decoder agrees with the standard is trusted. Liveness
  is stated as "from every reachable state there is a continuation, by the
  goroutine's own steps, that ends".
* **JSON (C70, C71, C85, C126).** C70, C71 and C85 model what struct tags do, on JSON
  values. C126 models the text that encoding/json writes and proves that a reader written
  from RFC 8259 and RFC 3339 gets the same values; that encoding/json's own reader agrees
  with these is trusted. Times keep the wall reading (years 0-9999). Failures of
  `Marshal` are not modelled; template success (but see C111) and the size of the text are
  parameters.
* **Locks (C75, C148, C149).** A method is a list of lock operations, for all data-dependent
  choices; custom traces are excluded. C75 excludes user code called while formatting; C148 includes it, as long as it
  waits for nothing but locks. C149 assumes fair mutexes and a fair scheduler.
* **Page (C89-C93).** `processURLOnto`, the browser's cutting at `#`, form
  submission and a simplified HTML tokenizer are written after the Go library and
  the HTML standard; attribute escaping cancels with the browser's parsing. The JavaScript regexp is an arbitrary finder.

## Disagreements between the code and what a user would expect

These came out of the proofs; each has a `_violated` witness unless noted.

* A client that keeps a pointer to a dropped trace sees, and writes to, another
  trace after the object was recycled (C21); search results share stack memory with
  pooled events (C22).
* `MatchCount` counts at most the limit per category (C28); a search may miss
  newer traces if a category was not filled in start order (C26); a search is not
  a snapshot of one instant (C88, `C88_not_an_instant`), nor is each trace in it (C77).
* `Filter.String` prints the sources for the IDs (C34). A filter that was used keeps
  its compiled query when `Query` is changed (hypothesis `Fresh` in C31, C71).
* Negative buckets: normalizing twice differs from once (C36), which makes a
  multi-search panic (C47) and a remote search differ (C71).
* `CategoryStats.Merge` leaves out `EventCount` (C40, C41, C43), counts trace rates
  twice (C79), and shares bucket counts with its argument (C42).
* Newest-first has cycles when local and remote times mix (C48).
* The event/stringer lost counters are never incremented (note at C23).
* Publishing: two goroutines logging at once can publish one event twice and the
  other never (C55); a trace finished while being read gives a message that says
  finished with one event (C54); calls after `Finish` publish it again (C87); a
  custom trace without events panics the publisher (C78).
* `Prefix` shares the caller's argument slice (C57); region names are used as formats
  (C58); wrappers take up stack frames (C59); `SetMaxEvents` never works on
  traces from a collector (C76); `LogDecorator` puts ID and newline into the format (C86).
* HTTP: only the first `Accept` line is read (C64); the middleware's trace can be
  finished or filled up by the handler (C65); status and size differ from what the
  client got for late or informational statuses, HEAD, and panics (C66).
* The search handler panics when the searcher fails or gives no statistics, and
  JSON answers lose its problems (C70). Requests above 1 MB are cut (C71).
* Host names that begin with "http" are taken to have a scheme (C72). A stream
  interval of zero makes the handler hang (`C69_zero_interval_hangs`).
* `StreamClient.Stream` leaves a connection and a goroutine behind when it returns an
  error (C82). `trc stream` ignores `--active`, and `--finished` with `--events` (C84).
* Page: links are built from unescaped parts (C89); numbers count other traces than
  their links find (C90); percentages are 0/0 for an empty collector (C91); marking
  the query's matches turns event text into markup (C92); the form forgets IDs,
  buckets and sources (C93).
* An event argument whose `String` method uses the same trace deadlocks
  (`C75_reentrant_argument_deadlocks`).
* Data races: `Finish` publishing a trace that is being recycled, search results whose
  events are recycled, prefixes with spare argument capacity (C96); searchers of a
  multi-search with a negative bucket (C97).
* IDs are not strictly in creation order within a millisecond, are distinct only as far as
  80 random bits are, and `New` can panic when their increments overflow (C99).
* `trc -u foo -u http://foo` asks the server twice and counts its traces twice; hosts whose
  name begins with `http` need a scheme, and a scheme in capitals is taken for a host (C100).
* `HumanizeFloat` exceeds its four characters for 9950 to 10000 ("10.0K") and 999500 to
  1000000 ("1000K"); its comments say that it truncates, but it rounds (C101).
* On a page with `min=1.5s`, or any minimum written with a fraction, nothing in the summary is highlighted (C102).
* A program that runs in a directory which has a directory named `root`, as `/` has, answers every request for
  a page with status 500, and one that runs in a directory with a file `traces.html` or `traces.css` makes its
  pages from it, without `TRC_ASSETS_DIR` being set (C104).
* A collector keeps the slice of decorators it is given: assigning to an element of it later changes how traces are
  decorated (C105).
* The page shows a trace as up to a second older than it is, since it gets the start in whole seconds, though it
  shows ages below a second in milliseconds (C106).
* A `TraceServer` literal with `Searcher` or `Streamer` unset, as in the complex example, has a data race between its
  first requests. One that has a `Searcher` only ends the program on a request that accepts `text/event-stream` (C107).
* A multi-search waits for searchers that do not return even if its context is cancelled, and a panic of one of them
  ends the program (C108, `C108_one_hangs`, `C108_one_panics`).
* `trc search` exits with status 0 if no server answers, and `trc -u foo serach` prints help and exits with status 0 (C109).
* `?b=-1s` in the URL of a server that searches other servers makes its handler panic: every normalization of a request
  with a negative bucket adds a bucket, so the statistics do not have equally many (C111, `C111_negative_violated`).
* Categories are never removed. With the `categorize` function of README.md, each path that a client makes up is kept
  forever, with a trace, whatever `SetCategorySize` is called with (C112, `C112_unbounded_violated`).
* Behind the middleware, handlers cannot take over connections or set deadlines, and take writers that cannot flush for
  ones that can: the interceptor has `Flush`, but no other optional method of a writer and no `Unwrap` (C113).
* The text of a lazy event depends on whether somebody searched in between, if its arguments change after the call: the
  first search fixes it (C114, `C114_lazy_text`). Nothing else that is traced depends on who looks.
* The notice that events of a trace were left out is shown at the time of the search: a trace of a second with more than
  1000 events, looked at an hour later, is shown with an event at 360000 % of its duration, and its end an hour before
  (C115, `C115_truncated_violated`). So is an event that is logged while a search copies an active trace.
* The log decorator formats the arguments of `LazyTracef` and `LazyErrorf` at once: laziness is lost, and an argument that
  changes before the trace is first read makes the log and the trace differ (C116, `C116_lazy_violated`). Lines of
  concurrent calls may be in another order than the events (`C116_order_violated`).
* The page for a query looks for it in the markup of an event, where commas and quotes are followed by `<wbr>`: the text
  `a, b` is found, but never marked. Nor are matches in the package path of a function or in frames that are not shown
  (C117). On such a page any tag in an event before a match becomes part of the page (C92, `C92_any_tag_violated`).
* A function that makes a trace and finishes it when it returns ends the trace of its caller, if that has one: what
  the caller logs afterwards is lost, and its trace is shown as finished (C119). Regions do not have this problem.
* The debug information of the page (C122): REUSE is what was freed, not what was reused, NaN before the first request,
  and can exceed 100; LOST of events and stringers is never counted, though they are lost with their trace.
* The times beside the events are without a date and from the wall clock: over midnight, or if the clock is set, they
  contradict the durations beside them, and the time of the last row is not that of the last event (C124).
* `SourceLinkVSCode` does not escape the path: a file in a directory such as `c#` is not found (C125).
* `trc search` prints `"traces":null` if nothing was found, as the slice is nil; a consumer that expects an array fails
  (C126).
* `TrimStacks` and `NewStreamTrace` write to the slice that `Events` returns. For a static trace, or a type of the program's
  that returns its own slice, one search with stack depth -1, or one publication, takes the stacks from the trace (C131).
* `trc stream --stats-interval 0` and `--recv-buffer -1` panic (C132).
* A region's name is used as a format: the arrows are wrong for every name with a percent sign, even a doubled one, and
  right for every other name (C58).
* A request whose trace was used for a multi-search is marked as errored if one of several clients failed, though the search as a whole has succeeded (C133).
* The field `HTTPClient` of a `StreamClient`, "used to make the stream request", is never used: a client with certificates, credentials, a proxy or
  timeouts of its own works for searches and not for streams (C134).
* `handleStream` logs an error for each event that it can't write and goes on reading, and skips only the events of its own request. With a
  `WriteTimeout` (or any connection that fails for writes) and two streams that watch each other's requests, as those of the `/traces` page of one
  server do, one event makes them log to each other without end (C136).
* C138: the printed form of a search request, which is what the trace of the request to the server tells about the search, prints the sources of the filter where its IDs should be (filter.go:45), so IDs are never told, and does not escape quotes.
* A request for a stream whose JSON filter is too large, malformed or mistyped is not refused, as a search with such a body is: the
  handler logs the error and streams with what could be decoded of the filter, possibly all traces (trace_server.go:238-240, C141).
  The same goes for a `min` in the URL that is no duration (util.go:53).
* A request for a stream that is refused because of its query (trace_server.go:245-249) leaves nothing in its trace, which is not
  marked as errored either; a search that cannot be decoded does both (C140, C142).
* With `--stats-interval` below half a second `trc stream --log debug` can report a server silent that is idle and well: the client
  asks the server for statistics every second at least (trace_server.go:416-419), the reporter goes by the value of the flag
  (stream.go:128, 138). And a server can be told of after `stopped` (stream.go:146-151): the deferred line comes before the wait (C143).
* `trc search --log debug` tells the limit and the query of the command line, not those that are asked for: `-n 1000` is told as
  `limit: 1000` and asks for 250, a query that does not compile is told and not sent; a blank name among the URIs is asked, and not told
  of (search.go:67-69, main.go:130, C145). `trc stream` tells the send buffer and the statistics interval before the client forces them
  into its ranges; with `--send-buffer 0` servers use 100 (stream.go:63-65, trace_server.go:398-422, C146).
* Five nested regions hide where an event was logged: `runtime.Callers` captures eight frames, and each decorator, region,
  prefix and helper on the way to the core trace takes one of them, and `getStack` leaves out the last (C147). The event that `NewTrace` adds to a
  trace that is in the context already names `NewTrace` instead of its caller (C147).
* C148: values are formatted while locks are held. `Tracef` of a value whose `String` method uses the same trace never
  returns; `LazyTracef` of a value that logs to any trace of the same collector never returns once somebody streams, and
  a search that meets a lazily logged value which makes a trace in the category never returns and keeps the buffer
  locked. Values that log to other published traces can deadlock with `Publish`.
* The init event of a stream need not be its first: the handler's `select` (trace_server.go:291) may take traces and statistics
  before it (C150).
* The trace of a stream served behind the middleware loses its first event, the line of the
  request, and its last, the status, once the stream has told more than the trace holds: with the
  default interval of ten seconds and limit of 1000 events, after less than three hours (C152).
* The trace of a search over many servers, each of which adds lines, loses its first event and
  its last in the same way once the search tells more than the trace holds (C151).
* The stack in a result of a search can be overwritten for every result that has one, once its
  trace is finished and dropped: the program need only create, log to and read another trace
  (`C22_dropped_always_violated`).
* A query that is an expression for Go but not for the browser, such as `(?i)timeout`, makes the
  page's script fail: traces are found but nothing is marked (`C117_refused_violated`).
* Filters whose sources have spaces or closing brackets, or whose categories have quotes, can print
  like other filters (`C34_neat_violated`).
* `stringer.free` puts a stringer back into its pool with its arguments: what was logged stays in
  memory after its trace was freed, also if it was logged with `Tracef` and formatted at once
  (`C155_kept_always_violated`). Clearing `fmt` and `args` in `free` would help.
* C156: a search with a higher limit may not return a trace that a search with a lower limit returns, and a narrower filter may hide a trace that satisfies it: `Collector.Search` (collector.go:150-173) takes the first matches of each category in the order of adding, and sorts by start time afterwards.  Only when traces are added to a category in another order than that of their start times (`C156_limit_exact`).
* C162: a multi-searcher does not notice that two of its searchers lead to the same program: every trace of that program is returned, counted and shown twice (`C162_twice_always_violated`), although traces have unique IDs (search_types.go:169-206).
* C164: nothing stops a search that goes around a circle of servers that ask each other: a request has no hop count and no list of visited servers (search_types.go:137-227, trcweb/trace_server.go:179-224). On a circle that reaches a trace, no answers are consistent (`C164_circle_always_violated`), so a search ends only when something outside stops it, and until then each trace is counted once per round (`C164_hops`).

## Properties

| id | property | status | proofs |
|----|----------|--------|--------|
| C01 | A category keeps exactly its most recent traces | proved | `Props/Ring.lean` |
| C02 | The buffer never indexes out of range | proved | `Props/Ring.lean` |
| C03 | Every item is either retained or handed back exactly once | proved | `Props/Ring.lean` |
| C04 | Resizing loses only what does not fit | proved | `Props/Ring.lean` |
| C05 | Walk visits newest to oldest and stops at the first error | proved | `Props/Ring.lean` |
| C06 | Buffer stats report the true newest, oldest and count | proved | `Props/Ring.lean` |
| C07 | Categories are independent and uniformly bounded | proved | `Props/Ring.lean` |
| C08 | Mutex-protected operations behave as if run one at a time | proved | `Props/Mutex.lean` |
| C09 | A finished trace is frozen | proved | `Props/Core.lean` |
| C10 | Errored is exactly 'an error event was logged before Finish' | proved | `Props/Core.lean` |
| C11 | Events are the logged calls, complete and in order | proved | `Props/Core.lean` |
| C12 | Truncation is bounded and counted exactly | proved | `Props/Core.lean` |
| C13 | Normal events are formatted at call time | proved | `Props/Core.lean` |
| C14 | Lazy events are formatted once, at first read, and all readers agree | proved | `Props/Stringer.lean` |
| C15 | Duration tracks the clock until Finish and then stops | proved | `Props/Core.lean` |
| C16 | The global event limit is clamped and affects only later traces | proved | `Props/Core.lean` |
| C17 | A recycled trace starts clean | proved | `Props/Core.lean`, `Props/Heap.lean` |
| C18 | Event stacks are the captured frames minus trc's own | proved | `Props/Core.lean` |
| C19 | An unfinished trace is never recycled | proved | `Props/Heap.lean` |
| C20 | Traces in a collector are never recycled or shared | proved | `Props/Heap.lean` |
| C21 | A finished trace stays frozen even after the collector dropped it | partial | `Props/Boundaries.lean`, `Props/Heap.lean` |
| C22 | Search results are immutable snapshots | partial | `Props/Heap.lean`, `Props/SnapshotFate.lean` |
| C23 | Pool counters are consistent | proved | `Props/Counters.lean`, `Props/Heap.lean` |
| C24 | Nested NewTrace annotates instead of creating | proved | `Props/Collect.lean` |
| C25 | Search returns only retained, matching traces, newest first, within the limit | proved | `Props/Search.lean` |
| C26 | Search returns the most recent matches | partial | `Props/Search.lean` |
| C27 | TotalCount is the number of traces searched | proved | `Props/Search.lean` |
| C28 | MatchCount is the number of matching traces | partial | `Props/Search.lean` |
| C29 | Search statistics cover every retained trace | proved | `Props/Search.lean` |
| C30 | The search response does not depend on map order | proved | `Props/Search.lean` |
| C31 | A filter allows exactly the traces satisfying all its conditions | proved | `Props/Filter.lean` |
| C32 | Conditions only narrow a filter | proved | `Props/Filter.lean` |
| C33 | An invalid query is reported once and then ignored | proved | `Props/Filter.lean` |
| C34 | The printed filter shows its conditions | partial | `Props/Filter.lean`, `Props/FilterText.lean` |
| C35 | A normalized request is well formed | proved | `Props/Filter.lean`, `Props/Tight.lean` |
| C36 | Normalizing twice is the same as once | partial | `Props/Filter.lean` |
| C37 | Category statistics count every observed trace exactly once | proved | `Props/Stats.lean` |
| C38 | Bucket counts are cumulative | proved | `Props/Stats.lean` |
| C39 | Oldest and newest are the true extremes | proved | `Props/Stats.lean` |
| C40 | Merging statistics equals observing everything together | partial | `Props/Stats.lean` |
| C41 | Merge order does not matter | partial | `Props/Stats.lean` |
| C42 | Merge leaves its arguments alone | partial | `Props/StatsHeap.lean`, `Props/StatsShared.lean` |
| C43 | Overall is the sum of the categories | partial | `Props/Stats.lean` |
| C44 | A multi-search aggregates counts, sources and problems | proved | `Props/Multi.lean` |
| C45 | A multi-search returns the most recent of all returned traces | proved | `Props/Multi.lean` |
| C46 | A multi-search does not depend on arrival order | proved | `Props/Multi.lean` |
| C47 | A failing searcher never fails or crashes the multi-search | partial | `Props/Multi.lean`, `Props/MultiExact.lean` |
| C48 | Newest-first is a consistent order | partial | `Props/Multi.lean` |
| C49 | Stream accounting is exact | proved | `Props/Broker.lean` |
| C50 | Subscribers receive matching traces in order, without duplicates or gaps other than counted drops | proved | `Props/Broker.lean` |
| C51 | Publishing never blocks and drops only when the buffer is full | proved | `Props/Broker.lean` |
| C52 | A channel can be subscribed only once at a time | proved | `Props/Broker.lean` |
| C53 | A stream ends cleanly | proved | `Props/Broker.lean` |
| C54 | Streamed traces are reduced | partial | `Props/Publish.lean` |
| C55 | Every logged event is streamed | partial | `Props/Overlap.lean`, `Props/Publish.lean` |
| C56 | Prefix puts its text in front of every event | proved | `Props/Prefix.lean` |
| C57 | Events logged through a prefix keep their own arguments | partial | `Wrap/Args.lean` |
| C58 | Regions nest | partial | `Props/Prefix.lean`, `Props/RegionNames.lean` |
| C59 | Decorators are transparent | partial | `Props/Prefix.lean`, `Props/Wrap.lean` |
| C60 | The trace in a context is the innermost one put there | proved | `Props/Wrap.lean` |
| C61 | A filter survives its URL encoding | proved | `Props/URL.lean` |
| C62 | Request parameters are clamped | proved | `Props/URL.lean` |
| C63 | Buckets from a URL are well formed | proved | `Props/URL.lean` |
| C64 | Responses are negotiated | partial | `Props/Boundaries.lean`, `Props/Render.lean` |
| C65 | The middleware always finishes its trace | partial | `Props/Boundaries.lean`, `Props/Middleware.lean` |
| C66 | The middleware records what the client got | partial | `Props/Middleware.lean` |
| C67 | Rendered event deltas add up | partial | `Props/Boundaries.lean`, `Props/Render.lean` |
| C68 | Stack trimming keeps the innermost frames | proved | `Props/Util.lean` |
| C69 | The stream handler cleans up | proved | `Props/StreamHandler.lean` |
| C70 | The search handler always answers | partial | `Props/Server.lean` |
| C71 | Remote search equals local search | partial | `Props/Exact3.lean`, `Props/Server.lean` |
| C72 | Stream client settings are forced into range | partial | `Props/Boundaries.lean`, `Props/Client.lean`, `Props/Tight.lean` |
| C73 | Durations are truncated safely | proved | `Props/Util.lean` |
| C74 | Compact file:line is total and keeps the tail | proved | `Props/Util.lean` |
| C75 | API calls never deadlock each other | proved | `Props/Lock.lean` |
| C76 | SetMaxEvents works on the traces a program has | partial | `Props/Collect.lean` |
| C77 | A search result is a snapshot | partial | `Props/Boundaries.lean`, `Props/Publish.lean` |
| C78 | Publishing never panics | partial | `Props/Collect.lean` |
| C79 | Rates add up | partial | `Props/Boundaries.lean`, `Props/Rates.lean`, `Props/Tight.lean` |
| C80 | Humanized durations can be read back | proved | `Props/Humanize.lean` |
| C81 | The stream client delivers what the server sends | proved | `Props/StreamClient.lean` |
| C82 | A stream client leaves nothing behind | partial | `Props/StreamClient.lean` |
| C83 | trc stream streams until told to stop, and cleans up | proved | `Props/CmdStream.lean` |
| C84 | trc stream shows only traces that satisfy its flags | partial | `Props/CmdSearch.lean` |
| C85 | trc search prints what its flags ask for | proved | `Props/CmdSearch.lean` |
| C86 | A log decorator writes one line per call | partial | `Props/LogLines.lean` |
| C87 | Subscribers are told the end of a trace once | partial | `Props/Once.lean` |
| C88 | A search that runs while traces come and go | proved | `Props/During.lean` |
| C89 | Links on the page ask for what they stand for | partial | `Props/LinksExact.lean`, `Props/Page.lean` |
| C90 | Numbers on the page count what their links find | partial | `Props/PageCounts.lean` |
| C91 | Percentages on the page are percentages | partial | `Props/PageCounts.lean` |
| C92 | Event texts are shown as text | partial | `Props/EventText.lean` |
| C93 | Submitting the search form unchanged repeats the search | partial | `Props/Form.lean` |
| C94 | trc stream prints each trace that it receives once, in order | proved | `Props/Pipeline.lean` |
| C95 | What a program logs is what a search finds | proved | `Props/Easy.lean` |
| C96 | Concurrent use is free of data races | partial | `Props/Race.lean` |
| C97 | Searchers of a multi-search can share the request | partial | `Props/Shared.lean` |
| C98 | trc stream prints what a program finished, from end to end | proved | `Props/StreamEnd.lean` |
| C99 | Trace IDs are distinct and sort by creation | partial | `Props/Boundaries.lean`, `Props/Ulid.lean` |
| C100 | trc asks every server it is given, once | partial | `Props/Uris.lean`, `Props/UrisExact.lean` |
| C101 | Rates and sizes on the page can be read | partial | `Props/Numbers.lean` |
| C102 | The summary highlights what the page shows | partial | `Props/Exact2.lean`, `Props/Highlight.lean` |
| C103 | trc search prints what programs logged, from end to end | partial | `Props/SearchEnd.lean` |
| C104 | The page is made from the embedded files unless a directory is set | partial | `Props/Assets.lean` |
| C105 | Traces are made as their collector was last configured | partial | `Props/Config.lean` |
| C106 | The age shown beside a trace is its age | partial | `Props/Age.lean`, `Props/Exact2.lean` |
| C107 | A trace server put together from its fields serves what the fields say | partial | `Props/Exact3.lean`, `Props/ServerFields.lean` |
| C108 | A multi-search waits for each of its searchers, and for nothing else | proved | `Props/Gather.lean` |
| C109 | The exit status of trc says whether it did what it was asked to do | partial | `Props/Main.lean` |
| C110 | A request served through the middleware is found by trc, with its request line, headers, lines, status and size | proved | `Props/MiddlewareEnd.lean` |
| C111 | Every answer can be shown as a page | partial | `Props/Shown.lean` |
| C112 | What a collector keeps in memory is bounded | partial | `Props/Memory.lean` |
| C113 | A client gets the same answer from a handler behind the middleware | partial | `Props/Behind.lean` |
| C114 | Looking at traces does not change them | proved | `Props/Looking.lean` |
| C115 | The events of a trace are shown between its start and its end | partial | `Props/Timeline.lean` |
| C116 | What is found in a logging trace is in the log already | partial | `Props/LogFirst.lean` |
| C117 | What a query found is marked on the page | partial | `Props/Marks.lean` |
| C118 | Subscribers of a broker do not affect each other | proved | `Props/Apart.lean` |
| C119 | Functions that make traces can call each other | partial | `Props/Nested.lean` |
| C120 | An event is highlighted while the pointer is on it | proved | `Props/Use.lean` |
| C121 | Stacks and debug information are shown as asked for | proved | `Props/Use.lean` |
| C122 | The debug information on the page adds up | partial | `Props/DebugInfo.lean` |
| C123 | What a program logs is what its page shows | proved | `Props/PageEnd.lean` |
| C124 | The times beside the events are right and agree with the durations | partial | `Props/Clock.lean` |
| C125 | Links to source code lead to the source code | partial | `Props/SourceLink.lean` |
| C126 | What trc prints can be read | partial | `Props/Output.lean`, `Props/Tight.lean` |
| C127 | Any reader of server-sent events can read the stream | proved | `Props/SSEText.lean` |
| C128 | The numbers above the traces are right for any network of programs | proved | `Props/Topline.lean` |
| C129 | The traces in an answer are right for any network of programs | proved | `Props/NetTraces.lean` |
| C130 | Collectors of one program share memory but never traces | proved | `Props/Collectors.lean` |
| C131 | Searching and publishing traces of any type leaves them as they are | partial | `Props/Own.lean`, `Props/OwnCopies.lean` |
| C132 | trc stream runs with any values of its flags | partial | `Props/Flags.lean` |
| C133 | The trace of a request tells what was searched, and how it went | proved | `Props/Searching.lean` |
| C134 | Clients make their requests through the HTTP client that they are given | partial | `Props/Using.lean` |
| C135 | A stream client reports all that it receives | proved | `Props/Using.lean` |
| C136 | Streams that watch a server do not keep each other busy | partial | `Props/Feedback.lean`, `Props/FeedbackExact.lean` |
| C137 | With --log trace, trc search tells what each server answered | proved | `Props/CmdTracing.lean` |
| C138 | The printed form of a search request tells what is asked | partial | `Props/FilterText.lean`, `Props/RequestText.lean` |
| C139 | The duration of a streamed trace is told in three ways that agree | proved | `Props/Seconds.lean` |
| C140 | The trace of a request to the search handler tells the search and how it was answered | proved | `Props/Handling.lean` |
| C141 | A request for a stream is served what it asks for, or refused | partial | `Props/StreamRequest.lean` |
| C142 | The trace of a stream tells what is streamed and how the stream has ended | partial | `Props/StreamLines.lean` |
| C143 | The debug log of trc stream tells which servers are heard from | partial | `Props/Watching.lean` |
| C144 | The link of a trace leads to the trace | proved | `Props/LinkTo.lean` |
| C145 | The debug log of trc search tells what is asked and what is printed | partial | `Props/SearchLog.lean` |
| C146 | The log of trc stream counts what is printed and ends in order | partial | `Props/StreamLog.lean` |
| C147 | An event tells where it was logged | partial | `Props/Where.lean` |
| C148 | Values that are logged may use the library while they are formatted | partial | `Props/LockUser.lean` |
| C149 | Every call returns, however busy the others are | proved | `Props/LockFair.lean` |
| C150 | A client can tell from its stream what it has missed | partial | `Props/StreamTold.lean` |
| C151 | The trace of a served search tells the whole request, from its first line to its last | partial | `Props/ServedLong.lean`, `Props/ServedSearch.lean` |
| C152 | The trace of a served stream tells the whole request, from its first line to its last | partial | `Props/ServedStream.lean` |
| C153 | With --log trace, trc stream tells what each server sends about its stream | proved | `Props/StreamTracing.lean` |
| C154 | A category refers to what it retains and to nothing else | proved | `Props/LetsGo.lean`, `Props/LetsGoProgram.lean` |
| C155 | What was logged is let go of when its trace is freed | partial | `Props/Released.lean` |
| C156 | Each part of a request changes its own part of the answer | partial | `Props/Asking.lean`, `Props/AskingNet.lean` |
| C157 | However busy other categories are, a search in a category finds the same | proved | `Props/Busy.lean` |
| C158 | A trace is found until its category has as many newer ones as it holds | proved | `Props/Lifetime.lean` |
| C159 | A stream and a search tell the same about a finished trace | proved | `Props/Agree.lean` |
| C160 | However servers are grouped, an answer has the same traces and numbers | proved | `Props/Grouping.lean` |
| C161 | The rows of the summary are right for any network of programs | proved | `Props/SummaryNet.lean` |
| C162 | A trace is in an answer at most once | partial | `Props/Duplicates.lean` |
| C163 | A server that is down takes only its own traces with it | proved | `Props/Outage.lean` |
| C164 | Servers may ask each other | partial | `Props/Circle.lean` |
