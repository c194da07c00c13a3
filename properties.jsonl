{"id": "C01", "title": "A category keeps exactly its most recent traces", "statement": "After any history of adding items to a category buffer and resizing it, walking the buffer yields, newest first, exactly the items that a 'most recent N' list would hold: adding puts the item in front and cuts the list to the capacity, resizing to a positive capacity cuts the list to the new capacity. With a constant capacity N this is exactly the last min(N, number added) items.", "quantifier": "all item types, all initial capacities >= 0, all finite sequences of Add/Resize calls with arbitrary arguments", "why_tests_cant": "the cursor/wrap-around arithmetic has a different case for every (capacity, fill, cursor, new capacity) combination and every history; tests sample a few", "anchors": ["internal/trcringbuf/ringbuffer.go: NewRingBuffer, Add, Resize, Walk"]}
{"id": "C02", "title": "The buffer never indexes out of range", "statement": "No call of Add, Resize, Walk or Stats on a buffer made with a capacity >= 0 panics, whatever calls came before.", "quantifier": "all capacities >= 0, all finite histories of calls, all arguments including zero and negative new capacities", "why_tests_cant": "an index panic needs one particular cursor/length combination reached by one particular history", "anchors": ["internal/trcringbuf/ringbuffer.go: Add, Resize, Walk, Stats"]}
{"id": "C03", "title": "Every item is either retained or handed back exactly once", "statement": "Over any history of Add and Resize on a buffer of positive capacity, the items handed back as dropped, plus the items still walked, are exactly the items added, with multiplicity; Add hands back an item only when the buffer was full, and then it is the oldest one; Resize hands back exactly the oldest items that do not fit, newest of them first.", "quantifier": "all item types, all capacities > 0, all finite histories", "why_tests_cant": "a leak or a double hand-back shows only after particular resize/add interleavings", "anchors": ["internal/trcringbuf/ringbuffer.go: Add, Resize", "collector.go: SetCategorySize, NewTrace, maybeFree"]}
{"id": "C04", "title": "Resizing loses only what does not fit", "statement": "Resize with a capacity <= 0 changes nothing and drops nothing. Resize to a capacity at least the current item count drops nothing and keeps order. Shrinking then growing back keeps exactly the newest items that fitted the smaller capacity.", "quantifier": "all buffers reachable by any history, all new capacities (any integer)", "why_tests_cant": "quantifies over all reachable buffer layouts and all integers", "anchors": ["internal/trcringbuf/ringbuffer.go: Resize", "collector.go: SetCategorySize"]}
{"id": "C05", "title": "Walk visits newest to oldest and stops at the first error", "statement": "Walk calls the function on each item from newest to oldest, in that order, exactly once each, until the function returns an error; then it stops, visits nothing more and returns that error. With a function that never errors it returns nil after visiting every item.", "quantifier": "all reachable buffers, all callback functions with arbitrary state", "why_tests_cant": "quantifies over all callbacks and all reachable layouts", "anchors": ["internal/trcringbuf/ringbuffer.go: Walk"]}
{"id": "C06", "title": "Buffer stats report the true newest, oldest and count", "statement": "Stats returns the first and last item that Walk would visit and the number of items Walk would visit; on an empty buffer it returns zero values and 0. The count never exceeds the capacity.", "quantifier": "all reachable buffers", "why_tests_cant": "the tail index wraps differently for each layout", "anchors": ["internal/trcringbuf/ringbuffer.go: Stats"]}
{"id": "C07", "title": "Categories are independent and uniformly bounded", "statement": "Creating traces in one category never adds, drops or reorders traces in any other category. At every point, every category holds at most the configured category size of traces, including categories created before and after a size change; a size <= 0 is ignored.", "quantifier": "all category names, all interleavings of trace creation across categories and size changes", "why_tests_cant": "quantifies over all sets of category names and all histories", "anchors": ["internal/trcringbuf/ringbuffer.go: RingBuffers.GetOrCreate, RingBuffers.Resize, RingBuffers.GetAll", "collector.go: NewTrace, SetCategorySize"]}
{"id": "C08", "title": "Mutex-protected operations behave as if run one at a time", "statement": "For any number of goroutines running any operations on one buffer, one trace or one broker, each taking the object's lock, running its steps and releasing it, and any interleaving of their steps, the result of each operation and the final state are those of running whole operations one at a time in the order in which the lock was taken.", "quantifier": "all numbers of goroutines, all operation programs, all interleavings of individual steps", "why_tests_cant": "the number of schedules is unbounded; race tests sample a few", "anchors": ["internal/trcringbuf/ringbuffer.go: RingBuffer.mtx", "trace_core.go: coreTrace.mtx", "broker.go: Broker.mtx"]}
{"id": "C09", "title": "A finished trace is frozen", "statement": "Once Finish has been called on a trace that has not been recycled, no later sequence of Tracef, LazyTracef, Errorf, LazyErrorf, Finish, SetMaxEvents or read calls changes what Finished, Errored, Duration, ID, Source, Category, Started or Events report (event text of lazy events being fixed at its first read, and the truncation notice's own timestamp being the time of the read).", "quantifier": "all traces, all histories before Finish, all operation sequences after Finish, all clocks", "why_tests_cant": "quantifies over all sequences of calls before and after", "anchors": ["trace.go: Trace.Finish", "trace_core.go: Tracef, LazyTracef, Errorf, LazyErrorf, Finish, SetMaxEvents, EventsDetail"]}
{"id": "C10", "title": "Errored is exactly 'an error event was logged before Finish'", "statement": "Errored reports true if and only if at least one Errorf or LazyErrorf call was made before the first Finish, including error calls whose event was cut by the event limit.", "quantifier": "all finite sequences of calls on a trace, all event limits", "why_tests_cant": "must hold for every history, including truncated ones", "anchors": ["trace.go: Trace.Errored", "trace_core.go: Errorf, LazyErrorf, Errored"]}
{"id": "C11", "title": "Events are the logged calls, complete and in order", "statement": "As long as no more than the event limit were logged before Finish, Events returns exactly one event per logging call made before Finish, oldest to newest, each with the text, error flag, timestamp and stack of its own call.", "quantifier": "all finite sequences of logging calls with arbitrary formats and arguments", "why_tests_cant": "quantifies over all histories of up to the limit of calls", "anchors": ["trace.go: Trace.Events", "trace_core.go: EventsDetail, snapshotEvents, newCoreEvent"]}
{"id": "C12", "title": "Truncation is bounded and counted exactly", "statement": "With event limit M, a trace never reports more than M events. Once more than M events were logged before Finish, the reported events are the first M logged without the very first one, followed by a single final event stating exactly how many logged events were not stored.", "quantifier": "all event limits, all finite histories", "why_tests_cant": "boundary at the limit and unbounded counts beyond it", "anchors": ["trace_core.go: SetTraceMaxEvents, Tracef, EventsDetail"]}
{"id": "C13", "title": "Normal events are formatted at call time", "statement": "The text of an event logged with Tracef or Errorf is the formatting of its arguments as they were at the time of the call, no matter how the arguments change before the event is read.", "quantifier": "all formats, arguments, later mutations and read times", "why_tests_cant": "quantifies over all later mutations and read times", "anchors": ["trace.go: Tracef, Errorf", "trace_core.go: newNormalStringer, stringer.String"]}
{"id": "C14", "title": "Lazy events are formatted once, at first read, and all readers agree", "statement": "The text of an event logged with LazyTracef or LazyErrorf is the formatting of its arguments at the time of the first read, and every later read returns that same text whatever happens to the arguments. When any number of goroutines read it concurrently, all get the same text under every interleaving and none panics.", "quantifier": "all formats and arguments, all mutation histories, all numbers of readers, all interleavings of their atomic steps", "why_tests_cant": "the compare-and-swap race has unboundedly many schedules", "anchors": ["trace_core.go: newLazyStringer, stringer.String"]}
{"id": "C15", "title": "Duration tracks the clock until Finish and then stops", "statement": "While a trace is active, Duration is the time since it started, so later reads never report less on a non-decreasing clock. After Finish it is for ever the time between start and the first Finish.", "quantifier": "all clock readings, all call sequences", "why_tests_cant": "quantifies over all clocks and histories", "anchors": ["trace.go: Trace.Duration", "trace_core.go: Duration, Finish"]}
{"id": "C16", "title": "The global event limit is clamped and affects only later traces", "statement": "SetTraceMaxEvents(n) makes every trace created afterwards store at most n events with n forced into 10..10000, and does not change traces that already exist. SetMaxEvents on one trace forces its argument into the same range and changes only that trace; it never discards events already stored.", "quantifier": "all integers n, all histories of creation and limit changes", "why_tests_cant": "quantifies over all integers and all interleavings", "anchors": ["trace_core.go: SetTraceMaxEvents, newCoreTrace, coreTrace.SetMaxEvents", "helpers.go: SetMaxEvents"]}
{"id": "C17", "title": "A recycled trace starts clean", "statement": "A trace obtained from the pool reports nothing of its previous use: it is active, not errored, has no events, no truncation, the new source, category, ID and start time, and the current limit and stack setting.", "quantifier": "all previous lives of the recycled object", "why_tests_cant": "leftover state depends on the whole previous life of the object", "anchors": ["trace_core.go: newCoreTrace, Free, newCoreEvent"]}
{"id": "C18", "title": "Event stacks are the captured frames minus trc's own", "statement": "The stack reported for an event lists only frames captured by its call, in order, never a frame of the logging helpers themselves, and repeated reads return the same stack. With stacks disabled when the trace was created the stack is empty. (The code drops the outermost captured frame.)", "quantifier": "all captured frame lists, all function names, any number of reads", "why_tests_cant": "quantifies over all call stacks", "anchors": ["trace_core.go: getStack, ignoreStackFrameFunction, newCoreEvent, SetTraceStacks"]}
{"id": "C19", "title": "An unfinished trace is never recycled", "statement": "A handle to a trace that has not been finished always refers to its own trace: whatever is created, finished, dropped or resized elsewhere, its ID, source and category stay the same and events logged through it appear in it and in no other trace, even after the collector dropped it.", "quantifier": "all histories of creations, logging, finishes, evictions, resizes and pool behaviours", "why_tests_cant": "aliasing through the pool needs particular eviction/reuse orders", "anchors": ["trace_core.go: Free, newCoreTrace, coreTracePool", "collector.go: NewTrace, SetCategorySize, maybeFree"]}
{"id": "C20", "title": "Traces in a collector are never recycled or shared", "statement": "As long as a trace is retained by its collector its memory is not reused: no two retained traces share memory, no retained trace is in the free pool, and no trace is put into the pool twice.", "quantifier": "all histories of creations, logging, finishes, evictions, resizes and pool behaviours", "why_tests_cant": "a double free or shared object needs a particular history", "anchors": ["trace_core.go: Free, newCoreTrace", "collector.go: NewTrace, SetCategorySize"]}
{"id": "C21", "title": "A finished trace stays frozen even after the collector dropped it", "statement": "Calls through a handle to a finished trace are no-ops for ever, and the handle keeps reporting its own trace, even after the collector dropped the trace.", "quantifier": "all histories including evictions and reuse after Finish", "why_tests_cant": "needs the eviction, reuse and late call to coincide", "anchors": ["trace.go: Trace.Finish", "trace_core.go: Free, newCoreTrace"]}
{"id": "C22", "title": "Search results are immutable snapshots", "statement": "A static trace returned by a search does not change afterwards, whatever is logged, finished, evicted or created later.", "quantifier": "all later histories, including eviction of the trace and reuse of its events", "why_tests_cant": "corruption requires eviction, event reuse and a stack read in a particular order", "anchors": ["trace_static.go: NewSearchTrace", "trace_core.go: getStack, snapshotEvents, coreEvent.free, newCoreEvent"]}
{"id": "C23", "title": "Pool counters are consistent", "statement": "At every point, the numbers of trace, event and stringer objects allocated are at most the numbers requested; every trace requested has been returned to the pool, was counted as lost, or is still held by the collector (no double counting); and every event and stringer requested has been returned or is in a trace.", "quantifier": "all histories and pool behaviours", "why_tests_cant": "invariant over all histories", "anchors": ["internal/trcdebug/counters.go", "trace_core.go: newCoreTrace, Free", "trcweb/render.go: debugInfo"]}
{"id": "C24", "title": "Nested NewTrace annotates instead of creating", "statement": "Collector.NewTrace on a context that already carries a trace returns that same context and trace, adds one event naming the category to it (if it is not finished), and creates and retains nothing. On a context without a trace it creates exactly one trace with the collector's source and the given category, retains it in that category as the newest, and returns a context from which that very trace is obtained.", "quantifier": "all contexts, categories, collector states and decorators", "why_tests_cant": "quantifies over all collector states and contexts", "anchors": ["collector.go: NewTrace", "helpers.go: MaybeGet, Put, Get"]}
{"id": "C25", "title": "Search returns only retained, matching traces, newest first, within the limit", "statement": "Every trace in a search response is the snapshot of a trace retained by the collector that the filter allows; none appears twice; they are sorted newest first; there are at most Limit of them, where Limit is between 1 and 250.", "quantifier": "all collector contents, all requests, all map iteration orders", "why_tests_cant": "quantifies over all contents and requests", "anchors": ["collector.go: Search", "search_types.go: SearchRequest.Normalize"]}
{"id": "C26", "title": "Search returns the most recent matches", "statement": "If a retained trace matches the filter and is not in the response, then the response is full (Limit traces) and every trace in it is at least as recent. ", "quantifier": "all collector contents, all requests, all map iteration orders", "why_tests_cant": "per-category preselection interacts with the global sort and limit", "anchors": ["collector.go: Search", "trace_static.go: staticTracesNewestFirst"]}
{"id": "C27", "title": "TotalCount is the number of traces searched", "statement": "TotalCount equals the number of traces retained at the time of the search, regardless of filter and limit.", "quantifier": "all collector contents, all requests", "why_tests_cant": "quantifies over all contents and requests", "anchors": ["collector.go: Search"]}
{"id": "C28", "title": "MatchCount is the number of matching traces", "statement": "MatchCount equals the number of retained traces allowed by the filter, lies between the number of returned traces and TotalCount.", "quantifier": "all collector contents, all requests", "why_tests_cant": "differs only when a category holds more matches than the limit", "anchors": ["collector.go: Search"]}
{"id": "C29", "title": "Search statistics cover every retained trace", "statement": "The statistics in a search response are those of all retained traces, whatever the filter and the limit.", "quantifier": "all collector contents, all requests", "why_tests_cant": "quantifies over all contents and requests", "anchors": ["collector.go: Search", "search_stats.go: Observe"]}
{"id": "C30", "title": "The search response does not depend on map order", "statement": "Counts and per-category statistics are the same for every iteration order of the categories, and when no two matching traces have both the same start time and the same ID the returned list is too.", "quantifier": "all collector contents, all orders of map iteration", "why_tests_cant": "Go randomises map iteration; tests see a few orders", "anchors": ["collector.go: Search"]}
{"id": "C31", "title": "A filter allows exactly the traces satisfying all its conditions", "statement": "Allow returns true exactly when: sources are unset or contain the trace's source; IDs are unset or contain its ID; category is unset or equal; not active-only or not finished; not finished-only or finished; no minimum duration, or finished with at least that duration; not success-only or not errored; not errored-only or errored; and no (valid) query, or the query matches the text, a function name or a compact file:line of some event.", "quantifier": "all filters, all traces, all matchers", "why_tests_cant": "nine independent conditions over unbounded domains", "anchors": ["filter.go: Allow"]}
{"id": "C32", "title": "Conditions only narrow a filter", "statement": "The empty filter allows every trace. A filter with more conditions set never allows a trace the filter without them rejects. A filter that is both active-only and finished-only, or both success-only and errored-only, allows nothing; a minimum duration excludes active traces.", "quantifier": "all filters and traces", "why_tests_cant": "quantifies over all filters and traces", "anchors": ["filter.go: Allow"]}
{"id": "C33", "title": "An invalid query is reported once and then ignored", "statement": "Normalizing a filter whose query does not compile reports exactly one problem and clears the query; afterwards the filter behaves exactly as if no query had been given and normalizing again reports nothing. A valid query is kept and produces no problem.", "quantifier": "all queries, all compile functions, all filters", "why_tests_cant": "quantifies over all queries", "anchors": ["filter.go: Normalize, initializeQueryRegexp, Allow"]}
{"id": "C34", "title": "The printed filter shows its conditions", "statement": "The string form of a filter is '(allow all)' exactly when no condition is set, and otherwise mentions each set condition with its value.", "quantifier": "all filters", "why_tests_cant": "quantifies over all filters", "anchors": ["filter.go: String"]}
{"id": "C35", "title": "A normalized request is well formed", "statement": "After Normalize the limit is between 1 and 250 (10 if it was not positive, otherwise the nearest in range), and the buckets are in ascending order starting at 0 (the defaults if none were given) provided none is negative; every requested bucket is kept.", "quantifier": "all requests", "why_tests_cant": "quantifies over all bucket lists and limits", "anchors": ["search_types.go: SearchRequest.Normalize"]}
{"id": "C36", "title": "Normalizing twice is the same as once", "statement": "Normalize on an already normalized request changes nothing and reports no problem, so a request passed through server, multi-searcher and collector means the same everywhere.", "quantifier": "all requests", "why_tests_cant": "fails only for unusual bucket lists", "anchors": ["search_types.go: SearchRequest.Normalize, MultiSearcher.Search", "trcweb/trace_server.go: handleSearch", "trcweb/util.go: parseBucketing"]}
{"id": "C37", "title": "Category statistics count every observed trace exactly once", "statement": "After observing any traces into empty statistics, each category's active, errored and success counts are the numbers of its active, finished-errored and finished-successful traces, its event count is the sum of their event counts, and its total is the number of observed traces of that category; categories never observed are absent.", "quantifier": "all finite multisets of traces, all bucketings starting at 0, in any order", "why_tests_cant": "quantifies over all collections of traces", "anchors": ["search_stats.go: SearchStats.Observe, CategoryStats.TotalCount"]}
{"id": "C38", "title": "Bucket counts are cumulative", "statement": "For ascending buckets, the i-th bucket count is the number of observed successful traces with duration at least the i-th bucket, so counts never increase from one bucket to the next.", "quantifier": "all ascending bucketings, all traces", "why_tests_cant": "quantifies over all bucketings and durations", "anchors": ["search_stats.go: SearchStats.Observe"]}
{"id": "C39", "title": "Oldest and newest are the true extremes", "statement": "A category's oldest and newest timestamps are the earliest and latest start times among its observed traces (ignoring zero times).", "quantifier": "all collections of traces whose clocks are comparable", "why_tests_cant": "quantifies over all collections and orders", "anchors": ["search_stats.go: olderOf, newerOf, Observe, CategoryStats.Merge"]}
{"id": "C40", "title": "Merging statistics equals observing everything together", "statement": "Merging the statistics of two sets of traces gives the statistics of their union.", "quantifier": "all pairs of collections of traces, all common bucketings", "why_tests_cant": "quantifies over all pairs of collections", "anchors": ["search_stats.go: SearchStats.Merge, CategoryStats.Merge"]}
{"id": "C41", "title": "Merge order does not matter", "statement": "Merging any number of statistics in any order gives the same result.", "quantifier": "all finite lists of statistics and all their permutations", "why_tests_cant": "arrival order of concurrent responses is arbitrary", "anchors": ["search_stats.go: SearchStats.Merge", "search_types.go: MultiSearcher.Search"]}
{"id": "C42", "title": "Merge leaves its arguments alone", "statement": "Merging statistics into an aggregate never changes the statistics that were merged in earlier.", "quantifier": "all sequences of merges", "why_tests_cant": "depends on slice and map aliasing that value comparison does not show", "anchors": ["search_stats.go: SearchStats.Merge, CategoryStats.Merge"]}
{"id": "C43", "title": "Overall is the sum of the categories", "statement": "The synthetic overall statistics have as active, errored, bucket, event and total counts the sums over all categories, and as oldest/newest the extremes; AllCategories lists every category once in name order followed by overall.", "quantifier": "all statistics", "why_tests_cant": "quantifies over all statistics", "anchors": ["search_stats.go: Overall, AllCategories"]}
{"id": "C44", "title": "A multi-search aggregates counts, sources and problems", "statement": "The aggregate's TotalCount and MatchCount are the sums over the responses received; its sources are the distinct sources in ascending order; its problems include every problem reported by a response and one for every searcher that failed.", "quantifier": "all numbers of searchers, all responses and errors, all arrival orders", "why_tests_cant": "quantifies over all responses and arrival orders", "anchors": ["search_types.go: MultiSearcher.Search"]}
{"id": "C45", "title": "A multi-search returns the most recent of all returned traces", "statement": "The aggregate's traces are sorted newest first, at most Limit, taken from the responses, and any response trace left out is no more recent than those returned; if each response holds the most recent Limit matches of its source, the aggregate holds the most recent Limit matches of all sources together.", "quantifier": "all numbers of searchers, all responses, all arrival orders", "why_tests_cant": "quantifies over all distributions of traces over sources", "anchors": ["search_types.go: MultiSearcher.Search"]}
{"id": "C46", "title": "A multi-search does not depend on arrival order", "statement": "Counts, sources and the returned traces (if no two have the same start time and ID) are the same for every order in which the responses arrive; problems are the same up to order.", "quantifier": "all permutations of arrivals", "why_tests_cant": "the number of arrival orders is factorial", "anchors": ["search_types.go: MultiSearcher.Search"]}
{"id": "C47", "title": "A failing searcher never fails or crashes the multi-search", "statement": "MultiSearcher.Search always returns a response and no error; a searcher that fails contributes one problem and nothing else changes.", "quantifier": "all requests, all mixtures of failing and succeeding searchers", "why_tests_cant": "a crash needs a particular request and mixture", "anchors": ["search_types.go: MultiSearcher.Search", "search_stats.go: SearchStats.Merge"]}
{"id": "C48", "title": "Newest-first is a consistent order", "statement": "The comparison used to sort results is a strict weak order (irreflexive, transitive, with transitive ties), so sorting is meaningful.", "quantifier": "all sets of static traces from local and remote sources", "why_tests_cant": "a cycle needs three traces with particular wall and monotonic clocks", "anchors": ["trace_static.go: staticTracesNewestFirst.Less"]}
{"id": "C49", "title": "Stream accounting is exact", "statement": "For each subscription, skips + sends + drops equals the number of publishes while it was subscribed; skips counts exactly those its filter rejected.", "quantifier": "all interleavings of publishes, subscribes, cancels and receives", "why_tests_cant": "quantifies over all histories", "anchors": ["broker.go: Publish, Stream, StreamStats"]}
{"id": "C50", "title": "Subscribers receive matching traces in order, without duplicates or gaps other than counted drops", "statement": "The sequence of traces put into a subscriber's channel is, in publish order, the published traces that its filter allowed minus those dropped; what the subscriber has received plus what is still buffered is exactly that sequence.", "quantifier": "all interleavings of publishes and receives, all filters and buffer sizes", "why_tests_cant": "quantifies over all histories", "anchors": ["broker.go: Publish"]}
{"id": "C51", "title": "Publishing never blocks and drops only when the buffer is full", "statement": "A publish to any set of subscribers always completes; an allowed trace is dropped for a subscriber exactly when that subscriber's channel has no free buffer slot and no waiting receiver, and one subscriber's full channel never affects another subscriber.", "quantifier": "all subscriber sets and channel fill states", "why_tests_cant": "quantifies over all channel states", "anchors": ["broker.go: Publish"]}
{"id": "C52", "title": "A channel can be subscribed only once at a time", "statement": "Subscribing a channel that is already subscribed returns an error and leaves the existing subscription, its filter and its statistics unchanged; after its stream ended the channel can be subscribed again with fresh statistics.", "quantifier": "all histories of subscribe and cancel calls from any number of goroutines", "why_tests_cant": "needs particular interleavings of concurrent Stream calls", "anchors": ["broker.go: Stream"]}
{"id": "C53", "title": "A stream ends cleanly", "statement": "Once Stream has returned nothing more is sent to its channel; the statistics it returns are those accumulated over its own subscription; it never reports the 'not subscribed' programmer error; cancelling one stream leaves all others subscribed.", "quantifier": "all interleavings of any number of concurrent Stream calls, cancels and publishes", "why_tests_cant": "needs particular interleavings", "anchors": ["broker.go: Stream"]}
{"id": "C54", "title": "Streamed traces are reduced", "statement": "A published trace carries no stacks; if the trace is active it carries at most one event, which is its most recent (or the truncation notice); if finished it carries all of its events; it is named as the trace is, and its start, duration and state are those of the trace.", "quantifier": "all traces and histories", "why_tests_cant": "quantifies over all traces", "anchors": ["trace_static.go: NewStreamTrace", "trace_core.go: EventsDetail"]}
{"id": "C55", "title": "Every logged event is streamed", "statement": "A subscriber to everything with enough buffer receives, for each trace created in the collector, one message at creation, one per logged event carrying that event, and one complete trace at Finish.", "quantifier": "all operation sequences and interleavings", "why_tests_cant": "concurrent loggers interleave between the log and the publish step", "anchors": ["decorators.go: publishDecorator, publishTrace", "broker.go: Publish"]}
{"id": "C56", "title": "Prefix puts its text in front of every event", "statement": "Every event logged through a prefixed trace has as text the formatted prefix, a space, and the formatting of the event's own format and arguments; nested prefixes appear outermost first; logging through the original trace is unaffected.", "quantifier": "all prefixes, formats and arguments whose verbs match their argument counts, all nesting depths", "why_tests_cant": "quantifies over all formats, arguments and nesting depths", "anchors": ["helpers.go: Prefix, prefixTrace"]}
{"id": "C57", "title": "Events logged through a prefix keep their own arguments", "statement": "A lazy event logged through a prefixed trace shows its own arguments, not those of later events.", "quantifier": "all prefix argument slices and event sequences", "why_tests_cant": "depends on spare capacity of the caller's slice", "anchors": ["helpers.go: prefixTrace.LazyTracef"]}
{"id": "C58", "title": "Regions nest", "statement": "Entering a region logs an arrow event with the region's name on the trace, every event logged through the region's trace carries one more dot prefix, and finishing logs the closing event; nested regions produce properly nested brackets.", "quantifier": "all region nestings and names", "why_tests_cant": "quantifies over all nestings", "anchors": ["helpers.go: Region"]}
{"id": "C59", "title": "Decorators are transparent", "statement": "A trace decorated for logging or publishing, or wrapped with a prefix, reports the same ID, source, category, start, duration, finished, errored state and (apart from the prefix text) events as the undecorated trace after the same calls, to any stacking depth; a dropped decorated trace is freed like an undecorated one.", "quantifier": "all decorator stacks, all operation sequences", "why_tests_cant": "quantifies over all stacks of decorators and histories", "anchors": ["decorators.go: logTrace, publishTrace", "helpers.go: prefixTrace"]}
{"id": "C60", "title": "The trace in a context is the innermost one put there", "statement": "Get and MaybeGet return the trace most recently put on the path to a context; putting a trace into a derived context never changes what the parent context returns; without any trace MaybeGet reports false and Get returns a fresh active orphan that is in no collector.", "quantifier": "all trees of derived contexts", "why_tests_cant": "quantifies over all context trees", "anchors": ["helpers.go: Put, Get, MaybeGet"]}
{"id": "C61", "title": "A filter survives its URL encoding", "statement": "Encoding a filter into a request URL that carries no filter parameters and parsing it back gives the same filter.", "quantifier": "all filters", "why_tests_cant": "quantifies over all filters", "anchors": ["trcweb/util.go: encodeFilter, parseFilter"]}
{"id": "C62", "title": "Request parameters are clamped", "statement": "Whatever the query string, the search limit parsed from it is within 1..250 and the stream buffer within 0..100000; unparsable values give the default and in-range values are kept.", "quantifier": "all query strings", "why_tests_cant": "quantifies over all strings", "anchors": ["trcweb/util.go: parseRange, parseDefault", "trcweb/trace_server.go: handleSearch, handleStream"]}
{"id": "C63", "title": "Buckets from a URL are well formed", "statement": "Parsing bucket parameters gives nothing if none parses, and otherwise the parsable durations in ascending order, with 0 in front unless the smallest is 0.", "quantifier": "all lists of strings", "why_tests_cant": "quantifies over all lists", "anchors": ["trcweb/util.go: parseBucketing"]}
{"id": "C64", "title": "Responses are negotiated", "statement": "A request is served as a stream exactly when its Accept header explicitly lists text/event-stream, as HTML exactly when it is not a stream, lists text/html and does not ask for JSON by URL, and as JSON otherwise.", "quantifier": "all Accept headers and URLs", "why_tests_cant": "quantifies over all headers", "anchors": ["trcweb/render.go: renderResponse, requestExplicitlyAccepts, parseAcceptMediaTypes", "trcweb/trace_server.go: Categorize, ServeHTTP"]}
{"id": "C65", "title": "The middleware always finishes its trace", "statement": "For every request and every handler behaviour, including panics, the middleware creates one trace, logs the request line first, logs the HTTP outcome last and then finishes the trace exactly once.", "quantifier": "all handlers, including panicking ones", "why_tests_cant": "quantifies over all handler behaviours", "anchors": ["trcweb/middleware.go: Middleware"]}
{"id": "C66", "title": "The middleware records what the client got", "statement": "The status code and byte count logged are those sent to the client.", "quantifier": "all sequences of WriteHeader, Write and Flush calls", "why_tests_cant": "quantifies over all call sequences", "anchors": ["trcweb/middleware.go: interceptor"]}
{"id": "C67", "title": "Rendered event deltas add up", "statement": "The rendered event list starts with a start event, ends with an end event, has the trace's events in between in order with indexes 0..n-1, the deltas up to each event add up to its cumulative time, and all deltas add up to the trace's duration.", "quantifier": "all static traces", "why_tests_cant": "quantifies over all event lists", "anchors": ["trcweb/render.go: renderEvents"]}
{"id": "C68", "title": "Stack trimming keeps the innermost frames", "statement": "TrimStacks(depth) leaves stacks unchanged for 0, removes them for a negative depth and otherwise keeps the first depth frames of each event; nothing else of the trace changes.", "quantifier": "all static traces and depths", "why_tests_cant": "quantifies over all traces and depths", "anchors": ["trace_static.go: TrimStacks"]}
{"id": "C69", "title": "The stream handler cleans up", "statement": "When the stream handler returns, its subscription has been removed; it never forwards events of its own trace; messages are forwarded in the order received.", "quantifier": "all interleavings of channel readiness", "why_tests_cant": "select picks any ready case", "anchors": ["trcweb/trace_server.go: handleStream"]}
{"id": "C70", "title": "The search handler always answers", "statement": "Every search request gets a response with the search's problems, also when the searcher fails.", "quantifier": "all requests, all searchers", "why_tests_cant": "needs a failing searcher", "anchors": ["trcweb/trace_server.go: handleSearch"]}
{"id": "C71", "title": "Remote search equals local search", "statement": "Searching through the HTTP client and server gives the same counts, traces, statistics and request as searching the collector directly.", "quantifier": "all collector contents, all requests", "why_tests_cant": "quantifies over all contents and requests", "anchors": ["trcweb/trace_server.go: SearchClient.Search, handleSearch"]}
{"id": "C72", "title": "Stream client settings are forced into range", "statement": "Before use the client's send buffer is forced into 0..100000 and its retry and stats intervals into 1s..60s (default when zero), the URI gets a scheme if it has none, and doing so twice changes nothing; the server uses the send buffer the client asked for.", "quantifier": "all settings", "why_tests_cant": "quantifies over all settings", "anchors": ["trcweb/trace_server.go: StreamClient.initialize, StreamClient.Stream, handleStream"]}
{"id": "C73", "title": "Durations are truncated safely", "statement": "TruncateDuration never increases a non-negative duration, never changes it by as much as its truncation unit, is monotone and idempotent, and leaves durations under a microsecond and negative ones unchanged.", "quantifier": "all 64-bit durations", "why_tests_cant": "2^64 inputs", "anchors": ["internal/trcutil/humanize.go: TruncateDuration"]}
{"id": "C74", "title": "Compact file:line is total and keeps the tail", "statement": "CompactFileLine never panics; its line part is what follows the first colon; its file part is the function's package path (if any) joined with the last two path elements of the file.", "quantifier": "all strings", "why_tests_cant": "quantifies over all strings", "anchors": ["trace.go: CompactFileLine, pkgPrefix, pathSuffix"]}
{"id": "C75", "title": "API calls never deadlock each other", "statement": "No set of goroutines calling collector, trace and broker methods can reach a state in which each of them waits for a lock another of them holds, provided that formatting an event's arguments does not call these methods.", "quantifier": "all numbers of goroutines, all programs of API calls, all interleavings", "why_tests_cant": "a deadlock needs a particular schedule", "anchors": ["collector.go", "broker.go", "trace_core.go", "internal/trcringbuf/ringbuffer.go"]}
{"id": "C76", "title": "SetMaxEvents works on the traces a program has", "statement": "trc.SetMaxEvents applied to a trace that a collector created sets the trace's event limit and reports success.", "quantifier": "all collectors, decorators and limits", "why_tests_cant": "the method is found by type assertion on whatever wrapper the collector's configuration produced", "anchors": ["helpers.go: SetMaxEvents", "decorators.go: publishTrace, logTrace", "trace_core.go: SetMaxEvents"]}
{"id": "C77", "title": "A search result is a snapshot", "statement": "The duration, finished and errored state and events in the copy of a trace that a search returns are those the trace had at one single moment during the search.", "quantifier": "all traces, all calls concurrent with the search", "why_tests_cant": "needs a call between two getters", "anchors": ["trace_static.go: NewSearchTrace", "collector.go: Search"]}
{"id": "C78", "title": "Publishing never panics", "statement": "Creating, logging to and finishing traces never panics because somebody has subscribed to the collector.", "quantifier": "all new-trace functions and decorators, all states of the trace", "why_tests_cant": "needs a subscriber, a custom new-trace function and an empty trace at the same time", "anchors": ["trace_static.go: NewStreamTrace", "broker.go: Publish", "decorators.go: publishDecorator"]}
{"id": "C79", "title": "Rates add up", "statement": "The trace and event rates of a category are its counts per second since its oldest trace, and never negative. Those that Overall reports are the sums of the rates that the categories report, and the rate of a category merged from several sources is the sum of the sources' rates.", "quantifier": "all statistics, all orders of map iteration, all readings of the clock", "why_tests_cant": "the cached rates make the result depend on who asked before; quantifies over all statistics and clock readings", "anchors": ["search_stats.go: TraceRate, EventRate, Merge, Overall"]}
{"id": "C80", "title": "Humanized durations can be read back", "statement": "The text that HumanizeDuration gives for a duration is read by time.ParseDuration as exactly TruncateDuration of it; so two durations have the same text exactly if they truncate to the same; from an hour on the text is hours and minutes only.", "quantifier": "all 64-bit durations", "why_tests_cant": "the space of durations is too large; cutting the suffix 0s could eat a digit of 10s, 20s, ...", "anchors": ["internal/trcutil/humanize.go: HumanizeDuration, TruncateDuration"]}
{"id": "C81", "title": "The stream client delivers what the server sends", "statement": "StreamClient.Stream hands the traces of the events it reads to the caller's channel in order and once each, all of them until its context is cancelled; it fails with a decoding error exactly at the first trace or statistics that do not decode, and reads no further; over any number of connections to trace servers it never fails so, and every trace handed over is one that such a server published and that satisfies the filter.", "quantifier": "all sequences of events and reconnections, all schedules of caller, receiver and goroutine", "why_tests_cant": "concurrent goroutines, unbounded streams", "anchors": ["trcweb/trace_server.go: StreamClient.Stream", "trcweb/trace_server.go: handleStream"]}
{"id": "C82", "title": "A stream client leaves nothing behind", "statement": "When StreamClient.Stream has returned, its connection is closed and the goroutine it started has ended or can end.", "quantifier": "all executions", "why_tests_cant": "a leak is not an observable result of a call", "anchors": ["trcweb/trace_server.go: StreamClient.Stream"]}
{"id": "C83", "title": "trc stream streams until told to stop, and cleans up", "statement": "For each URI, trc stream has at most one stream going on; it starts another one whenever one has ended and it has not been told to stop; told to stop, it can return whatever it is doing; when it has returned, all streams have returned with their contexts cancelled and the reporter has ended; with a positive stats interval it does not crash.", "quantifier": "all executions, all failures of the streams", "why_tests_cant": "needs particular failures at particular moments", "anchors": ["cmd/trc/stream.go: runStream"]}
{"id": "C84", "title": "trc stream shows only traces that satisfy its flags", "statement": "The filter that trc stream sends lets through exactly the traces that satisfy the filter flags given and, unless --events is given, are finished.", "quantifier": "all flags, all traces", "why_tests_cant": "quantifies over all combinations of flags and all traces", "anchors": ["cmd/trc/stream.go: Exec", "cmd/trc/main.go: exec", "filter.go: Allow"]}
{"id": "C85", "title": "trc search prints what its flags ask for", "statement": "trc search over any number of servers, some of them down, prints a result: the total count is the number of traces at the live servers; the traces are newest first, at most --limit, each held by a live server and satisfying the filter flags, with at most --stack-depth stack frames per event; each server that is down adds a problem and nothing else does but the flags themselves; the request and the statistics are printed if and only if asked for.", "quantifier": "all flags, all servers and what they hold, all orders of arrival", "why_tests_cant": "quantifies over all flags, servers and arrival orders", "anchors": ["cmd/trc/search.go: Exec", "cmd/trc/main.go: exec", "trcweb/trace_server.go: SearchClient.Search, handleSearch", "search.go: MultiSearcher.Search", "collector.go: Search"]}
{"id": "C86", "title": "A log decorator writes one line per call", "statement": "A trace decorated with LogDecorator writes one line when it is decorated (started, source and category), one line per logging call with its ID and the event's text (marked if it is an error), and one line per Finish, with whether an error had been logged before the first Finish and the trace's duration; in the order of the calls.", "quantifier": "all calls, arguments and interleavings with other users", "why_tests_cant": "quantifies over formats and arguments", "anchors": ["decorators.go: LogDecorator, logTrace"]}
{"id": "C87", "title": "Subscribers are told the end of a trace once", "statement": "About each trace of a collector that is finished while somebody is subscribed to everything with enough buffer, exactly one message says that it is finished; it is the last message about that trace.", "quantifier": "all calls by any goroutines, in all interleavings of their actions", "why_tests_cant": "concurrency; unbounded histories", "anchors": ["decorators.go: publishDecorator, publishTrace", "trace_static.go: NewStreamTrace", "internal/trcpubsub/broker.go: Publish"]}
{"id": "C88", "title": "A search that runs while traces come and go", "statement": "A search of a collector while other goroutines create traces and categories and change the category size succeeds. It counts each trace at most once, counts every trace that is retained from its beginning to its end, and none that was not retained at some time in between; what it returns are copies of counted traces that satisfy the filter, newest first and at most the limit, and if it returns fewer than the limit, it returns all of them.", "quantifier": "all interleavings of the search with any steps of other goroutines, all histories, all orders of map iteration", "why_tests_cant": "concurrency; needs particular interleavings between the walks", "anchors": ["collector.go: Search", "internal/trcringbuf/ringbuffer.go: GetAll, Walk, GetOrCreate, Resize, Add"]}
{"id": "C89", "title": "Links on the page ask for what they stand for", "statement": "Following a link in the summary of the HTML page asks for the page's sources, query, limit and buckets, in the row's category and with the column's condition. Following the link of a trace, of its JSON, of its source or of its category asks for that trace, or for the traces of that source or category.", "quantifier": "all requests, categories, sources, queries and durations", "why_tests_cant": "quantifies over all texts that occur in links, including those with characters that have a meaning in URLs", "anchors": ["trcweb/assets/traces.html: $query_params, $category_query_params, summary, metadata", "trcweb/render.go: SafeURL", "trcweb/util.go: parseFilter, parseBucketing"]}
{"id": "C90", "title": "Numbers on the page count what their links find", "statement": "In the summary of the HTML page there is a row for each category and one for all of them, and each number is how many traces its link finds.", "quantifier": "all traces, requests and orders of map iteration", "why_tests_cant": "quantifies over all collections of traces", "anchors": ["trcweb/assets/traces.html: summary", "search_stats.go: Observe, AllCategories, TotalCount", "filter.go: Allow"]}
{"id": "C91", "title": "Percentages on the page are percentages", "statement": "Every percentage in the summary of the HTML page is that of the count next to it in the row's total, rounded down, and between 0 and 100.", "quantifier": "all traces, requests and orders of map iteration", "why_tests_cant": "quantifies over all collections of traces", "anchors": ["trcweb/assets/traces.html: summary", "trcweb/render.go: PercentInt", "search_stats.go: TotalCount, AllCategories"]}
{"id": "C92", "title": "Event texts are shown as text", "statement": "The HTML page shows the text of each event as it is, whatever characters it has; event texts bring no markup into the page but opportunities for line breaks and the mark around what the query found.", "quantifier": "all event texts, all queries", "why_tests_cant": "quantifies over all texts", "anchors": ["trcweb/assets/traces.html: what, highlightQuery", "trcweb/render.go: HTMLEscape, InsertBreaks, breaksReplacer"]}
{"id": "C93", "title": "Submitting the search form unchanged repeats the search", "statement": "Submitting the search form of a page as it is asks for the same search as the page's: same filter, limit and buckets.", "quantifier": "all requests, all sources of the response", "why_tests_cant": "quantifies over all requests", "anchors": ["trcweb/assets/traces.html: search-form", "trcweb/util.go: parseFilter", "trcweb/trace_server.go: handleSearch"]}
{"id": "C94", "title": "trc stream prints each trace that it receives once, in order", "statement": "`trc stream` prints the traces that its servers send, those of each server in the order in which they arrive and each once; until it is told to stop nothing that arrived is left out, but for what is in its buffer and one trace per server on its way there. No server's stream stays stuck while output is written. When told to stop it can end whatever it is doing, all streams end, and at most the traces of its buffer are not printed.", "quantifier": "all numbers of servers, all buffer sizes, all interleavings of streams, writer, signal and interrupts", "why_tests_cant": "quantifies over all schedules of the command's goroutines", "anchors": ["cmd/trc/stream.go: Exec, runStreams, runStream, writeTraces", "trcweb/trace_server.go: StreamClient.Stream"]}
{"id": "C95", "title": "What a program logs is what a search finds", "statement": "A program creates a trace with `eztrc.New`, logs lines with `eztrc.Tracef`, `LazyTracef`, `Errorf` and `LazyErrorf` through contexts derived from the one returned, under any prefixes, and finishes the trace or not, with anything else going on in other goroutines. As long as it logs no more lines than the event limit, and fewer traces than the size of a category are created in its category afterwards, a search for the trace's ID returns that trace and no other, with its category, source, start, duration and outcome, and one event per line, in order, with the text of the prefixes and of the line, its time, and frames of the program only.", "quantifier": "all programs, lines, prefixes, interleavings with other goroutines, category sizes, requests for the ID", "why_tests_cant": "end-to-end statement over all programs and schedules", "anchors": ["eztrc/easy.go: New, Tracef, LazyTracef, Errorf, LazyErrorf", "helpers.go: Get, Prefix", "collector.go: NewTrace, Search", "trace_core.go: Tracef, Finish, Events"]}
{"id": "C96", "title": "Concurrent use is free of data races", "statement": "Calls of the API by any number of goroutines (creating, using and finishing traces, resizing, searching, streaming, publishing) never race, in the sense of the Go memory model: of two accesses to the same memory by different goroutines, at least one of them a write, one happens before the other.", "quantifier": "All programs of any number of goroutines making any calls on shared traces, collectors and brokers, all interleavings, all data, and all ways in which sync.Pool hands out objects.", "why_tests_cant": "The race detector only sees the interleavings that a test happens to run, and the recycling that sync.Pool happens to do.", "anchors": ["trace_core.go:72-126", "trace_core.go:153-425", "collector.go:106-196", "broker.go:24-109", "internal/trcringbuf/ringbuffer.go:1-246", "decorators.go:106-159", "helpers.go:111-132"]}
{"id": "C97", "title": "Searchers of a multi-search can share the request", "statement": "MultiSearcher.Search normalizes the request and then hands the same request to all searchers at once, each of which normalizes it again and evaluates its filter. Once a request has been normalized, none of this writes to the request or to its buckets any more, so the searchers do not race over it and all of them search for the same thing. DefaultBucketing, which all requests without buckets share, is never written, even by unrelated searches in parallel.", "quantifier": "All requests, all other requests that exist beside it (also ones that share its slice of buckets), any number of goroutines, and all interleavings of the statements of Normalize, Allow and of reading the request.", "why_tests_cant": "The accesses are harmless only because each write is guarded by a test that is false by then; a test sees that for the requests it makes, and the race detector for the interleavings it runs.", "anchors": ["search_types.go:34-61", "search_types.go:137-160", "filter.go:26-34", "filter.go:151-190", "collector.go:137-150"]}
{"id": "C98", "title": "trc stream prints what a program finished, from end to end", "statement": "A program creates a trace with NewTrace, logs to it from one goroutine at a time up to the event limit, and finishes it, while `trc stream` is subscribed to it over HTTP with some filter flags (without --active, and not --finished together with --events). Other traces, other goroutines, other URIs and other connections do anything meanwhile. Once everything has settled, and unless the server dropped a message about this trace or failed to encode one, the lines printed for this trace are: exactly one, the finished trace with its source, category and ID and all of its events in order, if it is what the flags ask for, and otherwise none. With --events there are also, before it and in order, a line for the start and one for each event that carries just this event, again those of them that the flags ask for.", "quantifier": "for all programs, flags, schedules of program, broker, handler, client and printer, buffer sizes, other traces and connections", "why_tests_cant": "The path goes through a publishing decorator, a broker, a handler with two goroutines, JSON, a client with its own goroutines, a channel and a printer. A test can follow one trace through one schedule of these.", "anchors": ["collector.go:117-135", "decorators.go:108-170", "broker.go:24-107", "trcweb/trace_server.go:228-362", "trcweb/trace_server.go:437-525", "cmd/trc/stream.go:38-208"]}
{"id": "C99", "title": "Trace IDs are distinct and sort by creation", "statement": "Creating a trace gives it an ID of 26 characters of Crockford's base 32, and never panics on account of the ID. The IDs of the traces of a process are all different, and as strings they sort in the order in which the traces were created: if New returned one trace before it was called for another, the first one has the smaller ID, also within a millisecond.", "quantifier": "for all numbers of traces and goroutines, interleavings, clock readings and random numbers", "why_tests_cant": "Random numbers near the end of their range, and goroutines that are interrupted between reading the clock and getting the ID just when the millisecond changes, do not show up in tests.", "anchors": ["trace_core.go:66", "trace_core.go:110-117", "trace_core.go:137-139", "trace_static.go:150-160"]}
{"id": "C100", "title": "trc asks every server it is given, once", "statement": "A server can be given to trc by host and port or by URL, with spaces around it. It is asked at that URL (by HTTP if no scheme is given), or, if --uri-path is given, at that path of the same host with the same query. Every server that is given is asked exactly once, however often it is given, and no other is; so the total count that trc search prints counts each server's traces once. If no server is given, or if one of the names is not blank and not a URL, the command fails without asking any server.", "quantifier": "For all lists of names, paths, schemes, hosts and queries, all behaviours of the servers and orders of their answers; for any check of the parts of a URL in net/url.", "why_tests_cant": "Tests use one or two URLs. That duplicates are removed before the names are normalized, and that the test for a scheme looks at four letters, shows only for particular pairs of names and hosts.", "anchors": ["cmd/trc/main.go:124-151", "cmd/trc/trc.go:39-44", "cmd/trc/search.go:46-97"]}
{"id": "C101", "title": "Rates and sizes on the page can be read", "statement": "The text that is shown for a rate or percentage (HumanizeFloat) or for a size (HumanizeBytes), read as a number with K for a thousand, KB for 1024 bytes and MB for 1048576 bytes, is the number to within half of the last digit shown; a larger number is never shown as a smaller one; 1M+ is shown exactly for rates above a million, and 0 exactly for rates of at most 0.05. The text of a rate has at most four characters.", "quantifier": "For all non-negative numbers, whatever the rounding of the floating point division within its precision; for all sizes below 2^53.", "why_tests_cant": "The formats change at 1, 1000, 10000, 100 KB and so on, and rounding within one format can reach the next; tests sample a few values.", "anchors": ["internal/trcutil/humanize.go:48-98", "trcweb/assets/traces.html:229-231", "trcweb/middleware.go:40"]}
{"id": "C102", "title": "The summary highlights what the page shows", "statement": "On the web page, the cells of the summary that stand for the traces that are shown are highlighted, and no others: the row of the category, the column of the condition (active, a minimum duration, errored), or the one cell where they meet; the last row, that of all traces, if there is no such condition, and nothing on the page of a single trace. In particular, after following the link of a cell, exactly that cell is highlighted, and after following that of a category's name, exactly its row.", "quantifier": "For all filters, categories, buckets and cells; any hash function that writes letters and digits and does not give the same to the two categories compared.", "why_tests_cant": "The highlighting happens in the browser by a CSS rule whose selector is made of a hash and of the text of a duration. Unit tests do not evaluate the style sheet, and whether the selector is well-formed depends on the duration.", "anchors": ["trcweb/render.go:247-269", "trcweb/assets/traces.html:11-32", "trcweb/assets/traces.html:127-231"]}
{"id": "C103", "title": "trc search prints what programs logged, from end to end", "statement": "`trc search` asks any number of servers, some of them down. Of all the traces that the live servers hold and that satisfy the flags, it prints the most recent --limit ones, each once: if there are no more than --limit, it prints all of them. In particular, if a program traced and logged with eztrc and its server is among those asked, then `trc search --id` prints exactly that trace, finished or not, with its source, category, start time, outcome and duration, and an event for each line that was logged, in order, with its text, time and at most --stack-depth frames of the program.", "quantifier": "For all programs, contexts, prefixes and decorators, everything else that goes on in the program meanwhile, all servers and what they hold, all flags and orders of arrival.", "why_tests_cant": "The way from a log line to the output leads through contexts, decorators, the trace, ring buffers, the search, JSON, HTTP, the merge of several answers and the command. Tests look at one piece at a time, with few traces and one server.", "anchors": ["eztrc/easy.go:50-113", "collector.go:117-196", "trcweb/trace_server.go:117-226", "trcweb/trace_server.go:366-424", "search.go:14-97", "cmd/trc/search.go:46-97"]}
{"id": "C104", "title": "The page is made from the embedded files unless a directory is set", "statement": "Unless TRC_ASSETS_DIR is set, the page of traces is made from the files embedded in the program, whatever is in the directory that the program happens to run in. If it is set, the files of that directory with the names of the embedded ones are used in their place. An answer in JSON never depends on such files.", "quantifier": "for all languages of templates, embedded files, contents of directories, orders of the templates, searches and requests", "why_tests_cant": "Tests run in the directory of the package, which has no files with these names, and one order of the templates; the claim is about every directory and order", "anchors": ["trcweb/render.go:27-60", "trcweb/render.go:105-168", "trcweb/assets/embed.go:6-9", "trcweb/trace_server.go:153"]}
{"id": "C105", "title": "Traces are made as their collector was last configured", "statement": "A trace made by a collector's NewTrace is what the function that the collector was last given (New, if it was created with none) returns for the source it was last given ('default', if it was created with none) and the collector's broker (one of its own, if it was created with none), wrapped by exactly the decorators that it was last given, the first innermost. Nothing else that the program does, to this or to other collectors, has an influence; later settings do not change traces made before; and in a context that has a trace none is made.", "quantifier": "for all programs that create and configure any number of collectors and make traces in any order, all decorators and new trace functions", "why_tests_cant": "Tests configure one collector once; what remains of settings of earlier calls, of other collectors or of shared arrays shows up only in longer sequences of calls", "anchors": ["collector.go:13-100", "collector.go:117-135", "trace_core.go:92-98", "broker.go:16-20"]}
{"id": "C106", "title": "The age shown beside a trace is its age", "statement": "The page shows beside the start of a trace how long ago that was, in days and hours, hours and minutes, minutes and seconds, seconds, or milliseconds. Read back, this is the time since the trace started, by the clock of the browser, rounded down to the last unit shown. It never becomes less as time passes, and a trace that started later is not shown as older. A trace is shown as fresh only if it did not start before now.", "quantifier": "for all start times, to the nanosecond, and all readings of the browser's clock", "why_tests_cant": "The function runs in the browser, on a time that was written into the page with less precision than it had; no unit test runs it", "anchors": ["trcweb/assets/traces.html:49-76", "trcweb/assets/traces.html:429", "trcweb/render.go:213"]}
{"id": "C107", "title": "A trace server put together from its fields serves what the fields say", "statement": "A TraceServer, made by NewTraceServer or as a literal with some of its fields set, serves any number of requests at the same time. Each search is answered by its Searcher, or by its Collector if there is no Searcher; each stream by its Streamer, or by its Collector if there is no Streamer, whatever came before and whatever is served at the same time. The requests do not race, and no request ends the program.", "quantifier": "for all servers, all numbers of requests of all kinds and all interleavings of them", "why_tests_cant": "Tests serve one request at a time from NewTraceServer; a race of first requests needs a literal, concurrency and luck, and a crash of the program is not something a test survives", "anchors": ["trcweb/trace_server.go:42-83", "trcweb/trace_server.go:138", "trcweb/trace_server.go:245-249", "trcweb/trace_server.go:272-276", "_examples/trc-complex/main.go:79"]}
{"id": "C108", "title": "A multi-search waits for each of its searchers, and for nothing else", "statement": "A search by a MultiSearcher returns once each of its searchers has returned, in whatever order they do, and takes each answer into account once. It returns in a bounded number of steps from then on, however the goroutines are scheduled. A searcher that has returned never has to wait for the caller or for others, so that none of the goroutines of a search outlives its searcher; when the search has returned, none is left. (A searcher that does not return keeps the search from returning, even if the context is cancelled; one that panics ends the program.)", "quantifier": "for all numbers of searchers, all times at which they return and whatever they return, all schedules of the goroutines, and contexts cancelled at any time", "why_tests_cant": "Tests have a few searchers that return at once; blocked or leaked goroutines depend on the capacity of a channel and on the schedule", "anchors": ["search_types.go:134-195"]}
{"id": "C109", "title": "The exit status of trc says whether it did what it was asked to do", "statement": "trc exits with status 0 if it did what it was asked to do: print help, print the result of a search, or stream until it is interrupted. If it is misused, with flags that do not exist, without a valid URI, or without a command, it prints help and what is wrong, asks no server, and exits with status 1. If a command fails, it prints the error, but no help, and exits with status 1; a search that could not be done, as no server has answered, has failed. Each of the log levels listed in the help is accepted, and each shows what the ones before it show.", "quantifier": "for all arguments, URIs, servers and failures of commands", "why_tests_cant": "The program is not tested; which of many errors end up in which of the branches of exec and main is not seen in one run", "anchors": ["cmd/trc/main.go:21-37", "cmd/trc/main.go:87-178", "cmd/trc/search.go:46-97", "cmd/trc/trc.go:43"]}
{"id": "C110", "title": "A request served through the middleware is found by trc, with its request line, headers, lines, status and size", "statement": "If a handler is wrapped with trcweb.Middleware, with the NewTrace method of a collector as constructor, and serves a request whose context has no trace, then from the time the handler is called, and until the collector has got as many newer traces in that category as it keeps, trc search --id with the ID of the request's trace prints that trace and nothing else. Its first event is the remote address, method and URL of the request; then come the headers User-Agent, Accept and Content-Type, those that it has; then the lines that the handler has logged so far, through contexts derived from the one of the request, with their prefixes. Once the handler has returned or panicked, the trace is finished and its last event has the status and size of the response as written through the interceptor; if the handler sets the status, if it does at all, before it writes, does not answer a HEAD request, and returns, these are the status and size that the client receives.", "quantifier": "for all requests, handlers and what they log and write, whether they return or panic, all decorators of the collector that keep the trace, everything that other goroutines do meanwhile, all servers given to trc, and all flags besides the ID", "why_tests_cant": "Tests of the middleware look at one trace in one process; that nothing is lost or mixed up on the way through decorators, buffers, search, the wire and the merge of many servers, at any time of the request, is not something examples show", "anchors": ["trcweb/middleware.go:19-98", "eztrc/easy.go:46-48", "collector.go:117-134", "cmd/trc/search.go:46-97"]}
{"id": "C111", "title": "Every answer can be shown as a page", "statement": "A trace server with a collector answers every search request that it can read with status 200: the HTML page can be rendered whatever the URL or body asks for, whatever the collector holds, and for every iteration order of the maps. The same holds for a trace server with any network of collectors, multi-searchers and clients of other such servers, some of which are down.", "quantifier": "for all requests by URL or JSON body, all contents of the collectors, all networks of searchers and servers, all orders in which answers arrive and in which maps are iterated", "why_tests_cant": "Whether the template executes depends on the numbers of buckets in the request, in the request as changed by each searcher, and in every category of the merged statistics; tests render a few pages", "anchors": ["trcweb/trace_server.go:105-154", "trcweb/render.go:58-93", "trcweb/assets/traces.html:166-209", "search_types.go:34-61", "search_types.go:137-227", "search_stats.go:79-130"]}
{"id": "C112", "title": "What a collector keeps in memory is bounded", "statement": "However long a program runs, a collector keeps a bounded number of traces and of events: at most the configured number of traces for each category, and at most the configured number of events for each trace, never above 10000. Apart from calls that are in progress it refers to no other traces. Clients of a program whose requests are traced by the middleware cannot make it keep more than that, so categories that are no longer used do not take up memory forever.", "quantifier": "for all programs, category sizes, event limits, and sequences of any length of creations, calls, resizes, drops and garbage collections", "why_tests_cant": "Growth shows after days of traffic with ever new categories; a test has a few categories and ends", "anchors": ["internal/trcringbuf/ringbuffer.go:187-246", "collector.go:102-134", "trace_core.go:30-47", "trace_core.go:286-317", "trcweb/middleware.go:19-25", "README.md:26-28"]}
{"id": "C113", "title": "A client gets the same answer from a handler behind the middleware", "statement": "Wrapping a handler with trcweb.Middleware changes nothing for its clients: whatever the handler does with its response writer, depending on what the calls return and on what the writer can do, the same status, headers, bytes, flushes and panics reach the writer that the server has given to the middleware, and the handler sees the same results.", "quantifier": "for all response writers, all handlers as programs that react to the results of their calls, and all points of time of their runs", "why_tests_cant": "Tests wrap handlers that write a status and a body; which optional interfaces of a writer a handler, or a function of net/http on its behalf, asks for is different for each handler", "anchors": ["trcweb/middleware.go:19-98"]}
{"id": "C114", "title": "Looking at traces does not change them", "statement": "Take any program that creates, logs to, finishes, collects and drops traces, and looks at them (EventsDetail, as called by searches and streams) whenever and however often it likes. Without the looks, every category holds the same traces with the same state, and a later look at any trace the collector holds shows the same events: number, times, stacks and error marks. Texts are the same, too, provided that the arguments of lazy events are left alone. Otherwise a lazy event shows what its arguments were when someone first looked.", "quantifier": "all programs (creations, log calls, finishes, reads, collector operations, frees, garbage collection, in any order), all category sizes, all pooled objects chosen, all later reads; two runs are compared", "why_tests_cant": "A test would compare one program with and without searches. That no sequence of reads, on recycled objects, with truncation and concurrent resizes, leaves a mark, is a statement about pairs of runs.", "anchors": ["trace_core.go:262-284", "trace_core.go:376-424", "trace_core.go:484-504"]}
{"id": "C115", "title": "The events of a trace are shown between its start and its end", "statement": "On the page of a trace the events are shown in the order of time from its start to its end: no event is shown to have taken a negative time, none is before the start or after the end, each event's share of the duration, as given by its bar, is between 0 and 100 %, and together they are 100 %; the elements of the timeline are whole numbers from 1 to 100 that differ from the shares by at most one.", "quantifier": "all histories of a trace, with all limits, all calls of other goroutines while a search copies it, clocks that never go back, traces of the server and of other servers", "why_tests_cant": "The order depends on when the copy reads the duration and when it reads the events, and on the time given to the notice about truncated events, which is the time of the search; tests render traces that were put together by hand.", "anchors": ["trcweb/render.go:307-370", "trcweb/assets/traces.html:415-466", "trace_static.go:24-35", "trace_core.go:262-284"]}
{"id": "C116", "title": "What is found in a logging trace is in the log already", "statement": "When traces are decorated to log (LogDecorator, LoggerDecorator), then whatever a search or a subscriber finds of a trace has been written to the log before it is found: each event of the trace has a line of its own with the trace's ID, a mark for errors and the event's text as it is found; so a log that was kept has what was seen of a program that then crashed. The lines are in the order of the events.", "quantifier": "all goroutines logging through the trace or traces derived from it by prefixes, regions and further decorators, other traces with the same destination, all interleavings, stopped at any moment, all limits and finishes", "why_tests_cant": "A test logs from one goroutine and compares the log with the trace at the end; that no interleaving makes an event visible before its line is a statement about all prefixes of all executions, and with lazily formatted arguments the log and the trace are formatted at different times.", "anchors": ["decorators.go:26-103", "helpers.go:94-132", "trace_core.go:164-230"]}
{"id": "C117", "title": "What a query found is marked on the page", "statement": "On the page of results for a query, the searchable texts of every trace listed (texts of events, functions and files of their stacks) are shown as they are, the first match of the query in each of them is marked, and nothing else is: a trace that is on the page because it matches the query has a mark that says where.", "quantifier": "for all traces, queries, regular expressions of the server and of the browser that agree on the query, and stack depths", "why_tests_cant": "The marking is done by a script in the browser on what the server rendered; tests would need a browser and would try a few texts, and it depends on which characters the texts and queries have.", "anchors": ["trcweb/assets/traces.html:78-92", "trcweb/assets/traces.html:431-453", "trcweb/render.go:176-179", "trcweb/render.go:240-245", "filter.go:151-169"]}
{"id": "C118", "title": "Subscribers of a broker do not affect each other", "statement": "What happens to some subscribers of a broker (who is refused, which traces are put into their channels, dropped or skipped, what they receive, and the statistics they are given) is what could happen if there were no others; and whatever could happen to them alone, can happen while others subscribe, leave, receive or stop receiving in any way, as long as the same traces are published.", "quantifier": "for all executions with any number of subscribers, goroutines and publishes, all splits of the channels into two parts, and all interleavings of what happens to the parts", "why_tests_cant": "Compares executions with different subscribers; tests can compare single runs only, and cannot show that every behaviour with others is one without them.", "anchors": ["broker.go:23-50", "broker.go:52-107"]}
{"id": "C119", "title": "Functions that make traces can call each other", "statement": "A function that begins with ctx, tr := c.NewTrace(ctx, category); defer tr.Finish(), as a handler in Middleware does, may be called with a context that has a trace already. Everything logged in the outer function until it returns, before and after such calls, under any regions and prefixes, is an event of the outer trace, which is finished when the outer function returns, and not before. (False: NewTrace gives the inner function the outer trace, and its Finish ends it. Proved is which events there are exactly: those before the first return of a function that made a trace; and that all are there if nothing is logged after such a return, in particular if regions are made instead.)", "quantifier": "for all programs made of logging calls, traced functions, regions and prefixes, nested to any depth, all interleavings with other goroutines, all settings, decorators and later searches", "why_tests_cant": "The number of programs and nestings is unbounded, and a test of one nesting sees the annotation but needs to look for what is missing.", "anchors": ["collector.go:114-134", "helpers.go:54-109", "trace_core.go:232-242", "trcweb/middleware.go:23-52", "doc.go:9-13"]}
{"id": "C120", "title": "An event is highlighted while the pointer is on it", "statement": "On the page, the row of an event, its bar, its part of the timeline and the timeline of its trace are highlighted exactly while the pointer is on the row of that event, however the pointer got there, moves within the row or leaves it, and whatever is clicked or typed meanwhile; no other trace is affected if each trace is on the page once (copies of the same trace are highlighted together).", "quantifier": "for all pages, all sequences of pointer movements, clicks and keys, over any number of page loads", "why_tests_cant": "The scripts toggle a class on each mouseover and mouseout, which is right only if they alternate in every sequence of movements; tests try a few movements.", "anchors": ["trcweb/assets/traces.html:361-371", "trcweb/assets/traces.html:415-465"]}
{"id": "C121", "title": "Stacks and debug information are shown as asked for", "statement": "On the page, a click on an event opens or closes its stack; the ≡ of a trace and the key S open all stacks of the trace or of the page if all were closed, and close them otherwise, leaving other traces alone; after any sequence of these, each stack is as the last of them and the clicks since then say. What is typed into the search box, which has the focus at first, is not taken for such commands; Escape leaves it and the slash returns to it. The debug information is shown if and only if it was asked for, or clicked on, an odd number of times in the session.", "quantifier": "for all pages and all sequences of clicks, keys, changes of focus and page loads", "why_tests_cant": "The state after unboundedly many actions depends on all of them; tests try short sequences.", "anchors": ["trcweb/assets/traces.html:39-47", "trcweb/assets/traces.html:484-503", "trcweb/assets/traces.html:513-567"]}
{"id": "C122", "title": "The debug information on the page adds up", "statement": "In each line of the debug information on the page (core traces, core events, stringers), at most as many objects were allocated as requested, at most as many freed and lost as requested, LOST counts the objects that went out of use without being freed, and REUSE is the percentage of the requests that were served with an object used before. (Holds when nothing happens while the counters are loaded and something was requested, except: LOST of events and stringers is always 0, also when their trace is lost; REUSE is the percentage of requests that were freed, which is at least the percentage served by reuse, and equal only if the pool is empty and nothing was collected from it; it is NaN before the first request, and with traces made during the loads it can exceed 100.)", "quantifier": "for all executions of a program with a collector: any interleaving of new traces, logging, drops, frees, resizes, garbage collections of the pools, and all choices of the pools", "why_tests_cant": "The counters depend on every pool decision of the run; the pools hand out objects nondeterministically, and tests see one run.", "anchors": ["trcweb/render.go:271-299", "internal/trcdebug/counters.go:5-43", "trace_core.go:104-125", "trace_core.go:303-330", "trace_core.go:346-409", "trace_core.go:446-510"]}
{"id": "C123", "title": "What a program logs is what its page shows", "statement": "When a program logs with eztrc and its collector is served by eztrc.Handler or trcweb.NewTraceServer, following the link of one of its traces, in any browser that accepts HTML, gives a page with exactly that trace: its source, category, whether it is errored and finished and its duration, and one row for each line that was logged, in order, with its number, its time, whether it is an error, the time since the start, the frames of the program at the call, and its text under the prefixes of the context, in which no tag other than wbr occurs.", "quantifier": "for all programs of logging calls, regions and prefixes in any number of goroutines and traces, all configurations within the limits, all regular identifiers (such as those of the library), and all moments at which the link is followed", "why_tests_cant": "It is a statement about the composition of everything between the call of Tracef and the browser, for every program; a test sees one page.", "anchors": ["eztrc/easy.go:35-142", "collector.go:137-196", "trcweb/trace_server.go:105-154", "trcweb/render.go:27-93", "trcweb/render.go:314-358", "trcweb/assets/traces.html:380-475"]}
{"id": "C124", "title": "The times beside the events are right and agree with the durations", "statement": "The time beside each row of a trace on the page is the time of its event to the microsecond; the times beside two rows differ by as much as the durations since the start that are shown with them, up to a microsecond, and are in their order. (False over midnight, as the date is not shown, and if the wall clock was set while the trace was active, as durations are taken from the monotonic clock, and the time of the last row is computed from the start; holds otherwise.)", "quantifier": "for all traces, all readings of the wall clock and of the monotonic clock", "why_tests_cant": "Depends on two clocks that can do anything; tests take the clock of the machine, which is not set while they run.", "anchors": ["trcweb/render.go:174", "trcweb/render.go:212", "trcweb/render.go:314-358", "trcweb/assets/traces.html:419-426"]}
{"id": "C125", "title": "Links to source code lead to the source code", "statement": "By default no frame on the page is a link. With SetSourceLinkFunc, exactly those frames are links for which the function that was set last has an URL, and the link that the browser follows means what the URL means, part by part, whatever is in it. With SourceLinkVSCode, the link opens the file of the frame at its line. (The last holds if and only if the path has no ?, no # and no % followed by two hexadecimal digits; and nil as a function is not the default, but makes pages with stacks fail.)", "quantifier": "for all functions, sequences of calls of SetSourceLinkFunc, stacks, and names of files", "why_tests_cant": "Quantifies over all names of files and all URLs; tests use ordinary names.", "anchors": ["trcweb/render.go:184-203", "trcweb/assets/traces.html:437-452"]}
{"id": "C126", "title": "What trc prints can be read", "statement": "What `trc stream` and `trc search` print is JSON that is read as the traces and the response they printed: with `-o ndjson` there is one line for each trace, and whenever the program is stopped, even in the middle of a line, the lines that have an end are the first of the printed traces, in order; with `-o prettyjson` the output is a sequence of JSON values that are the same traces; whatever characters names, texts and stacks have; times are read to the nanosecond and durations exactly; the output of a search is read as the response, and its `traces` is always an array", "quantifier": "all traces and responses with times from year 1 to year 9999, all strings, both formats, all points at which the output is cut, all runs of trc stream", "why_tests_cant": "a test prints some traces and parses them; it cannot try all strings, all times and all points at which the output may be cut", "anchors": ["cmd/trc/stream.go:183-209", "cmd/trc/search.go:32-47", "trace_static.go:8-19", "trace.go:92-103", "search_types.go:115-124", "search_types.go:162-183"]}
{"id": "C127", "title": "Any reader of server-sent events can read the stream", "statement": "What a trace server writes to a streaming client is a well-formed event stream. Wherever it is cut, a reader that follows the HTML standard finds the first of the events that the handler wrote, in order and complete, and all of them if it is not cut: each with its type, and with data that is read as the filter and buffer size, the counts, or the trace that was sent. A stream client that reads such text never fails to decode it, and hands over just the traces in it.", "quantifier": "for every filter, every statistics, every trace with any texts (line breaks, quotation marks, control characters), every sequence of them, every execution of the server and every point at which the text ends, over any number of connections", "why_tests_cant": "Line breaks or carriage returns in texts would break the framing, and a connection may end at any byte; tests try some texts and no cuts.", "anchors": ["trcweb/trace_server.go:handleStream", "trcweb/trace_server.go:StreamClient.Stream", "trace_static.go:StaticTrace"]}
{"id": "C128", "title": "The numbers above the traces are right for any network of programs", "statement": "On the page of a server, whatever collectors, multi-searchers and other servers it searches and whichever of them are down, for a request for buckets that are not negative: total is the number of traces that the reached programs retain, and also the total of the last row of the summary (if no clock was set back); matched is the number of these that match, counting of each category of each program no more than the limit; shown is the lesser of matched and the limit, and the number of traces below it; 'No matching traces found.' is said if and only if no reached trace matches; the sources are the reached programs, each once and in order; and the number of problems is the number of invalid parts of the request and of servers that failed, plus one if there are a hundred categories or more.", "quantifier": "for all networks of collectors, multi-searchers and servers of any depth, all contents of the collectors (also while traces change), all answers' orders of arrival and map iteration orders, all requests with buckets that are not negative", "why_tests_cant": "Tests render a page for one collector and look for fragments; that sums, cuts and failures add up through every depth of servers and multi-searchers quantifies over all networks.", "anchors": ["trcweb/assets/traces.html:314-355", "trcweb/assets/traces.html:376-378", "search_types.go:137-227", "collector.go:137-196", "trcweb/trace_server.go:105-154"]}
{"id": "C129", "title": "The traces in an answer are right for any network of programs", "statement": "A server answers every readable request for buckets that are not negative, as a page or as JSON, whatever collectors, multi-searchers and other servers it searches and whichever of them are down. The traces in the answer are among those that the reached programs retain and that satisfy the filter, each as it was and with stacks as deep as asked for, and none more often than it is retained. If these are no more than the limit, all of them are there; else there are as many as the limit. If no clock was set and each program added the traces of a category in the order in which they began, they are the most recent of all that match in the whole network, newest first.", "quantifier": "for all networks of collectors, multi-searchers and servers of any depth, all contents of the collectors (also while traces change), all clocks of the programs, all orders of arrival, all requests with buckets that are not negative", "why_tests_cant": "Tests search one collector or two collectors directly; that cutting in every collector, every server and every multi-searcher loses none of the most recent, whatever the depth, quantifies over all networks.", "anchors": ["search_types.go:137-227", "collector.go:137-196", "trace_static.go:146-159", "trcweb/trace_server.go:105-154", "trcweb/trace_server.go:179-222"]}
{"id": "C130", "title": "Collectors of one program share memory but never traces", "statement": "A program may have several collectors; they take trace objects from the same pools. In every state of every program: each trace in a category of a collector was created by NewTrace on that very collector for that very category and has the ID, source and start given there, whichever collector used its object before; no object is in two collectors; and whatever the program does with its other collectors (new traces, resizes, drops and frees), a collector that is left alone keeps all its traces in their places, and each of its traces that is left alone reads exactly as before.", "quantifier": "all programs with any number of collectors of any sizes, all interleavings of their steps, all choices of pooled objects", "why_tests_cant": "Tests make one collector, or several that never fill; an object that goes from one collector to another while both are in use needs particular interleavings of drops, frees and pool choices.", "anchors": ["collector.go:56-135", "trace_core.go:86-128", "trace_core.go:302-325", "internal/trcringbuf/ringbuffer.go:150-246"]}
{"id": "C131", "title": "Searching and publishing traces of any type leaves them as they are", "statement": "Trace is an interface, so a program can let a collector make traces of its own type (SetNewTrace), and can publish any trace to a broker, such as a static trace from a search response. Finding such a trace by a search, or publishing it, does not change what the trace shows, nor what earlier answers show, whatever stack depth the search asks for. What the search finds are its events with stacks as deep as asked for; what subscribers get is its last event while it is active and all of its events once it is finished, without stacks.", "quantifier": "all types, given by whether Events returns a copy or the trace's own slice and whether there is EventsDetail, all traces and events, all sequences of searches, publications and trims on any traces and on the copies made by earlier ones, all arrays shared between them", "why_tests_cant": "It is about memory shared between a trace and its copies, over all sequences of operations; the tests only use the traces of the package, which make copies.", "anchors": ["trace_static.go: NewSearchTrace, NewStreamTrace, TrimStacks, Events", "collector.go:168", "broker.go: Publish", "trace.go: Trace"]}
{"id": "C132", "title": "trc stream runs with any values of its flags", "statement": "Whatever numbers and durations are given to --send-buffer, --recv-buffer, --stats-interval and --retry-interval, trc stream runs until it gets a signal and then ends; it does not panic.", "quantifier": "all values of the flags, all numbers of URIs, all interleavings of the streams, reporters, writer and signals, all limits on the size of a channel", "why_tests_cant": "It is about all values and schedules; the panics are in the runtime and in a goroutine of a stream, and there are no tests of the command.", "anchors": ["cmd/trc/stream.go: register, Exec, runStream"]}
{"id": "C133", "title": "The trace of a request tells what was searched, and how it went", "statement": "Search of a Collector, a SearchClient or a MultiSearcher logs to the trace in its context. Afterwards that trace has, whatever else is logged to it meanwhile, exactly these lines: for a collector or a client, where it looked and the total, matched and returned counts, or the error as an error event; for a multi-search, how many members were asked, the lines of each member marked with its number and in order, a line for each member that did not succeed, and last the counts of the whole answer, added up and limited. The trace is errored if and only if some client failed (or someone else logged an error), also if the whole search succeeds.", "quantifier": "all trees of searchers and outcomes, limits, interleavings of the member goroutines, other lines logged meanwhile, and executions around them", "why_tests_cant": "the lines are logged from many goroutines in any order through nested prefixes; tests see one order and do not compare the texts", "anchors": ["collector.go:137-195", "search_types.go:133-235", "trcweb/trace_server.go:179-222"]}
{"id": "C134", "title": "Clients make their requests through the HTTP client that they are given", "statement": "A SearchClient or StreamClient makes all its requests through the HTTPClient it was given. A search makes one request, a GET of the URI with the encoded search request as its body; if there is a response it is read to its end and closed, once, whatever its status and content, so that the connection can be used again; the search succeeds if and only if the status is 200 and the response decodes, and the trace of the context gets one line with the outcome.", "quantifier": "all clients, search requests, responses in any chunks with any ending, JSON decoders that read ahead in any way, network errors, streams with any number of reconnects", "why_tests_cant": "that something is never done (a request through another client, a body left open on some path) cannot be observed by a finite set of tests; the tests use the default client", "anchors": ["trcweb/trace_server.go:155-222", "trcweb/trace_server.go:364-396", "trcweb/trace_server.go:436-524"]}
{"id": "C135", "title": "A stream client reports all that it receives", "statement": "StreamClient.Stream calls OnRead for every event it reads, once and in order, with its type and data, and before it does anything about the event. The trace of the context has the data of each init event, the numbers of each stats event and the type of each unknown event, and last, if Stream returns an error, that error; nothing else. A trace is delivered after OnRead was called for its event and before it is called for the next.", "quantifier": "all sequences of events and errors, all moments of cancelation, all interleavings with reconnects", "why_tests_cant": "the order of calls over unbounded sequences of events with errors and cancelation at any moment", "anchors": ["trcweb/trace_server.go:436-524", "broker.go:123-126"]}
{"id": "C136", "title": "Streams that watch a server do not keep each other busy", "statement": "Requests for streams are traced like other requests, and so what the stream handler logs is published to the streams. Still, what is published by any number of stream requests on one collector is limited by what others publish, by the ticks of the statistics, and by a constant for each stream: a stream is not busy with reporting itself, and streams do not feed each other.", "quantifier": "Any number of streams, any filters and buffer sizes, any interleaving of the handlers, their goroutines and publishers; writes that succeed or fail in any way.", "why_tests_cant": "A loop between handlers needs several concurrent streams, connections which fail for writes but are not closed, and a particular interleaving; a test of one stream terminates and passes.", "anchors": ["trcweb/trace_server.go:225-362", "broker.go:22-49", "trcweb/middleware.go:20-120"]}
{"id": "C137", "title": "With --log trace, trc search tells what each server answered", "statement": "With --log trace (or t), `trc search` prints on standard error, each as a record of its own that is marked [TRACE] and has the ID of its trace: that it has started; how many servers it asks; for each server, with its number and URI, how many traces it has, how many match and how many it returns, or, marked as an error, why it failed; that all have answered; the numbers of the search as a whole; and finally that it is done, as errored if and only if a server has failed, and after how long. Nothing is lost or mixed up though the servers are asked concurrently. At all other levels none of this is printed.", "quantifier": "Any number of servers, any answers and errors, all interleavings of the goroutines, all log levels.", "why_tests_cant": "The lines come from goroutines that run concurrently, through the context, a prefix, a decorator and a logger; a test sees one order.", "anchors": ["cmd/trc/trc.go:58-63", "cmd/trc/util.go:20-25", "cmd/trc/search.go:46-97", "cmd/trc/main.go:104-121", "search_types.go:133-210", "trcweb/trace_server.go:179-222", "decorators.go:26-96"]}
{"id": "C138", "title": "The printed form of a search request tells what is asked", "statement": "SearchRequest.String is what the trace of a request to the server tells of the search. Two requests print the same only if they ask for the same: the same buckets, the same limit and stack depth, and filters that select the same traces.", "quantifier": "all pairs of search requests whose bucket bounds are 64-bit durations: any filters, limits, stack depths, default buckets or not", "why_tests_cant": "injectivity of a printed form is a statement about all pairs of requests; a test prints a handful of requests, each against a fixed text", "anchors": ["search_types.go:64-84", "filter.go:37-84", "trcweb/trace_server.go:136"]}
{"id": "C139", "title": "The duration of a streamed trace is told in three ways that agree", "statement": "A trace that is streamed tells its duration as `duration`, `duration_str` and `duration_sec`, and `trc stream` prints all three. ParseDuration reads `duration_str` as the duration, exactly; `duration_sec`, a floating-point number, is left out just if the duration is zero, differs from the duration by no more than one part in 2^51, and has the same order as the duration; for durations of less than thirteen days the nearest number of nanoseconds is the duration.", "quantifier": "all 64-bit durations, negative ones included; both output formats; any rounding that never changes an order, keeps integers up to 2^53 and has a relative error of at most 2^-53", "why_tests_cant": "the rounding errors of two divisions and a sum over 2^64 durations; a test compares a few durations for which the seconds happen to be exact", "anchors": ["trace_static.go:13-15", "trace_static.go:64-76", "cmd/trc/stream.go:183-209"]}
{"id": "C140", "title": "The trace of a request to the search handler tells the search and how it was answered", "statement": "A search handler gets a request whose context has a trace, as it does behind the HTTP middleware. The trace then tells, after what others have logged before: the request as it is after normalization, in its printed form; all that is to be said about the search, with its outcome last; and how the response was rendered: the size of the JSON document or of the page, with the local files used for it, or what has failed. If the request cannot be decoded, the trace tells why and nothing else. The trace is marked as errored if and only if the response has a status other than 200, or a client that was searched has failed, or someone else has logged an error.", "quantifier": "all requests, searchers (collectors, clients, nested multi-searchers, searchers of other types), schedules of the search, outcomes of parsing, looking up and executing templates and of encoding JSON, and all lines that others log before and after", "why_tests_cant": "The lines come from four packages and partly from goroutines that run at the same time, and most of them are formatted lazily; a test sees the lines of one search and one way of rendering, and does not see which of the failures mark the trace.", "anchors": ["trcweb/trace_server.go:105-154", "trcweb/render.go:27-168", "helpers.go:72-87", "search_types.go:64-84"]}
{"id": "C141", "title": "A request for a stream is served what it asks for, or refused", "statement": "A request for a stream is answered with a stream of exactly the traces that satisfy the filter in the request, whether the filter is in the URL, as the package's client sends it, or a JSON body. A request whose filter is not usable - a query that is no valid expression, a body that is too large, malformed or mistyped, a minimum duration that is no duration - is refused with a response that tells why.", "quantifier": "for all filters, URLs, JSON bodies and their sizes, and all regexp compilers", "why_tests_cant": "Tests send a few well-formed filters; that every filter survives either transport, and that no unusable request silently becomes a stream of everything, is a statement about all requests.", "anchors": ["trcweb/trace_server.go:228-267", "trcweb/util.go:11", "trcweb/util.go:45-87", "filter.go:12-45"]}
{"id": "C142", "title": "The trace of a stream tells what is streamed and how the stream has ended", "statement": "Who looks at the trace of a request for a stream sees what was asked for: the filter, whether complete traces or events are streamed, the interval of the statistics and the send buffer. Once the handler has returned, the trace also tells the statistics as they were sent to the client, everything that has failed, why the handler has stopped, and the statistics of the whole stream, which account exactly for what was published while it was subscribed. The trace is marked as errored exactly if something has failed or the filter could not be decoded.", "quantifier": "for all requests, filters, interleavings of the handler's two goroutines with arbitrary other users of the broker, all failures of the encoder and all ends of the request", "why_tests_cant": "Tests do not look at the handler's own trace, and the lines of two goroutines that end at any time, with failures in between, come in more orders than can be tried.", "anchors": ["trcweb/trace_server.go:228-363", "broker.go:60-126"]}
{"id": "C143", "title": "The debug log of trc stream tells which servers are heard from", "statement": "With --log debug, trc stream tells of every server when a stream from it begins, and each time a stream from it has ended and with what error; while it runs it looks at every stats interval whether anything has arrived from the server, and says that nothing has arrived so far, or how long ago something arrived if that is more than two intervals. Nothing else is reported as silence: a server that sends statistics as often as it is asked to is never reported silent. After it says that a server is stopped nothing more is said about it.", "quantifier": "for all stats intervals, everything that servers send or fail to send at any time, all interleavings of runStream, its reporter and the streams, and tickers that are late", "why_tests_cant": "Tests wait for a few ticks; which lines can be written depends on the relation of the interval asked for, the interval used, the arrival times and the order in which goroutines end.", "anchors": ["cmd/trc/stream.go:114-181", "trcweb/trace_server.go:389-423", "trcweb/trace_server.go:481-524"]}
{"id": "C144", "title": "The link of a trace leads to the trace", "statement": "Whoever follows the link that a page has for a trace, on whatever server of a network of programs the page was made, gets that trace from the program that holds it, with all its events and stacks, and no other trace; if no program holds it any more, no trace. The link to its JSON gives the same as JSON, also in a browser.", "quantifier": "for all networks of collectors, multi-searchers and servers, some of which may be down, all IDs that NewTrace makes, all contents, all content negotiation headers", "why_tests_cant": "A test follows one link on one server with one collector. That no ID needs escaping, that no server on the way narrows, truncates or trims what is asked for, and that an ID finds nothing else, holds for all of them only by proof.", "anchors": ["trcweb/assets/traces.html:389-393", "trcweb/trace_server.go:105-154", "trcweb/util.go:45-58", "filter.go:85-169", "trace_core.go:116"]}
{"id": "C145", "title": "The debug log of trc search tells what is asked and what is printed", "statement": "With --log debug, trc search tells which servers it asks, with what filter, limit and stack depth, and of the result how many and which sources there are, how many traces there are in total, how many match and how many are printed, and whether the request and the statistics are left out. All of this agrees with the request that the servers get, which is printed with --include-request, and with the output; at other levels nothing of it is written.", "quantifier": "for all flags, all names of servers, all networks, everything that servers answer in any order, and all log levels", "why_tests_cant": "Tests compare the output, not the log, and not for all flags: the log is written from the flags and from the response, the output from what normalization and the search make of them, and whether the two agree depends on every value.", "anchors": ["cmd/trc/main.go:106-158", "cmd/trc/search.go:48-97", "search_types.go:34-84", "search_types.go:137-227", "filter.go:26-81"]}
{"id": "C146", "title": "The log of trc stream counts what is printed and ends in order", "statement": "The log of trc stream tells the filter, and with --log debug the send buffer and the interval of the statistics, as the servers get them. When trc stream has been told to stop, it tells the number of traces that it has printed, once, and prints no more; and once it says that the streams are finished, each server has been said to be stopped, and nothing is said about any of them afterwards.", "quantifier": "for all flags, any number of servers, everything that servers send, all interleavings of the streams, their reporters, the writer and the signal", "why_tests_cant": "The count and the last lines are written by goroutines that run concurrently; a test sees one order. That no order loses or adds a trace or a line is a property of all executions.", "anchors": ["cmd/trc/stream.go:39-112", "cmd/trc/stream.go:114-181", "cmd/trc/stream.go:183-208", "trcweb/trace_server.go:389-423", "trcweb/trace_server.go:457-479"]}
{"id": "C147", "title": "An event tells where it was logged", "statement": "The stack of each event begins with the function and line of the program that logged it and goes on with its callers, however the trace is wrapped by decorators, regions and prefixes, and whether the event was logged with a method of the trace, a helper of package eztrc, a Region or NewTrace.", "quantifier": "all programs of logging calls, regions, prefixes and nested NewTraces, all stacks of decorators, all call stacks, anything else in between", "why_tests_cant": "a test logs from few spots through few wrappers; frames are lost only when enough wrappers, regions and helpers come together", "anchors": ["trace_core.go: newCoreEvent, getStack, ignoreStackFrameFunction", "helpers.go: Region, Prefix, prefixTrace", "decorators.go: logTrace, publishTrace", "eztrc/easy.go", "collector.go: NewTrace"]}
{"id": "C148", "title": "Values that are logged may use the library while they are formatted", "statement": "A value that is logged may have a String, Error or Format method that itself logs to, looks at, creates or searches traces. Neither the call that formats it (Tracef, Events, a search, or the publishing of an event to subscribers) nor any other call blocks forever because of that.", "quantifier": "for all traces, wrappers, values and what their methods call to any depth, all calls of the API by any number of goroutines, all schedules", "why_tests_cant": "Deadlocks need particular schedules, subscribers and lazily formatted values; tests log strings and numbers.", "anchors": ["trace_core.go:163-230", "trace_core.go:265-288", "trace_core.go:483-522", "broker.go:24-49", "collector.go:148-173", "decorators.go:58-76,130-148"]}
{"id": "C149", "title": "Every call returns, however busy the others are", "statement": "Each call of a method of a trace, a collector or a broker returns, even if any number of other goroutines go on making calls forever; and every lock of the library is free again and again. (A MultiSearcher's Search and a Stream return once what they wait for, the answers or the end of the context, is there.) Assumed is that the scheduler and Go's mutexes are fair, and that the values that are logged use, while they are formatted, at most plain traces of higher levels.", "quantifier": "for all infinite executions with fair scheduling and fair mutexes, all calls by any number of goroutines, all data-dependent numbers of candidates, getters, buffers and subscribers", "why_tests_cant": "Starvation shows in infinite executions only.", "anchors": ["trace_core.go:153-315", "broker.go:24-109", "collector.go:107-195", "internal/trcringbuf/ringbuffer.go:20-130", "internal/trcringbuf/ringbuffer.go:188-260", "decorators.go:58-160"]}
{"id": "C150", "title": "A client can tell from its stream what it has missed", "statement": "A stream begins with the init event, which is sent once and tells the filter and the size of the send buffer. Statistics in the stream count every trace published between the subscription and that moment exactly once, as skipped if it does not satisfy the filter, and else as sent or dropped; the traces sent are those that the client was sent before the statistics, in order, the messages about its own request, and at most as many more as fit in the send buffer. So a client whose statistics say that nothing was dropped has missed nothing: it was sent the first of the matching traces, in order and without gaps. The numbers never go back, and between two statistics they grow by the number of traces published between them.", "quantifier": "for all requests, filters and buffer sizes, all interleavings of the handler's goroutines with arbitrary other users of the broker, all moments at which statistics are taken", "why_tests_cant": "The position of the statistics among the traces of a stream depends on which case select takes and on what others publish meanwhile; a test sees a few of these orders and cannot tell that the numbers fit at each.", "anchors": ["trcweb/trace_server.go:268-363", "broker.go:25-109"]}
{"id": "C151", "title": "The trace of a served search tells the whole request, from its first line to its last", "statement": "A search request is served by the search handler behind the middleware, and nobody but these, and the search, logs to the trace that the middleware made for it. Then the trace is finished, and its events are, in this order and without any other: the line with remote address, method and URL; one line for each of User-Agent, Accept and Content-Type that the request has; the search request after normalization; what is to be said about the search of each client, the outcome of the whole search last; how the response was rendered, with its size or what failed; and last HTTP with status, size and duration. The status and the size in the last line are those of the response that the client receives: status 200 with the page or the JSON, or status 500 with an error page or an error object exactly if rendering failed. The trace is marked as errored if and only if the status is not 200 or a client that was searched failed. If the request cannot be decoded, there is instead of the lines in the middle one error with the reason, and the client gets status 400 with the reason and a newline.", "quantifier": "all requests and headers, all searches over any tree of clients with any answers, all renderings and failures of rendering, HTML and JSON, all decorations of the trace, all schedules of other goroutines, all durations", "why_tests_cant": "The statement is about the composition of three components whose traces are interleaved with any other activity in the process, and about every failure of the template engine or of the encoder and every tree of searched clients.", "anchors": ["trcweb/trace_server.go:105-154", "trcweb/render.go:24-80", "trcweb/render.go:110-168", "trcweb/middleware.go:15-50", "search_types.go"]}
{"id": "C152", "title": "The trace of a served stream tells the whole request, from its first line to its last", "statement": "A request for a stream that is served by the stream handler behind trcweb.Middleware leaves a finished trace whose events are, in this order: the line of the request, its headers, what is streamed (and that the filter could not be decoded, if so), that the handler has started, the statistics as they were sent to the client, everything that has failed, why the handler stops, and last the status and the size of the response; with the statistics of the whole stream, which account exactly for what was published while it was subscribed, somewhere among them and never after the trace is finished. The trace is errored exactly if something has failed or the filter could not be decoded. A request that is refused leaves a trace that tells the status 400 and the size that the client receives.", "quantifier": "for all requests, filters, brokers, publishers, interleavings of the handler's two goroutines with the broker and the client, ways of the stream to end, writes of the event source, decorators and sinks of the trace", "why_tests_cant": "The lines come from three functions and two goroutines; which come first depends on the schedule, and that none of them comes after Finish depends on the handler waiting for its goroutine. A test sees a few schedules of short streams.", "anchors": ["trcweb/middleware.go:24-48", "trcweb/trace_server.go:228-363", "broker.go:57-96", "trace_core.go:262-284"]}
{"id": "C153", "title": "With --log trace, trc stream tells what each server sends about its stream", "statement": "With --log trace (or t), `trc stream` prints on standard error, each as a record of its own that is marked [TRACE] and has the ID of its trace: that it has started; for each server, with its URI and in order, the data of each init event, the three numbers of all statistics and the type of each unknown event that it sends, and each time a stream from it ends with an error that error, marked as one; and finally that it is done, as errored if and only if there was such an error, and after how long. Nothing else is printed there and nothing is lost or mixed up, though the servers are listened to concurrently. At all other levels none of this is printed.", "quantifier": "for all servers and URIs, everything that they send, any number of attempts, all interleavings of the streams, and all log levels", "why_tests_cant": "The lines come from concurrent goroutines over several attempts, through a prefix in the context, a decorator that writes each event as it is added, and the logger of the command; a test sees one interleaving. That each line of each server is there once, whole and in order is a property of all of them.", "anchors": ["cmd/trc/stream.go:39-41", "cmd/trc/stream.go:114-115", "cmd/trc/stream.go:162-181", "trcweb/trace_server.go:437-524", "cmd/trc/trc.go:58-63", "cmd/trc/util.go:20-25"]}
{"id": "C154", "title": "A category refers to what it retains and to nothing else", "statement": "After any interleaving of creations of categories, additions and resizings (of any sizes), the array of a category's ring buffer has in its slots exactly the values the category shows, each in one slot, and zero values. In particular a trace that was handed back by Add or Resize, so that the caller can Free it, is in no slot: the collector no longer refers to it and does not keep it, or what it refers to, in memory.", "quantifier": "All capacities, all histories of calls on a ring buffer and all interleavings on a family of them, all executions of a program with any number of collectors", "why_tests_cant": "A test sees what Walk shows and what Add and Resize return, not what else the array refers to; a slot that is left behind shows only as memory that is never released, after a particular order of additions and resizings.", "anchors": ["internal/trcringbuf/ringbuffer.go:17-126", "internal/trcringbuf/ringbuffer.go:195-250", "collector.go"]}
{"id": "C155", "title": "What was logged is let go of when its trace is freed", "statement": "Values that are passed to Tracef, LazyTracef, Errorf and LazyErrorf are referred to by the library only as long as the trace in which they were logged is kept: once a collector has dropped and freed the trace, the library does not keep them in memory. Nothing that was not logged is referred to.", "quantifier": "All executions of a program with any number of collectors, goroutines and traces, all choices of the pools and of the garbage collector", "why_tests_cant": "What a pooled object refers to is not observable through the API; it shows as memory (a request body, a connection) that is not released, depending on which pooled object is taken next and on when the garbage collector empties the pools.", "anchors": ["trace_core.go:302-318", "trace_core.go:400-407", "trace_core.go:446-509", "collector.go:105-133"]}
{"id": "C156", "title": "Each part of a request changes its own part of the answer", "statement": "Of two searches of a collector in the same state: the statistics and the total depend on the requested buckets only, not on filter, limit or stack depth; the buckets change nothing but the statistics; the stack depth changes nothing but the stacks, and the same traces are returned in the same order; a higher limit returns the same traces first; and a narrower filter returns, first, those of the traces returned before that satisfy it, and exactly these if the wider search was not cut off by its limit. A page of any network of programs with a higher limit shows the same traces first.", "quantifier": "for all requests, all contents of the collector, all orders of its categories, and any sort that sorts", "why_tests_cant": "It relates pairs of searches. A test compares a few pairs on contents that were added in order; that a higher limit can drop a trace needs three categories, two of them with traces added out of order.", "anchors": ["collector.go:137-195", "search_types.go:25-75", "trace_static.go:120-159"]}
{"id": "C157", "title": "However busy other categories are, a search in a category finds the same", "statement": "A search that names a category gives the same traces in the same order, the same number of matches and the same statistics for that category before and after any amount of traffic in other categories: new traces in existing categories, new categories, traces of other categories that log or finish in the meantime.", "quantifier": "All histories of a collector before and after, all capacities, all orders in which the search visits the buffers, all requests that name the category with whatever other conditions, limit, stack depth and bucketing.", "why_tests_cant": "A test has a few categories with a few traces; that no amount of traffic elsewhere displaces a trace of this category, in its buffer or in the answer, is about every history and every order of visiting the buffers.", "anchors": ["collector.go:116-195", "internal/trcringbuf/ringbuffer.go:202-218", "filter.go:85-140", "search_stats.go:39-60"]}
{"id": "C158", "title": "A trace is found until its category has as many newer ones as it holds", "statement": "A search for the ID of a trace finds that trace, and it alone, as long as fewer traces were made in its category after it than the collector holds per category, and finds nothing once that many were made; traces of other categories do not count. If the size changes in the meantime, the smallest size decides until when the trace is certainly found, and the largest from when on it certainly is not.", "quantifier": "All histories before and after the trace was made, with any interleaving of new traces, new categories and resizes in progress, all sizes, all orders in which the search visits the buffers.", "why_tests_cant": "Tests make a few traces in a small buffer; the exact moment at which a trace stops being found depends on every interleaving of new traces and resizes.", "anchors": ["collector.go:116-195", "collector.go:102-112", "internal/trcringbuf/ringbuffer.go:95-180", "internal/trcringbuf/ringbuffer.go:202-246"]}
{"id": "C159", "title": "A stream and a search tell the same about a finished trace", "statement": "The message that a stream gets about a finished trace and the result that a search gives for that trace have the same ID, source, category, start, duration, error state and events with the same times and texts; only the stacks are missing in the message, and the notice at the end of a truncated trace has the time at which it was read. It does not matter which comes first and what is done with the trace in between, and lazily logged events have the same text in both.", "quantifier": "All histories of calls before the trace is finished, meanwhile and in between, both orders, both ways of reading the events for a stream.", "why_tests_cant": "A test compares one message with one search result; that no call in between and no order makes them differ is about all histories.", "anchors": ["trace_static.go:24-76", "trace_core.go:137-300", "broker.go:24-49"]}
{"id": "C160", "title": "However servers are grouped, an answer has the same traces and numbers", "statement": "If two servers reach the same traces in different ways (some directly, some over further servers, one or several at a time, in whatever order, and over whatever number of steps), they answer the same request with the same traces in the same order, the same total and match counts, as many traces, and the same list of sources. For the order of the traces: IDs are distinct, no clock was set, and each category was filled in the order in which its traces began.", "quantifier": "All pairs of networks of collectors, multi-searchers and servers of any shape and depth that hold the same traces, all requests with bucketing that is not negative, all sort algorithms and orders of answers", "why_tests_cant": "Tests fix one or two topologies; this compares any two trees of servers over all requests, sort algorithms and orders of arrival", "anchors": ["search_types.go:137-227", "collector.go:137-196", "trcweb/trace_server.go:105-154", "trcweb/trace_server.go:179-224", "trace_static.go:142-159"]}
{"id": "C161", "title": "The rows of the summary are right for any network of programs", "statement": "On the page of a server that searches any number of programs, directly or over further servers, the summary has exactly one row for each category that occurs in any program that is reached, in order, and a last row for all of them; each row shows how many traces of the category in all these programs together are active, have failed, and have succeeded in at least each of the given durations, and their total, whatever the filter of the request. No clock was set back.", "quantifier": "All networks of collectors, multi-searchers and servers of any shape, some of them down, all requests with bucketing that is not negative, all orders of iteration and of answers", "why_tests_cant": "Tests merge one or two sets of statistics; this is about every tree of servers and all its categories", "anchors": ["search_stats.go:79-130", "search_stats.go:246-276", "search_types.go:137-227", "trcweb/assets/traces.html:166-230", "trcweb/trace_server.go:105-154"]}
{"id": "C162", "title": "A trace is in an answer at most once", "statement": "An answer of a server contains no trace (no trace ID) more than once. (True if the programs that it reaches, directly or over further servers, hold distinct IDs. False if a program is reached in two ways: then each of its traces is in the answer as often as it is reached, and takes up a place of the limit each time.)", "quantifier": "All networks of collectors, multi-searchers and servers of any shape, all requests with bucketing that is not negative, all sort algorithms and orders of answers", "why_tests_cant": "Tests do not reach one program in two ways; how often a trace is returned depends on the whole tree of servers", "anchors": ["search_types.go:137-227", "trcweb/trace_server.go:105-154", "trcweb/trace_server.go:179-224"]}
{"id": "C163", "title": "A server that is down takes only its own traces with it", "statement": "When one of the servers of a network does not answer, the traces of all the others are still shown: an answer begins with those of the traces shown before that do not come from the missing server, in the same order. If the answer had room for more before, it shows nothing else; otherwise the room is filled with older traces of the other servers. The total and the number of matches lose what the missing server itself would have answered, and one problem is reported.", "quantifier": "For all networks of collectors, multi-searchers and servers, wherever in them something is missing, all ways in which a server fails (no answer, or any status but 200), all requests, limits, orders of arrival and schedules of normalization; traces with distinct IDs, added in the order in which they began, and clocks that were not set.", "why_tests_cant": "Whether the others are shown depends on how limits, sorting and cutting at each level of the network work together; tests try one failing searcher in one list.", "anchors": ["search_types.go:137-227", "collector.go:137-196", "trcweb/trace_server.go:105-154", "trcweb/trace_server.go:179-224", "trace_static.go:142-159"]}
{"id": "C164", "title": "Servers may ask each other", "statement": "However servers are connected - each serving a MultiSearcher over local collectors and SearchClients of other servers - a search of one of them comes to an end with an answer, in which each trace is counted once per route; in particular also if servers ask each other, directly or over several hops.", "quantifier": "all sets of servers, what each of them asks, the orders in which answers arrive, requests of at most a megabyte, and numbers of traces", "why_tests_cant": "A test connects two or three servers without a circle. That no consistent behaviour exists on any circle, however long, is a statement about all answers the servers could give at once; a test of a circle just does not end.", "anchors": ["search_types.go:137-227", "collector.go:137-196", "trcweb/trace_server.go:105-154", "trcweb/trace_server.go:179-224"]}
