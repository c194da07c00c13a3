import Verif.Web.Server
import Verif.Props.Search

/-!
# C70, C71: searching over HTTP
-/

set_option linter.unusedVariables false
set_option linter.unusedSimpArgs false

namespace Trc.Web

section
variable (compile : Compile) (mulFrac : Nat → Nat → Nat → Nat) (size : JSON → Nat)
  (mime : List Char → Option String) (renders : SearchData → Bool)

/-! ## C70 -/

theorem normalize_total (req : SearchRequest) :
    ∃ req', req.normalize compile = some (req', (req.filter.normalize compile).2.map ("filter: " ++ ·)) := by
  unfold SearchRequest.normalize
  have : ∃ b, normalizeBucketing req.bucketing = some b := by
    unfold normalizeBucketing
    have hne : sortDurations (if (req.bucketing.length : Int) ≤ 0 then defaultBucketing else req.bucketing) ≠ [] := by
      intro h
      have hp := (sortDurations_perm (if (req.bucketing.length : Int) ≤ 0 then defaultBucketing else req.bucketing)).length_eq
      rw [h] at hp
      by_cases hl : (req.bucketing.length : Int) ≤ 0
      · rw [if_pos hl] at hp; simp [defaultBucketing] at hp
      · rw [if_neg hl] at hp; simp at hp; omega
    revert hne
    dsimp only
    generalize sortDurations (if (req.bucketing.length : Int) ≤ 0 then defaultBucketing else req.bucketing) = l
    intro hne
    cases l with
    | nil => exact absurd rfl hne
    | cons b l => exact ⟨_, rfl⟩
  obtain ⟨b, hb⟩ := this
  exact ⟨_, by rw [hb]; rfl⟩

/-- The problems a page has to show: those of the request, those of the response, and too many
categories. -/
def problemsOf (req : SearchRequest) (res : Reply) : List String :=
  (req.filter.normalize compile).2.map ("filter: " ++ ·) ++ res.problems.map ("response: " ++ ·) ++
    match res.stats with
    | some st => if st.categories.length ≥ 100 then [tooManyCategories st.categories.length] else []
    | none => []

/-- **C70**, the true part.  A request that can be read gets a response with the searcher's result and
all problems, if the searcher returns a response with statistics; one that cannot be read gets an
error.  What is missing: searchers that fail, or whose response has no statistics; and a JSON
response does not have the problems of the request (below). -/
theorem C70_answers_partial (searcher : Searcher) (r : SearchHTTP) :
    (readRequest mulFrac size r = none → ∃ b, handleSearch compile mulFrac size mime renders searcher r = some ⟨400, b⟩) ∧
    ∀ req, readRequest mulFrac size r = some req →
      ∀ req' req'' res st, (req.normalize compile).map (·.1) = some req' →
      searcher req' = some (req'', .ok (some res)) → res.stats = some st →
      ∃ resp data, handleSearch compile mulFrac size mime renders searcher r = some resp ∧
        data.request = req'' ∧ data.response = res ∧ data.problems = problemsOf compile req res ∧
        (renderResponse mime r.neg = .html → resp.body = .page data) ∧
        (renderResponse mime r.neg ≠ .html → resp.status = 200 ∧ resp.body = .json (encData data)) := by
  refine ⟨fun h => ⟨_, by unfold handleSearch; rw [h]⟩, ?_⟩
  intro req hreq req' req'' res st h1 h2 h3
  obtain ⟨req₁, hn⟩ := normalize_total compile req
  rw [hn] at h1
  simp only [Option.map_some, Option.some.injEq] at h1
  subst h1
  let data : SearchData := { request := req'', response := res, problems := problemsOf compile req res }
  have hd : searchData compile searcher req = some data := by
    unfold searchData
    rw [hn]
    simp only [Option.bind_eq_bind, Option.bind_some, h2, takeResult, responseProblems, checkCategories, h3]
    by_cases hc : st.categories.length ≥ 100
    · rw [if_pos hc]; simp [data, problemsOf, h3, hc]
    · rw [if_neg hc]; simp only [data, problemsOf, h3, if_neg hc, List.append_nil]
  refine ⟨render mime renders r data, data, ?_, rfl, rfl, rfl, ?_, ?_⟩
  · unfold handleSearch; rw [hreq]; simp [hd]
  · intro h; unfold render; rw [h]
  · intro h; unfold render
    cases hr : renderResponse mime r.neg <;> simp_all

/-- **C70**, exactly: a request that can be read gets a response if, and only if, the searcher returns a response with
statistics; otherwise the handler panics. -/
theorem C70_answers_exact (searcher : Searcher) (r : SearchHTTP) (req : SearchRequest) (hreq : readRequest mulFrac size r = some req) :
    (∃ resp, handleSearch compile mulFrac size mime renders searcher r = some resp) ↔
      ∃ req' problems req'' res st, req.normalize compile = some (req', problems) ∧
        searcher req' = some (req'', .ok (some res)) ∧ res.stats = some st := by
  constructor
  · rintro ⟨resp, h⟩
    unfold handleSearch searchData at h
    rw [hreq] at h
    obtain ⟨req', hn⟩ := normalize_total compile req
    simp only [hn, Option.bind_eq_bind, Option.bind_some, Option.map_eq_some_iff, Option.bind_eq_some_iff] at h
    obtain ⟨data, ⟨⟨req'', result⟩, h1, data', h2, h3⟩, _⟩ := h
    unfold takeResult at h2
    split at h2
    · cases h2
      simp [responseProblems, checkCategories] at h3
    · cases h2
    · rename_i res hres
      cases h2
      simp only [responseProblems, checkCategories] at h3
      have hres : result = .ok (some res) := hres
      subst hres
      cases hst : res.stats with
      | none => rw [hst] at h3; cases h3
      | some st => exact ⟨req', _, req'', res, st, hn, h1, hst⟩
  · rintro ⟨req', problems, req'', res, st, h1, h2, h3⟩
    obtain ⟨resp, _, h, _⟩ := (C70_answers_partial compile mulFrac size mime renders searcher r).2 req hreq req' req'' res st
      (by rw [h1]; rfl) h2 h3
    exact ⟨resp, h⟩

/-- **C70**.  A JSON request whose body is not JSON, is longer than a megabyte, or is not a search request
gets status 400, and is not searched. -/
theorem C70_bad_body (searcher : Searcher) (r : SearchHTTP) (hj : r.isJSON = true)
    (hb : ∀ v, r.body = some v → size v ≤ 1048576 → decRequest v = none) :
    ∃ b, handleSearch compile mulFrac size mime renders searcher r = some ⟨400, b⟩ := by
  refine (C70_answers_partial compile mulFrac size mime renders searcher r).1 ?_
  unfold readRequest readBody
  rw [if_pos hj]
  cases h : r.body with
  | none => rfl
  | some v =>
    simp only
    by_cases hs : size v > maxRequestBodySizeBytes
    · rw [if_pos hs]
    · rw [if_neg hs]
      exact hb v h (by unfold maxRequestBodySizeBytes at hs; omega)

/-- **C70 fails**: whenever the searcher fails, the handler panics, and the client gets no response at
all: it adds the error to the problems, and then reads the statistics of the response there is
not. -/
theorem C70_failing_searcher_violated (searcher : Searcher) (r : SearchHTTP) (req : SearchRequest)
    (hreq : readRequest mulFrac size r = some req)
    (hfail : ∀ q, ∃ q' e, searcher q = some (q', .error e)) :
    handleSearch compile mulFrac size mime renders searcher r = none := by
  unfold handleSearch
  rw [hreq]
  simp only [Option.map_eq_none_iff]
  unfold searchData
  obtain ⟨req₁, hn⟩ := normalize_total compile req
  obtain ⟨q', e, he⟩ := hfail req₁
  rw [hn]
  simp [he, takeResult, responseProblems, checkCategories]

/-- **C70 fails** also for a searcher that returns a response without statistics. -/
theorem C70_no_stats_violated (searcher : Searcher) (r : SearchHTTP) (req : SearchRequest)
    (hreq : readRequest mulFrac size r = some req)
    (hres : ∀ q, ∃ q' res, searcher q = some (q', .ok (some res)) ∧ res.stats = none) :
    handleSearch compile mulFrac size mime renders searcher r = none := by
  unfold handleSearch
  rw [hreq]
  simp only [Option.map_eq_none_iff]
  unfold searchData
  obtain ⟨req₁, hn⟩ := normalize_total compile req
  obtain ⟨q', res, he, hs⟩ := hres req₁
  rw [hn]
  simp [he, takeResult, responseProblems, checkCategories, hs]

/-- **C70 fails** for JSON: a reader of the response cannot see the problems the handler found itself.
The decoded data are the same whatever they are. -/
theorem C70_json_problems_violated (d : SearchData) (problems : List String) :
    encData { d with problems } = encData d ∧
    (decData (encData d)).map (·.problems) = some [] := by
  refine ⟨rfl, ?_⟩
  rw [data_rt]; rfl

/-! ## C71 -/

/-- The compiled query gets lost on the way, and the server compiles it again. -/
theorem normalize_wire (req : SearchRequest) (hf : req.filter.Fresh compile) :
    (wireRequest req).normalize compile = req.normalize compile := by
  have : (wireFilter req.filter).normalize compile = req.filter.normalize compile := by
    cases hr : req.filter.regexp with
    | none =>
      have : wireFilter req.filter = req.filter := by
        unfold wireFilter
        rw [← hr]
      rw [this]
    | some re =>
      obtain ⟨h1, h2⟩ := hf re hr
      have e : { wireFilter req.filter with regexp := some re } = req.filter := by
        unfold wireFilter
        rw [← hr]
      unfold Filter.normalize Filter.initializeQueryRegexp
      have hq : (wireFilter req.filter).query = req.filter.query := rfl
      have hn : (wireFilter req.filter).regexp = none := rfl
      simp only [hq, hn, hr, h1, h2, Option.isSome_some, Option.isSome_none, Bool.false_eq_true, if_false, if_true]
      exact congrArg (·, _) e
  unfold SearchRequest.normalize
  simp only [wireRequest, this]

/-- Searching with a request that is normalized already. -/
theorem search_normalized {α : Type} [Inhabited α] (srt : List Static → List Static) (source : String) (req req' : SearchRequest)
    (problems : List String) (h : req.normalize compile = some (req', problems)) (h' : req'.normalize compile = some (req', []))
    (view : α → Look → Static) (rings : List (Ring.RB α)) :
    search compile srt source req' view rings =
      (search compile srt source req view rings).map fun res => { res with problems := [] } := by
  unfold search
  rw [h, h']
  simp only [Option.bind_eq_bind, Option.bind_some, Option.pure_def]
  cases searchRings compile req' view rings ⟨newSearchStats req'.bucketing, 0, 0, [], req'.filter⟩ [] with
  | none => rfl
  | some p => rfl

/-- The client asks for JSON. -/
theorem client_json (hm : mime "application/json".toList = some "application/json") (rawQuery : Bytes) :
    served mime { rawQuery, accept := ["application/json".toList] } = .json ∧
    renderResponse mime { rawQuery, accept := ["application/json".toList] } = .json := by
  have hp : parseAcceptMediaTypes mime { rawQuery, accept := ["application/json".toList] } = ["application/json"] := by
    unfold parseAcceptMediaTypes Req.getAccept
    have : splitComma "application/json".toList = ["application/json".toList] := by decide +kernel
    generalize "application/json".toList = a at hm this
    simp only [List.head?_cons, Option.getD_some, this, List.filterMap_cons, hm, List.filterMap_nil]
  generalize "application/json".toList = a at hp
  have e1 : requestExplicitlyAccepts mime { rawQuery, accept := [a] } ["text/event-stream"] = false := by
    simp [requestExplicitlyAccepts, hp]
  have e2 : requestExplicitlyAccepts mime { rawQuery, accept := [a] } ["text/html"] = false := by
    simp [requestExplicitlyAccepts, hp]
  have hr : renderResponse mime { rawQuery, accept := [a] } = .json := by
    unfold renderResponse
    simp [e2]
  refine ⟨?_, hr⟩
  unfold served categorize
  rw [if_neg (by simp [e1]), hr]

/-- **C71**.  For a request without negative buckets, of at most a megabyte, a search over HTTP gives what the
search of the collector gives: the counts, the sources, the traces in their order, the statistics
and the request, all but for the monotonic clock readings and the compiled query, which are not
transmitted.  The problems of the request are lost, as the server has normalized it before the
collector does. -/
theorem C71_remote_partial {α : Type} [Inhabited α] (srt : List Static → List Static) (source : String) (req : SearchRequest)
    (hf : req.filter.Fresh compile) (hb : ∀ d ∈ req.bucketing, 0 ≤ d) (hsize : size (encRequest req) ≤ 1048576)
    (hm : mime "application/json".toList = some "application/json") (view : α → Look → Static) (rings : List (Ring.RB α))
    (took took' : Duration) (rawQuery : Bytes) (req' : SearchRequest) (res : Reply)
    (hlocal : collectorSearcher compile srt source view rings took req = some (req', .ok (some res))) :
    ∃ reply, searchClient rawQuery (handleSearch compile mulFrac size mime renders
        (collectorSearcher compile srt source view rings took')) req = .ok reply ∧
      reply.sources = res.sources ∧ reply.totalCount = res.totalCount ∧ reply.matchCount = res.matchCount ∧
      reply.traces = res.traces.map wireStatic ∧ reply.stats = res.stats.map wireStats ∧
      reply.request = some (wireRequest req') ∧ res.request = some req' ∧ reply.problems = [] := by
  obtain ⟨req₁, problems, hn, hn'⟩ := C36_idempotent_partial compile req hf hb
  unfold collectorSearcher at hlocal
  rw [hn] at hlocal
  simp only [Option.bind_eq_bind, Option.bind_some, Option.pure_def] at hlocal
  cases hs : search compile srt source req view rings with
  | none => rw [hs] at hlocal; cases hlocal
  | some sres =>
    rw [hs] at hlocal
    simp only [Option.bind_some, Option.some.injEq, Prod.mk.injEq, Except.ok.injEq] at hlocal
    obtain ⟨rfl, rfl⟩ := hlocal
    have hs' := search_normalized compile srt source req req₁ problems hn hn' view rings
    rw [hs] at hs'
    simp only [Option.map_some] at hs'
    let rep : Reply := { ({ sres with problems := [] } : SearchResponse).toResponse with request := some req₁, duration := took' }
    have hserver : ∃ ps, searchData compile (collectorSearcher compile srt source view rings took') (wireRequest req) =
        some { request := req₁, response := rep, problems := ps } := by
      unfold searchData
      rw [normalize_wire compile req hf, hn]
      simp only [Option.bind_eq_bind, Option.bind_some]
      unfold collectorSearcher
      rw [hn', hs']
      simp only [Option.bind_eq_bind, Option.bind_some, Option.pure_def, takeResult, responseProblems, checkCategories, SearchResponse.toResponse]
      split
      · exact ⟨_, rfl⟩
      · exact ⟨_, rfl⟩
    obtain ⟨ps, hps⟩ := hserver
    refine ⟨wireReply rep, ?_, rfl, rfl, rfl, rfl, rfl, rfl, rfl, rfl⟩
    unfold searchClient handleSearch
    have hread : readRequest mulFrac size
        { neg := { rawQuery, accept := ["application/json".toList] }, isJSON := true, body := some (encRequest req) } =
        some (wireRequest req) := by
      unfold readRequest readBody
      simp only [if_true]
      rw [if_neg (by rw [show maxRequestBodySizeBytes = 1048576 from rfl]; omega), request_rt]
    rw [hread]
    simp only [hps, Option.map_some]
    unfold render
    rw [(client_json mime hm rawQuery).2]
    simp only [ne_eq, not_true_eq_false, if_false, data_rt]

/-- **C71**.  The client returns a response only if the server answered with status 200 and JSON, and then
it is the response in that JSON; anything else is an error. -/
theorem C71_client_errors (server : SearchHTTP → Option HTTPResponse) (req : SearchRequest) (rawQuery : Bytes)
    (reply : Reply) (h : searchClient rawQuery server req = .ok reply) :
    ∃ r v d, r.body = some (encRequest req) ∧ r.isJSON = true ∧ r.neg.rawQuery = rawQuery ∧
      server r = some ⟨200, .json v⟩ ∧ decData v = some d ∧ d.response = reply := by
  unfold searchClient at h
  split at h
  · cases h
  · rename_i res hres
    split at h
    · cases h
    · rename_i hst
      obtain ⟨st, body⟩ := res
      have hst' : st = 200 := by simpa using hst
      subst hst'
      cases body with
      | text s => cases h
      | page d => cases h
      | json v =>
        simp only at h
        cases hd : decData v with
        | none => rw [hd] at h; cases h
        | some d =>
          rw [hd] at h
          exact ⟨_, v, d, rfl, rfl, rfl, hres, hd, by cases h; rfl⟩

/-- **C71 fails** for a request of more than a megabyte, which the server refuses. -/
theorem C71_large_request_violated (searcher : Searcher) (req : SearchRequest) (rawQuery : Bytes)
    (hsize : size (encRequest req) > 1048576) :
    searchClient rawQuery (handleSearch compile mulFrac size mime renders searcher) req = .error "read HTTP response" := by
  unfold searchClient handleSearch readRequest readBody
  simp [show maxRequestBodySizeBytes = 1048576 from rfl, hsize]

end

/-- A mime type parser that knows one type. -/
private def jsonMime : List Char → Option String := fun l => if l = "application/json".toList then some "application/json" else none

/-- **C71 fails** with a negative bucket: the server normalizes the request twice, and the second time
it adds another bucket. -/
theorem C71_negative_bucket_violated :
    (collectorSearcher (fun _ => .error "") id "s" still ([] : List (Ring.RB Static)) 0 { bucketing := [-5, 10] }).map
        (fun r => r.2.toOption.map (fun r => r.map (fun r => (r.request.map (·.bucketing), r.stats.map (·.bucketing))))) =
      some (some (some (some [0, -5, 10], some [0, -5, 10]))) ∧
    (searchClient [] (handleSearch (fun _ => .error "") (fun _ _ _ => 0) (fun _ => 0) jsonMime (fun _ => true)
        (collectorSearcher (fun _ => .error "") id "s" still ([] : List (Ring.RB Static)) 0)) { bucketing := [-5, 10] }).toOption.map
        (fun r => (r.request.map (·.bucketing), r.stats.map (·.bucketing))) =
      some (some [0, -5, 0, 10], some [0, -5, 0, 10]) := by
  constructor
  · decide +kernel
  · decide +kernel

/-! ## Examples -/

/-- A search through HTTP that finds a trace. -/
example : ∃ (rb : Ring.RB Static) (outs : List (List Static)) (reply : Reply),
    Ring.exec 10 [.add (sampleTrace "a" 1 false false 0), .add (sampleTrace "b" 2 true false 3)] = some (rb, outs) ∧
    searchClient [] (handleSearch (fun _ => .error "") (fun _ _ _ => 0) (fun _ => 0) jsonMime (fun _ => true)
      (collectorSearcher (fun _ => .error "") sortNewest "s" still [rb] 5)) { filter := { isFinished := true } } = .ok reply ∧
    reply.traces.map (·.id) = ["b"] ∧ reply.totalCount = 2 ∧ reply.matchCount = 1 := by
  refine ⟨_, _, _, rfl, rfl, ?_, ?_, ?_⟩
  all_goals decide +kernel

/-- The hypotheses of `C71_remote_partial`. -/
example : ({ filter := { query := "x" }, bucketing := [0, 7] } : SearchRequest).filter.Fresh (fun _ => .error "") ∧
    (∀ d ∈ [(0 : Int), 7], 0 ≤ d) ∧ jsonMime "application/json".toList = some "application/json" := by
  refine ⟨?_, by decide, by decide⟩
  intro re h; cases h

/-- A searcher that fails. -/
example : ∀ q, ∃ q' e, (fun q => some (q, .error "timeout") : Searcher) q = some (q', .error e) :=
  fun q => ⟨q, _, rfl⟩

/-- A request that can be read, and one that cannot. -/
example : readRequest (fun _ _ _ => 0) (fun _ => 0) { neg := { rawQuery := [], accept := [] }, isJSON := true, body := none } = none ∧
    ∃ r, readRequest (fun _ _ _ => 0) (fun _ => 0) { neg := { rawQuery := [], accept := [] }, isJSON := false, body := none } = some r :=
  ⟨rfl, _, rfl⟩

/-- Bodies as in `C70_bad_body`: one that is not a search request, and one that is too long. -/
example : decRequest (.str "what") = none ∧
    ∀ v, (some (encRequest {}) : Option JSON) = some v → (fun _ => 1048577 : JSON → Nat) v ≤ 1048576 → decRequest v = none :=
  ⟨rfl, fun v _ h => absurd h (by show ¬ 1048577 ≤ 1048576; decide)⟩

end Trc.Web
