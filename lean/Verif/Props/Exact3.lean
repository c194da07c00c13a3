import Verif.Props.Server
import Verif.Props.ServerFields

/-!
# Exactly when a remote search equals a local one (C71), and when requests for a trace server race or end the program (C107)
-/

set_option linter.unusedVariables false
set_option linter.unusedSimpArgs false

namespace Trc.Web

/-- **C71**.  A search over HTTP gives what the local search gives, but for what is not transmitted, if and only if the request is of at most a megabyte and has no
negative bucket. -/
theorem C71_remote_exact (compile : Compile) (mulFrac : Nat → Nat → Nat → Nat) (size : JSON → Nat)
    (mime : List Char → Option String) (renders : SearchData → Bool) {α : Type} [Inhabited α] (srt : List Static → List Static)
    (source : String) (req : SearchRequest) (hf : req.filter.Fresh compile)
    (hm : mime "application/json".toList = some "application/json") (view : α → Look → Static) (rings : List (Ring.RB α))
    (took took' : Duration) (rawQuery : Bytes) (req' : SearchRequest) (res : Reply)
    (hlocal : collectorSearcher compile srt source view rings took req = some (req', .ok (some res))) :
    (∃ reply, searchClient rawQuery (handleSearch compile mulFrac size mime renders
        (collectorSearcher compile srt source view rings took')) req = .ok reply ∧
      reply.sources = res.sources ∧ reply.totalCount = res.totalCount ∧ reply.matchCount = res.matchCount ∧
      reply.traces = res.traces.map wireStatic ∧ reply.stats = res.stats.map wireStats ∧
      reply.request = some (wireRequest req') ∧ res.request = some req') ↔
    size (encRequest req) ≤ 1048576 ∧ ∀ d ∈ req.bucketing, 0 ≤ d := by
  constructor
  · rintro ⟨reply, h, -, -, -, -, -, hreq, -⟩
    have hsize : size (encRequest req) ≤ 1048576 := by
      rcases Nat.lt_or_ge 1048576 (size (encRequest req)) with hl | hl
      · rw [C71_large_request_violated compile mulFrac size mime renders _ req rawQuery hl] at h
        cases h
      · exact hl
    refine ⟨hsize, ?_⟩
    apply Classical.byContradiction
    intro hb
    obtain ⟨req₁, problems, req₂, problems', hn, hn', hiff, hneg⟩ := C36_idempotent_exact compile req hf
    have hex : ∃ d ∈ req.bucketing, d < 0 := by
      apply Classical.byContradiction
      intro hx
      apply hb
      intro d hd
      apply Classical.byContradiction
      intro h'
      exact hx ⟨d, hd, Int.not_le.mp h'⟩
    have hlen := (hneg hex).1
    have e1 : req' = req₁ := by
      unfold collectorSearcher at hlocal
      rw [hn] at hlocal
      simp only [Option.bind_eq_bind, Option.bind_some, Option.pure_def] at hlocal
      cases hs : search compile srt source req view rings with
      | none => rw [hs] at hlocal; cases hlocal
      | some sres =>
        rw [hs] at hlocal
        simp only [Option.bind_some, Option.some.injEq, Prod.mk.injEq] at hlocal
        exact hlocal.1.symm
    subst e1
    have hread : readRequest mulFrac size
        { neg := { rawQuery, accept := ["application/json".toList] }, isJSON := true, body := some (encRequest req) } =
        some (wireRequest req) := by
      unfold readRequest readBody
      simp only [if_true]
      rw [if_neg (by rw [show maxRequestBodySizeBytes = 1048576 from rfl]; omega), request_rt]
    have hdata : searchData compile (collectorSearcher compile srt source view rings took') (wireRequest req) = none ∨
        ∃ d, searchData compile (collectorSearcher compile srt source view rings took') (wireRequest req) = some d ∧
          d.response.request = some req₂ := by
      unfold searchData
      rw [normalize_wire compile req hf, hn]
      simp only [Option.bind_eq_bind, Option.bind_some]
      unfold collectorSearcher
      rw [hn']
      cases hs : search compile srt source req' view rings with
      | none => left; rfl
      | some sres =>
        right
        simp only [Option.bind_eq_bind, Option.bind_some, Option.pure_def, takeResult, responseProblems, checkCategories, SearchResponse.toResponse]
        split
        · exact ⟨_, rfl, rfl⟩
        · exact ⟨_, rfl, rfl⟩
    unfold searchClient handleSearch at h
    rw [hread] at h
    rcases hdata with hd | ⟨d, hd, hr⟩
    · simp only [hd, Option.map_none] at h
      cases h
    · simp only [hd, Option.map_some] at h
      unfold render at h
      rw [(client_json mime hm rawQuery).2] at h
      simp only [ne_eq, not_true_eq_false, if_false, data_rt] at h
      injection h with h
      subst h
      have : some (wireRequest req₂) = some (wireRequest req') := by
        rw [← hreq]
        show _ = d.response.request.map wireRequest
        rw [hr]
        rfl
      injection this with this
      have hl := congrArg (fun r => r.bucketing.length) this
      simp only [wireRequest] at hl
      omega
  · rintro ⟨hsize, hb⟩
    obtain ⟨reply, h, h1, h2, h3, h4, h5, h6, h7, -⟩ :=
      C71_remote_partial compile mulFrac size mime renders srt source req hf hb hsize hm view rings took took' rawQuery req' res hlocal
    exact ⟨reply, h, h1, h2, h3, h4, h5, h6, h7⟩

namespace Fields

/-- All goroutines serve requests. -/
def Legal (l : List (Nat × Stage)) : Prop := ∀ t, ∃ kinds, Serves t kinds l

/-- **C107** Requests never race if and only if both fields are set from the start. -/
theorem C107_race_exact (s : Server) :
    (∀ l, Legal l → ∀ x ∈ (run s l).2.1, ∀ y ∈ (run s l).2.1, ¬ Conflict x y) ↔ s.searcher ≠ none ∧ s.streamer ≠ none := by
  constructor
  · intro h
    have key : ¬ (s.searcher = none ∨ s.streamer = none) := by
      intro hn
      have hr : ∃ x ∈ (run s ((serveHTTP .search).map (fun st => (0, st)) ++ (serveHTTP .search).map (fun st => (1, st)))).2.1,
          ∃ y ∈ (run s ((serveHTTP .search).map (fun st => (0, st)) ++ (serveHTTP .search).map (fun st => (1, st)))).2.1, Conflict x y := by
        obtain ⟨c, sr, st⟩ := s
        rcases hn with hn | hn
        · simp only at hn
          subst hn
          refine ⟨⟨0, true, .searcher⟩, ?_, ⟨1, false, .searcher⟩, ?_, by decide, rfl, .inl rfl⟩ <;>
            cases st <;> simp [serveHTTP, initFields, run, exec]
        · simp only at hn
          subst hn
          refine ⟨⟨0, true, .streamer⟩, ?_, ⟨1, false, .streamer⟩, ?_, by decide, rfl, .inl rfl⟩ <;>
            cases sr <;> simp [serveHTTP, initFields, run, exec]
      obtain ⟨x, hx, y, hy, hc⟩ := hr
      refine h _ ?_ x hx y hy hc
      intro t
      match t with
      | 0 => exact ⟨[.search], List.prefix_rfl⟩
      | 1 => exact ⟨[.search], List.prefix_rfl⟩
      | n + 2 => exact ⟨[], List.prefix_rfl⟩
    exact ⟨fun h => key (.inl h), fun h => key (.inr h)⟩
  · rintro ⟨h1, h2⟩ l -
    exact C107_no_race_partial s h1 h2 l

theorem outcome_source (s : Server) (l : List (Nat × Stage)) (t : Nat) (o : Outcome) (h : (t, o) ∈ (run s l).2.2) :
    ∃ a st b, l = a ++ (t, st) :: b ∧ o ∈ (exec (run s a).1 t st).2.2 := by
  induction l generalizing s with
  | nil => cases h
  | cons p l ih =>
    obtain ⟨t', st⟩ := p
    simp only [run, List.mem_append, List.mem_map, Prod.mk.injEq] at h
    rcases h with ⟨o', ho, rfl, rfl⟩ | h
    · exact ⟨[], st, l, rfl, ho⟩
    · obtain ⟨a, st', b, rfl, h'⟩ := ih _ h
      exact ⟨(t', st) :: a, st', b, rfl, h'⟩

theorem outcome_legal {s : Server} {l : List (Nat × Stage)} (hl : Legal l) {t : Nat} {o : Outcome} (h : (t, o) ∈ (run s l).2.2) :
    o = callOn false (some (s.uses false)) ∨ o = callOn true (some (s.uses true)) := by
  obtain ⟨a, st, b, rfl, ho⟩ := outcome_source s l t o h
  obtain ⟨kinds, hk⟩ := hl t
  have hk' : Serves t kinds (a ++ [(t, st)]) := by
    refine List.IsPrefix.trans ?_ hk
    have : a ++ (t, st) :: b = (a ++ [(t, st)]) ++ b := by simp
    rw [this, ofThread_append t (a ++ [(t, st)])]
    exact List.prefix_append _ _
  cases st with
  | initSearcher => simp only [exec] at ho; split at ho <;> cases ho
  | initStreamer => simp only [exec] at ho; split at ho <;> cases ho
  | search =>
    have hu := at_use s a t .search (.inl rfl) kinds hk'
    simp only [exec, hu.1, List.mem_singleton] at ho
    exact .inl ho
  | stream =>
    have hu := at_use s a t .stream (.inr rfl) kinds hk'
    simp only [exec, hu.2, List.mem_singleton] at ho
    exact .inr ho

theorem callOn_absent {stream : Bool} {i : Impl} (h : i.there ≠ true) : callOn stream (some i) = if stream then .crash else .failed := by
  cases i with
  | user n => exact absurd rfl h
  | coll c => cases c with
    | none => rfl
    | some c => exact absurd rfl h

/-- **C107** No requests, however interleaved, end the program if and only if there is something to be used for streams. -/
theorem C107_crash_exact (s : Server) :
    (∀ l, Legal l → ∀ t, (t, Outcome.crash) ∉ (run s l).2.2) ↔ (s.uses true).there = true := by
  constructor
  · intro h
    apply Classical.byContradiction
    intro hn
    refine h ((serveHTTP .stream).map fun st => (0, st)) ?_ 0 ?_
    · intro t
      match t with
      | 0 => exact ⟨[.stream], List.prefix_rfl⟩
      | n + 1 => exact ⟨[], List.prefix_rfl⟩
    · obtain ⟨c, sr, st⟩ := s
      cases st with
      | none =>
        cases c with
        | some c => exact absurd rfl hn
        | none => cases sr <;> simp [serveHTTP, initFields, run, exec, callOn]
      | some i =>
        have hi : i.there ≠ true := hn
        have := callOn_absent (stream := true) hi
        cases sr <;> simp [serveHTTP, initFields, run, exec, this]
  · intro h l hl t hm
    rcases outcome_legal hl hm with ho | ho
    · cases hu : (s.uses false).there with
      | true => rw [callOn_there hu] at ho; cases ho
      | false => rw [callOn_absent (by simp [hu])] at ho; cases ho
    · rw [callOn_there h] at ho; cases ho

/-- **C107** No search fails with a panic, however interleaved, if and only if there is something to be used for searches. -/
theorem C107_failed_exact (s : Server) :
    (∀ l, Legal l → ∀ t, (t, Outcome.failed) ∉ (run s l).2.2) ↔ (s.uses false).there = true := by
  constructor
  · intro h
    apply Classical.byContradiction
    intro hn
    refine h ((serveHTTP .search).map fun st => (0, st)) ?_ 0 ?_
    · intro t
      match t with
      | 0 => exact ⟨[.search], List.prefix_rfl⟩
      | n + 1 => exact ⟨[], List.prefix_rfl⟩
    · obtain ⟨c, sr, st⟩ := s
      cases sr with
      | none =>
        cases c with
        | some c => exact absurd rfl hn
        | none => cases st <;> simp [serveHTTP, initFields, run, exec, callOn]
      | some i =>
        have hi : i.there ≠ true := hn
        have := callOn_absent (stream := false) hi
        cases st <;> simp [serveHTTP, initFields, run, exec, this]
  · intro h l hl t hm
    rcases outcome_legal hl hm with ho | ho
    · rw [callOn_there h] at ho; cases ho
    · cases hu : (s.uses true).there with
      | true => rw [callOn_there hu] at ho; cases ho
      | false => rw [callOn_absent (by simp [hu])] at ho; cases ho

/-- Two requests at the same time for a server with a searcher and a collector. -/
example : Legal [(0, .initSearcher), (1, .initSearcher), (1, .initStreamer), (0, .initStreamer), (1, .stream), (0, .search)] ∧
    (run { collector := some 3, searcher := some (.user 5) }
      [(0, .initSearcher), (1, .initSearcher), (1, .initStreamer), (0, .initStreamer), (1, .stream), (0, .search)]).2.2 =
      [(1, .served true (.coll (some 3))), (0, .served false (.user 5))] := by
  refine ⟨?_, rfl⟩
  intro t
  match t with
  | 0 => exact ⟨[.search], List.prefix_rfl⟩
  | 1 => exact ⟨[.stream], List.prefix_rfl⟩
  | n + 2 => exact ⟨[], List.prefix_rfl⟩

end Fields

/-- A request that meets both conditions, and one that meets neither. -/
example : (∀ d ∈ ({ bucketing := [0, 5] } : SearchRequest).bucketing, 0 ≤ d) ∧
    ¬ ∀ d ∈ ({ bucketing := [0, -5] } : SearchRequest).bucketing, 0 ≤ d := by
  constructor
  · intro d hd
    simp only [List.mem_cons, List.not_mem_nil, or_false] at hd
    rcases hd with rfl | rfl <;> decide
  · intro h
    exact absurd (h (-5) (by simp)) (by decide)

end Trc.Web
