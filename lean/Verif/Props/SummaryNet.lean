import Verif.Props.Grouping

/-!
# C161: the rows of the summary are right for any network of programs
-/

namespace Trc.Web

open Trc.StatsSpec

/-! ## Merging counts -/

/-- All traces that are reached, as they were counted. -/
def Reach.all (R : Reach) : List Static := R.buffers.flatten.map Prod.fst

theorem all_join (l : List Reach) : (Reach.join l).all = l.flatMap Reach.all := by
  unfold Reach.join Reach.all
  induction l with
  | nil => rfl
  | cons R l ih => simp only [List.flatMap_cons, List.flatten_append, List.map_append, ih]

theorem tallied_get {b : List Duration} {l : List Static} {ss : SearchStats} (h : Tallied b l ss) (k : String) :
    (ss.has k = true ↔ ofCat k l ≠ []) ∧ (ss.get k).activeCount = actives (ofCat k l) ∧ (ss.get k).erroredCount = failed (ofCat k l) ∧
      ∀ i d, b[i]? = some d → (ss.get k).bucket i = tookAtLeast d (ofCat k l) := by
  unfold SearchStats.has SearchStats.get
  cases hf : ss.categories.find k with
  | some cs =>
    obtain ⟨h1, h2⟩ := h.present k cs hf
    refine ⟨by simp [h1], h2.active, h2.errored, ?_⟩
    intro i d hd
    simp only [Option.getD_some]
    unfold CategoryStats.bucket
    rw [h2.bucket]
    simp [List.getD_eq_getElem?_getD, List.getElem?_map, hd]
  | none =>
    rw [h.absent k hf]
    refine ⟨by simp, rfl, rfl, ?_⟩
    intro i d _
    exact newCat_bucket ..

theorem tallied_intro {b : List Duration} {l : List Static} {ss : SearchStats} (hw : ss.WF b.length)
    (h : ∀ k, (ss.has k = true ↔ ofCat k l ≠ []) ∧ (ss.get k).activeCount = actives (ofCat k l) ∧
      (ss.get k).erroredCount = failed (ofCat k l) ∧ ∀ i d, b[i]? = some d → (ss.get k).bucket i = tookAtLeast d (ofCat k l)) :
    Tallied b l ss := by
  refine ⟨hw, ?_, ?_⟩
  · intro k cs hf
    obtain ⟨h1, h2, h3, h4⟩ := h k
    rw [SearchStats.find_get hf] at h2 h3 h4
    obtain ⟨c1, c2, _⟩ := hw.cat k cs hf
    refine ⟨h1.mp (by unfold SearchStats.has; rw [hf]; rfl), c1, h2, h3, ?_⟩
    apply List.ext_getElem
    · rw [c2, List.length_map]
    · intro i i1 i2
      rw [List.length_map] at i2
      have := h4 i b[i] (List.getElem?_eq_getElem i2)
      unfold CategoryStats.bucket at this
      simpa [List.getD_eq_getElem?_getD, List.getElem?_eq_getElem i1] using this
  · intro k hf
    obtain ⟨h1, _⟩ := h k
    unfold SearchStats.has at h1
    rw [hf] at h1
    simpa using h1

theorem tallied_mergeAll {b : List Duration} (hb : 0 < b.length) (o : List ((SearchStats × List (String × CategoryStats)) × List Static))
    (ho : ∀ p ∈ o, Tallied b p.2 p.1.1 ∧ p.1.2.Perm p.1.1.categories) :
    ∃ r, mergeAll (newSearchStats b) (o.map Prod.fst) = some r ∧ Tallied b (o.flatMap Prod.snd) r := by
  obtain ⟨r, r1, r2, _, r4, r5⟩ := mergeAll_spec hb (o.map Prod.fst) (fun p hp => by
    obtain ⟨q, hq, rfl⟩ := List.mem_map.mp hp
    exact ⟨(ho q hq).1.wf, (ho q hq).2⟩) (statsOf_new b).wf
  refine ⟨r, r1, tallied_intro r2 fun k => ?_⟩
  obtain ⟨a1, a2, a3, a4⟩ := r5 k
  have hhas := r4 k
  have z : ((newSearchStats b).get k).activeCount = 0 ∧ ((newSearchStats b).get k).erroredCount = 0 ∧
      (∀ i, ((newSearchStats b).get k).bucket i = 0) ∧ (newSearchStats b).has k = false := ⟨rfl, rfl, fun i => newCat_bucket .., rfl⟩
  rw [z.1] at a1
  rw [z.2.1] at a2
  rw [z.2.2.2] at hhas
  refine ⟨?_, ?_, ?_, ?_⟩
  · rw [hhas]
    simp only [Bool.false_or, List.any_map, List.any_eq_true, Function.comp]
    unfold ofCat
    rw [ne_eq, List.filter_eq_nil_iff]
    constructor
    · rintro ⟨p, hp, hk⟩ hall
      obtain ⟨t, ht⟩ := List.exists_mem_of_ne_nil _ ((tallied_get (ho p hp).1 k).1.mp hk)
      obtain ⟨t1, t2⟩ := List.mem_filter.mp ht
      exact hall t (List.mem_flatMap.mpr ⟨p, hp, t1⟩) t2
    · intro hne
      refine Classical.byContradiction fun hno => hne ?_
      intro t ht hk
      obtain ⟨p, hp, htp⟩ := List.mem_flatMap.mp ht
      exact hno ⟨p, hp, (tallied_get (ho p hp).1 k).1.mpr (List.ne_nil_of_mem (List.mem_filter.mpr ⟨htp, hk⟩))⟩
  · rw [a1]
    clear a1 a2 a3 a4 hhas r1 r4 r5 r2
    induction o with
    | nil => rfl
    | cons p o ih =>
      have := ih fun q hq => ho q (by simp [hq])
      simp only [List.map_cons, sumBy, List.flatMap_cons, ofCat_append, actives_append, (tallied_get (ho p (by simp)).1 k).2.1] at this ⊢
      omega
  · rw [a2]
    clear a1 a2 a3 a4 hhas r1 r4 r5 r2
    induction o with
    | nil => rfl
    | cons p o ih =>
      have := ih fun q hq => ho q (by simp [hq])
      simp only [List.map_cons, sumBy, List.flatMap_cons, ofCat_append, failed_append, (tallied_get (ho p (by simp)).1 k).2.2.1] at this ⊢
      omega
  · intro i d hd
    rw [a3, z.2.2.1]
    clear a1 a2 a3 a4 hhas r1 r4 r5 r2
    induction o with
    | nil => rfl
    | cons p o ih =>
      have := ih fun q hq => ho q (by simp [hq])
      simp only [List.map_cons, sumBy, List.flatMap_cons, ofCat_append, tookAtLeast_append,
        (tallied_get (ho p (by simp)).1 k).2.2.2 i d hd] at this ⊢
      omega

theorem tallied_wire {b : List Duration} {l : List Static} {ss : SearchStats} (h : Tallied b l ss) : Tallied b l (wireStats ss) := by
  refine ⟨Cmd.wireStats_wf h.wf, ?_, ?_⟩
  · intro k cs hf
    unfold wireStats at hf
    rw [Cmd.wire_find] at hf
    cases hk : ss.categories.find k with
    | none => rw [hk] at hf; cases hf
    | some cs' =>
      rw [hk] at hf
      obtain rfl := Option.some.inj hf
      obtain ⟨h1, h2⟩ := h.present k cs' hk
      exact ⟨h1, h2.category, h2.active, h2.errored, h2.bucket⟩
  · intro k hf
    unfold wireStats at hf
    rw [Cmd.wire_find] at hf
    cases hk : ss.categories.find k with
    | none => exact h.absent k hk
    | some cs' => rw [hk] at hf; cases hf

/-! ## Networks -/

section
variable {compile : Compile} {mulFrac : Nat → Nat → Nat → Nat} {size : JSON → Nat} {mime : List Char → Option String}

/-- A searcher whose statistics have the counts of what is reached. -/
def AllTally (compile : Compile) (s : Searcher) (r : SearchRequest → Reach) : Prop :=
  ∀ req, Ready compile req → ∃ res st, s req = some (req, .ok (some res)) ∧ res.stats = some st ∧ Tallied req.bucketing (r req).all st

def TallyOrFail (compile : Compile) (s : Searcher) (r : SearchRequest → Reach) : Prop :=
  ∀ req, Ready compile req → (∃ res st, s req = some (req, .ok (some res)) ∧ res.stats = some st ∧ Tallied req.bucketing (r req).all st) ∨
    ((∃ e, s req = some (req, .error e)) ∧ r req = .nothing)

theorem ready_ascending {req : SearchRequest} (hr : Ready compile req) : req.bucketing.Pairwise (· ≤ ·) := by
  obtain ⟨r, p, c1, c2, _⟩ := C35_buckets compile req hr.nonneg
  rw [hr.fix] at c1
  obtain ⟨rfl, _⟩ := Prod.mk.inj (Option.some.inj c1)
  exact c2

theorem tally_collector {α : Type} [Inhabited α] (srt : List Static → List Static) (source : String) (view : α → Look → Static)
    (rings : List (Ring.RB α)) (contents : List (List α)) (hb : Buffers rings contents) (took : Duration) :
    AllTally compile (collectorSearcher compile srt source view rings took) fun _ =>
      ⟨contents.map fun items => items.map fun c => (view c .observe, view c .filter), [source], 0⟩ := by
  intro req hr
  obtain ⟨req', problems, res, h1, h2, _, _, _, _, _, _, _, _, h11, _⟩ :=
    search_spec compile srt source req hr.fresh view rings contents hb.walk hb.rep
  have h1' := h1
  rw [hr.fix] at h1'
  obtain ⟨rfl, rfl⟩ := Prod.mk.inj (Option.some.inj h1')
  obtain ⟨ss, o1, o2⟩ := observeAll_spec (ready_ascending hr) (contents.flatten.map (view · .observe)) (statsOf_new req.bucketing)
  rw [h11] at o1
  obtain rfl := Option.some.inj o1
  refine ⟨{ res.toResponse with request := some req, duration := took }, res.stats, ?_, rfl, ?_⟩
  · unfold collectorSearcher
    rw [h1, h2]
    rfl
  · have := tallied_of o2
    rw [List.nil_append] at this
    have e : Reach.all ⟨contents.map fun items => items.map fun c => (view c .observe, view c .filter), [source], 0⟩ =
        contents.flatten.map (view · .observe) := by
      unfold Reach.all
      simp only [List.map_flatten, List.map_map, Function.comp_def]
    rw [e]
    exact this

theorem searchData_tally {s : Searcher} {r : SearchRequest → Reach} (hs : AllTally compile s r) {req req₁ : SearchRequest}
    {problems : List String} (h1 : req.normalize compile = some (req₁, problems)) (hr : Ready compile req₁) :
    ∃ data st, searchData compile s req = some data ∧ data.request = req₁ ∧ data.response.stats = some st ∧
      Tallied req₁.bucketing (r req₁).all st := by
  obtain ⟨res, st, e1, e2, e3⟩ := hs req₁ hr
  unfold searchData
  rw [h1]
  simp only [Option.bind_eq_bind, Option.bind_some, e1, takeResult, responseProblems, checkCategories, e2]
  split
  · exact ⟨_, st, rfl, rfl, e2, e3⟩
  · exact ⟨_, st, rfl, rfl, e2, e3⟩

theorem tally_client (renders : SearchData → Bool) (hm : mime "application/json".toList = some "application/json")
    {s : Searcher} {r : SearchRequest → Reach} (hs : AllTally compile s r) (rawQuery : Bytes) :
    TallyOrFail compile (clientSearcher rawQuery (handleSearch compile mulFrac size mime renders s)) fun req =>
      if size (encRequest req) > 1048576 then .nothing else r req := by
  intro req hr
  unfold clientSearcher searchClient
  by_cases hsize : size (encRequest req) > maxRequestBodySizeBytes
  · right
    refine ⟨⟨"read HTTP response", ?_⟩, if_pos hsize⟩
    unfold handleSearch readRequest readBody
    simp [hsize, Except.map]
  · left
    obtain ⟨data, st, d1, d2, d3, d4⟩ := searchData_tally hs (req := wireRequest req)
      (by rw [normalize_wire compile req hr.fresh]; exact hr.fix) hr
    have hread : readRequest mulFrac size
        { neg := { rawQuery, accept := ["application/json".toList] }, isJSON := true, body := some (encRequest req) } =
        some (wireRequest req) := by
      unfold readRequest readBody
      simp only [if_true]
      rw [if_neg hsize, request_rt]
    refine ⟨wireReply data.response, wireStats st, ?_, by simp [wireReply, d3], ?_⟩
    · unfold handleSearch
      rw [hread]
      simp only [d1, Option.map_some]
      unfold render
      rw [(client_json mime hm rawQuery).2]
      simp only [ne_eq, not_true_eq_false, if_false, data_rt]
      rfl
    · simp only []
      rw [if_neg (show ¬ size (encRequest req) > 1048576 from hsize)]
      exact tallied_wire d4

theorem arrivals_tally (o : Orders) {req : SearchRequest} (hr : Ready compile req) (ss : List ((String × Searcher) × (SearchRequest → Reach)))
    (hs : ∀ s ∈ ss, TallyOrFail compile s.1.2 s.2) :
    ∃ (as : List Arrival) (l : List ((SearchStats × List (String × CategoryStats)) × List Static)), arrivalsOf o req (ss.map Prod.fst) = some as ∧ arrivedStats as = l.map Prod.fst ∧
      (∀ p ∈ l, Tallied req.bucketing p.2 p.1.1 ∧ p.1.2.Perm p.1.1.categories) ∧
      (Reach.join (ss.map fun s => s.2 req)).all = l.flatMap Prod.snd := by
  induction ss with
  | nil => exact ⟨[], [], rfl, rfl, by simp, rfl⟩
  | cons s ss ih =>
    obtain ⟨as, l, h1, h2, h3, h4⟩ := ih fun s hs' => hs s (by simp [hs'])
    rw [all_join] at h4
    rcases hs s (by simp) req hr with ⟨res, st, e1, e2, e3⟩ | ⟨⟨e, e1⟩, e2⟩
    · refine ⟨{ id := s.1.1, res := some res.toResponse, order := o.merge st } :: as, ((st, o.merge st), (s.2 req).all) :: l,
        by simp [arrivalsOf, arrivalOf, e1, h1, e2], ?_, ?_, ?_⟩
      · have hstats : res.toResponse.stats = some st := e2
        unfold arrivedStats at h2 ⊢
        simp only [List.filterMap_cons, Option.bind_some, hstats, Option.map_some, List.map_cons, h2]
      · intro p hp
        rcases List.mem_cons.mp hp with rfl | hp'
        · exact ⟨e3, o.merge_perm st⟩
        · exact h3 p hp'
      · rw [all_join, List.map_cons, List.flatMap_cons, List.flatMap_cons, h4]
    · refine ⟨{ id := s.1.1, err := some e } :: as, l, by simp [arrivalsOf, arrivalOf, e1, h1], ?_, h3, ?_⟩
      · unfold arrivedStats at h2 ⊢
        simp only [List.filterMap_cons, Option.bind_none, Option.map_none, h2]
      · rw [all_join, List.map_cons, List.flatMap_cons, e2, h4]
        rfl

theorem tally_multi (srt : List Static → List Static) (o : Orders) (n₁ n₂ : Nat) (took : Duration)
    (ss : List ((String × Searcher) × (SearchRequest → Reach))) (hs : ∀ s ∈ ss, TallyOrFail compile s.1.2 s.2) :
    AllTally compile (multiSearcher compile srt o n₁ n₂ took (ss.map Prod.fst)) fun req => .join (ss.map fun s => s.2 req) := by
  intro req hr
  obtain ⟨as, l, h1, h2, h3, h4⟩ := arrivals_tally o hr ss hs
  have hfix := normalizeAgain_fix hr.fix
  obtain ⟨b0, bn⟩ := ready_bucketing hr
  obtain ⟨st, m1, m2⟩ := tallied_mergeAll bn l h3
  rw [← h2] at m1
  unfold multiSearcher multiSearch
  rw [hr.fix]
  simp only [bind, Option.bind_some, h1, hfix, gather_eq, m1, Option.map_some, pure]
  exact ⟨_, st, rfl, rfl, by rw [h4]; exact m2⟩

theorem network_tally (hm : mime "application/json".toList = some "application/json") {b : Bool} {s : Searcher} {r : SearchRequest → Reach}
    (h : Network compile mulFrac size mime b s r) : TallyOrFail compile s r ∧ (b = true → AllTally compile s r) := by
  induction h with
  | collector srt source view rings contents took hs h =>
    have := tally_collector (compile := compile) srt source view rings contents h took
    exact ⟨fun req hr => .inl (this req hr), fun _ => this⟩
  | multi srt o n₁ n₂ took ss hs h ih =>
    have := tally_multi srt o n₁ n₂ took ss fun s hs => (ih s hs).1
    exact ⟨fun req hr => .inl (this req hr), fun _ => this⟩
  | here s r h ih => exact ⟨ih.1, by intro h; cases h⟩
  | there rawQuery renders s r h ih => exact ⟨tally_client renders hm (ih.2 rfl) rawQuery, by intro h; cases h⟩
  | down rawQuery server h =>
    refine ⟨fun req hr => .inr ⟨?_, rfl⟩, by intro h; cases h⟩
    unfold clientSearcher searchClient
    rcases h { neg := { rawQuery, accept := ["application/json".toList] }, isJSON := true, body := some (encRequest req) } with h | ⟨res, h, hst⟩
    · rw [h]; exact ⟨_, rfl⟩
    · rw [h]; simp only [if_pos hst]; exact ⟨_, rfl⟩

/-! ## C161 -/

/-- What a row of the summary says about some traces. -/
structure Counts (buckets : List Duration) (traces : List Static) (row : Row) : Prop where
  active : row.active.count = (traces.filter fun t => !t.finished).length
  errored : row.errored.count = (traces.filter fun t => t.finished && t.errored).length
  buckets : row.buckets.map (fun c => (c.1, c.2.count)) =
    buckets.map fun d => (d, ((traces.filter fun t => t.finished && !t.errored && decide (d ≤ t.duration)).length : Int))
  total : row.total = traces.length

/-- **C161.** On every page of a server of any network of collectors, multi-searchers and servers, some of which may be down: the summary has a
row for each category that a trace in any of the programs that are reached has, once, in order, and at the end one row for all
categories. Each row counts the active, the failed and the successful traces of its category in all programs together, the latter by
how long they took, and all of them. It does not matter which of them the request asks for. No clock was set back. -/
theorem C161_rows (hm : mime "application/json".toList = some "application/json") (s : Searcher) (r : SearchRequest → Reach)
    (hs : Network compile mulFrac size mime true s r) (o : Orders) (q : SearchHTTP) (req : SearchRequest)
    (hreq : readRequest mulFrac size q = some req) (h0 : ∀ d ∈ req.bucketing, 0 ≤ d)
    (hc : ∀ req, ∀ b ∈ (r req).buffers, ∀ t ∈ b, t.1.finished = true → t.1.errored = false → 0 ≤ t.1.duration)
    (resp : HTTPResponse) (data : SearchData)
    (hresp : handleSearch compile mulFrac size mime (shows o) s q = some resp) (hpage : resp.body = .page data) :
    ∃ st rows last, data.response.stats = some st ∧ summary data.request st (o.all st) (o.overall st) = some (rows ++ [last]) ∧
      let reached := (r data.request).buffers.flatten.map Prod.fst
      (rows.map (·.category)).Pairwise (· < ·) ∧ (∀ k, k ∈ rows.map (·.category) ↔ ∃ t ∈ reached, t.category = k) ∧
      (∀ row ∈ rows, Counts data.request.bucketing (reached.filter fun t => t.category = row.category) row) ∧
      last.category = "overall" ∧ Counts data.request.bucketing reached last := by
  obtain ⟨req₁, invalid, hn, hr⟩ := normalize_ready (read_fresh compile hreq) h0
  obtain ⟨data', st, d1, d2, d3, d4⟩ := searchData_tally ((network_tally hm hs).2 rfl) hn hr
  have hresp' : resp = render mime (shows o) q data' := by
    unfold handleSearch at hresp
    rw [hreq] at hresp
    simp only [d1, Option.map_some] at hresp
    exact (Option.some.inj hresp).symm
  have hdata : data' = data := by
    rw [hresp'] at hpage
    unfold render at hpage
    split at hpage
    · cases hpage; rfl
    · cases hpage
  subst hdata
  subst d2
  obtain ⟨names, e1, e2, e3⟩ := summary_spec data'.request (ready_bucketing hr).1 d4 (by
    intro t ht
    obtain ⟨p, hp, rfl⟩ := List.mem_map.mp ht
    obtain ⟨b, hb, hpb⟩ := List.mem_flatten.mp hp
    exact hc _ b hb p hpb) (o.all st) (o.overall st) (o.all_perm st) (o.overall_perm st)
  have htells : ∀ k l, Counts data'.request.bucketing l (rowFor data'.request.bucketing k l) := by
    intro k l
    refine ⟨rfl, rfl, ?_, rfl⟩
    simp only [rowFor, List.map_map]
    rfl
  refine ⟨st, _, _, d3, e1, ?_, ?_, ?_, rfl, htells _ _⟩
  · rw [List.map_map]
    have e : List.map ((fun x : Row => x.category) ∘ fun k => rowFor data'.request.bucketing k (ofCat k (r data'.request).all)) names = names :=
      List.map_id _
    rw [e]
    exact e2
  · intro k
    rw [List.map_map]
    exact (by simp [Function.comp_def, rowFor] : k ∈ List.map _ names ↔ k ∈ names).trans (e3 k)
  · intro row hrow
    obtain ⟨k, hk, rfl⟩ := List.mem_map.mp hrow
    have e : ((r data'.request).buffers.flatten.map Prod.fst).filter (fun t => decide (t.category = k)) = ofCat k (r data'.request).all := by
      unfold ofCat Reach.all
      apply List.filter_congr
      intro t _
      rw [Bool.eq_iff_iff]; simp
    show Counts _ (((r data'.request).buffers.flatten.map Prod.fst).filter (fun t => decide (t.category = k))) _
    rw [e]
    exact htells _ _

end

/-! ## Example -/

private def twoMimes : List Char → Option String := fun l =>
  if l = "application/json".toList then some "application/json" else if l = "text/html".toList then some "text/html" else none

private def noRegexp : Compile := fun _ => .error ""
private def frac : Nat → Nat → Nat → Nat := fun f unit k => f * unit / 10 ^ k

private def browse (query : String) : SearchHTTP :=
  { neg := { rawQuery := bytesOf query, accept := ["text/html".toList] }, isJSON := false, body := none }

private def twoTraces : List (Ring.Op Static) :=
  [.add (sampleTrace "a" 1 false false 0), .add (sampleTrace "b" 2 true false 3)]

private def rowsOf : Option HTTPResponse → Option (List (String × List Int))
  | some ⟨200, .page data⟩ => do
    let st ← data.response.stats
    let rows ← summary data.request st (listed.all st) (listed.overall st)
    return rows.map fun row => (row.category, row.active.count :: row.buckets.map (·.2.count) ++ [row.errored.count, row.total])
  | _ => none

/-- Two programs, one of them asked over HTTP, with two traces each, and a server that is down; a search for failed traces. -/
example : ∃ (rb : Ring.RB Static) (outs : List (List Static)), Ring.exec 10 twoTraces = some (rb, outs) ∧
    let contents := [[sampleTrace "b" 2 true false 3, sampleTrace "a" 1 false false 0]]
    let collector := fun source => collectorSearcher noRegexp sortNewest source still [rb] 5
    let R : String → SearchRequest → Reach := fun source _ => ⟨contents.map fun items => items.map fun c => (still c .observe, still c .filter), [source], 0⟩
    let remote := clientSearcher [] (handleSearch noRegexp frac (fun _ => 0) twoMimes (shows listed) (collector "t"))
    let net := multiSearcher noRegexp sortNewest listed 0 1 7 [("2", remote), ("3", clientSearcher [] fun _ => none), ("1", collector "s")]
    let reach := fun req => Reach.join [R "t" req, .nothing, R "s" req]
    Network noRegexp frac (fun _ => 0) twoMimes true net reach ∧
    (∀ d ∈ (requestOfURL frac (bytesOf "b=5ns&errored=true")).bucketing, 0 ≤ d) ∧
    (∀ req, ∀ b ∈ (reach req).buffers, ∀ t ∈ b, t.1.finished = true → t.1.errored = false → 0 ≤ t.1.duration) ∧
    rowsOf (handleSearch noRegexp frac (fun _ => 0) twoMimes (shows listed) net (browse "b=5ns&errored=true")) =
      some [("c", [2, 2, 0, 0, 4]), ("overall", [2, 2, 0, 0, 4])] := by
  have hbuf : ∀ rb outs, Ring.exec 10 twoTraces = some (rb, outs) →
      Buffers [rb] [[sampleTrace "b" 2 true false 3, sampleTrace "a" 1 false false 0]] := by
    intro rb outs h
    refine ⟨?_, ?_⟩
    · cases h; rfl
    · intro rb' hm
      obtain rfl := List.mem_singleton.mp hm
      exact ⟨10, _, _, h⟩
  refine ⟨_, _, rfl, ?_, ?_, ?_, ?_⟩
  · refine .multi _ _ _ _ _ [(("2", _), _), (("3", _), _), (("1", _), _)] sortNewest_ok ?_
    intro s hs
    simp only [List.mem_cons, List.not_mem_nil, or_false] at hs
    rcases hs with rfl | rfl | rfl
    · exact .there _ _ _ _ (.collector _ _ _ _ _ _ sortNewest_ok (hbuf _ _ rfl))
    · exact .down _ _ fun _ => .inl rfl
    · exact .here _ _ (.collector _ _ _ _ _ _ sortNewest_ok (hbuf _ _ rfl))
  · decide +kernel
  · intro req b hb t ht
    simp only [Reach.join, List.flatMap_cons, List.flatMap_nil, Reach.nothing, List.map_cons, List.map_nil, List.nil_append, List.append_nil,
      List.cons_append, List.mem_cons, List.not_mem_nil, or_false, or_self] at hb
    subst hb
    simp only [List.mem_cons, List.not_mem_nil, or_false] at ht
    rcases ht with rfl | rfl <;> intro _ _ <;> decide
  · decide +kernel

end Trc.Web
