import Verif.Web.Shown
import Verif.Props.CmdSearch
import Verif.Props.PageCounts

/-!
# C111: every answer can be shown as a page
-/

namespace Trc

theorem olderOf_zero (a b : Time) : (olderOf a b).isZero = true → olderOf a b = Time.zero := by
  unfold olderOf
  cases ha : a.isZero <;> cases hb : b.isZero <;> simp
  · intro h
    split at h
    · rw [ha] at h; cases h
    · rw [hb] at h; cases h
  · intro h; rw [ha] at h; cases h
  · intro h; rw [hb] at h; cases h

theorem newerOf_zero (a b : Time) : (newerOf a b).isZero = true → newerOf a b = Time.zero := by
  unfold newerOf
  cases ha : a.isZero <;> cases hb : b.isZero <;> simp
  · intro h
    split at h
    · rw [ha] at h; cases h
    · rw [hb] at h; cases h
  · intro h; rw [ha] at h; cases h
  · intro h; rw [hb] at h; cases h

theorem bump_nonneg (d : Duration) : ∀ (b : List Duration) (c c' : List Int), (∀ x ∈ c, 0 ≤ x) → bump d b c = some c' → ∀ x ∈ c', 0 ≤ x := by
  intro b
  induction b with
  | nil => intro c c' h e; simp [bump] at e; exact e ▸ h
  | cons b bs ih =>
    intro c c' h e
    unfold bump at e
    split at e
    · exact Option.some.inj e ▸ h
    · cases c with
      | nil => cases e
      | cons y c =>
        simp only [Option.map_eq_some_iff] at e
        obtain ⟨c₁, e1, rfl⟩ := e
        intro x hx
        rcases List.mem_cons.mp hx with rfl | hx
        · have := h y (by simp)
          omega
        · exact ih c c₁ (fun z hz => h z (by simp [hz])) e1 x hx

/-- Whatever the buckets are, observing a trace keeps the statistics in order. -/
theorem observe_wf {n : Nat} {ss : SearchStats} (h : ss.WF n) (tr : Static) : ∃ ss', ss.observe tr = some ss' ∧ ss'.WF n := by
  unfold SearchStats.observe
  simp only [Option.bind_eq_bind, Option.pure_def]
  obtain ⟨cs, hcs⟩ : ∃ cs, cs = (ss.categories.find tr.category).getD (newCategoryStats tr.category ss.bucketing) := ⟨_, rfl⟩
  have hok : cs.category = tr.category ∧ cs.bucketCounts.length = n ∧ 0 ≤ cs.activeCount ∧ 0 ≤ cs.erroredCount ∧
      ∀ c ∈ cs.bucketCounts, 0 ≤ c := by
    rw [hcs]
    cases hf : ss.categories.find tr.category with
    | none => simp [newCategoryStats, h.len]
    | some c =>
      obtain ⟨h1, h2, h3, h4, h5, _⟩ := h.cat _ _ hf
      exact ⟨h1, h2, h3, h4, h5⟩
  rw [← hcs]
  obtain ⟨k1, k2, k3, k4, k5⟩ := hok
  have hcount : ∃ cs', ({ cs with eventCount := cs.eventCount + tr.events.length } : CategoryStats).count ss.bucketing tr = some cs' ∧
      cs'.category = tr.category ∧ cs'.bucketCounts.length = n ∧ 0 ≤ cs'.activeCount ∧ 0 ≤ cs'.erroredCount ∧
      ∀ c ∈ cs'.bucketCounts, 0 ≤ c := by
    unfold CategoryStats.count
    cases tr.finished with
    | false => exact ⟨_, rfl, k1, k2, by show 0 ≤ cs.activeCount + 1; omega, k4, k5⟩
    | true =>
      cases tr.errored with
      | true => exact ⟨_, rfl, k1, k2, k3, by show 0 ≤ cs.erroredCount + 1; omega, k5⟩
      | false =>
        simp only [Bool.not_true, Bool.false_eq_true, if_false, Bool.not_false, Bool.and_self, if_true]
        obtain ⟨c', h1, h2⟩ := bump_some tr.duration ss.bucketing cs.bucketCounts (by rw [k2, h.len])
        rw [h1]
        exact ⟨_, rfl, k1, by show c'.length = n; rw [h2, h.len], k3, k4, bump_nonneg _ _ _ _ k5 h1⟩
  obtain ⟨cs', h1, h2⟩ := hcount
  rw [h1]
  refine ⟨_, rfl, h.len, Ring.Assoc.nodup_insert h.nodup _ _, ?_⟩
  intro k c hk
  simp only at hk
  rw [Ring.Assoc.find_insert] at hk
  split at hk
  · rename_i e
    obtain rfl := Option.some.inj hk
    obtain ⟨g1, g2, g3, g4, g5⟩ := h2
    exact ⟨by rw [← e] <;> exact g1, g2, g3, g4, g5, olderOf_zero _ _, newerOf_zero _ _⟩
  · exact h.cat k c hk

theorem observeAll_wf {n : Nat} (l : List Static) {ss : SearchStats} (h : ss.WF n) : ∃ ss', ss.observeAll l = some ss' ∧ ss'.WF n := by
  induction l generalizing ss with
  | nil => exact ⟨ss, rfl, h⟩
  | cons t l ih =>
    obtain ⟨s₁, h1, h2⟩ := observe_wf h t
    obtain ⟨s₂, h3, h4⟩ := ih h2
    exact ⟨s₂, by simp [SearchStats.observeAll, h1, h3], h4⟩

end Trc

namespace Trc.Web

/-! ## The summary -/

theorem bucketCells_some (requested : List Duration) (total : Int) : ∀ (counts : List Int) (i : Nat), i + counts.length ≤ requested.length →
    ∃ cells, bucketCells requested total i counts = some cells ∧ cells.length = counts.length := by
  intro counts
  induction counts with
  | nil => intro i _; exact ⟨[], rfl, rfl⟩
  | cons n counts ih =>
    intro i h
    simp only [List.length_cons] at h
    obtain ⟨cells, h1, h2⟩ := ih (i + 1) (by omega)
    have : requested[i]? = some (requested[i]'(by omega)) := List.getElem?_eq_getElem ..
    exact ⟨_, by simp [bucketCells, this, h1]; rfl, by simp [h2]⟩

theorem summaryRow_some (r : SearchRequest) (cs : CategoryStats) (h : cs.bucketCounts.length ≤ r.bucketing.length) :
    ∃ row, summaryRow r cs = some row := by
  obtain ⟨cells, h1, _⟩ := bucketCells_some r.bucketing cs.totalCount cs.bucketCounts 0 (by omega)
  exact ⟨_, by simp [summaryRow, h1]; rfl⟩

theorem summaryRows_some (r : SearchRequest) (l : List CategoryStats) (h : ∀ cs ∈ l, cs.bucketCounts.length ≤ r.bucketing.length) :
    ∃ rows, summaryRows r l = some rows := by
  induction l with
  | nil => exact ⟨[], rfl⟩
  | cons cs l ih =>
    obtain ⟨row, h1⟩ := summaryRow_some r cs (h cs (by simp))
    obtain ⟨rows, h2⟩ := ih fun c hc => h c (by simp [hc])
    exact ⟨row :: rows, by simp [summaryRows, h1, h2]⟩

/-- Statistics with as many counts as the request has buckets can be shown. -/
theorem summary_some (o : Orders) (r : SearchRequest) (st : SearchStats) (h : st.WF r.bucketing.length) :
    ∃ rows, summary r st (o.all st) (o.overall st) = some rows := by
  obtain ⟨l, ov, h1, h2, h3, _⟩ := C43_allCategories st h _ _ (o.all_perm st) (o.overall_perm st)
  obtain ⟨ov', e1, _, _, _, e2, _⟩ := C43_overall_partial st h _ (o.overall_perm st)
  rw [h2] at e1
  obtain rfl := Option.some.inj e1
  obtain ⟨rows, hr⟩ := summaryRows_some r (l ++ [ov]) (by
    intro cs hcs
    rcases List.mem_append.mp hcs with hcs | hcs
    · obtain ⟨⟨k, c⟩, hm, rfl⟩ := List.mem_map.mp (h3.mem_iff.mp hcs)
      exact Nat.le_of_eq (h.cat k c (Ring.Assoc.mem_find h.nodup hm)).2.1
    · obtain rfl := List.mem_singleton.mp hcs
      exact Nat.le_of_eq e2)
  exact ⟨rows, by unfold summary; rw [h1]; exact hr⟩

/-! ## Searchers -/

section
variable {compile : Compile} {mulFrac : Nat → Nat → Nat → Nat} {size : JSON → Nat} {mime : List Char → Option String}

/-- A request that was normalized and asks for no negative buckets. -/
structure Ready (compile : Compile) (req : SearchRequest) : Prop where
  fix : req.normalize compile = some (req, [])
  fresh : req.filter.Fresh compile
  nonneg : ∀ d ∈ req.bucketing, 0 ≤ d

/-- What is asked of an answer. -/
def Answer (req : SearchRequest) (a : Option (SearchRequest × Except String (Option Reply))) : Prop :=
  ∃ res st, a = some (req, .ok (some res)) ∧ res.stats = some st ∧ st.WF req.bucketing.length

def Good (compile : Compile) (s : Searcher) : Prop := ∀ req, Ready compile req → Answer req (s req)

def GoodOrFails (compile : Compile) (s : Searcher) : Prop :=
  ∀ req, Ready compile req → Answer req (s req) ∨ ∃ e, s req = some (req, .error e)

theorem normalize_ready {req : SearchRequest} (hf : req.filter.Fresh compile) (h0 : ∀ d ∈ req.bucketing, 0 ≤ d) :
    ∃ req' problems, req.normalize compile = some (req', problems) ∧ Ready compile req' := by
  obtain ⟨req', problems, h1, h2⟩ := C36_idempotent_partial compile req hf h0
  refine ⟨req', problems, h1, h2, ?_, ?_⟩
  · have : req'.filter = (req.filter.normalize compile).1 := by
      unfold SearchRequest.normalize at h1
      cases hb : normalizeBucketing req.bucketing with
      | none => rw [hb] at h1; cases h1
      | some b =>
        rw [hb] at h1
        simp only [bind, Option.bind_some, pure, Option.some.injEq, Prod.mk.injEq] at h1
        rw [← h1.1]
    rw [this]; exact (normalize_fresh compile _ hf).1
  · obtain ⟨r, p, c1, c2, c3, c4, _⟩ := C35_buckets compile req h0
    rw [h1] at c1
    obtain ⟨rfl, _⟩ := Prod.mk.inj (Option.some.inj c1)
    intro d hd
    rcases (c4 d).mp hd with rfl | hd
    · exact Int.le_refl 0
    · unfold requested at hd
      split at hd
      · exact (show ∀ d ∈ defaultBucketing, 0 ≤ d by decide) d hd
      · exact h0 d hd

/-- A collector answers, with statistics for the buckets of the request as it leaves it, whatever they are. -/
theorem collector_answer {α : Type} [Inhabited α] (srt : List Static → List Static) (source : String) (view : α → Look → Static)
    (rings : List (Ring.RB α)) (contents : List (List α)) (hb : Buffers rings contents) (took : Duration)
    (req : SearchRequest) (hf : req.filter.Fresh compile) :
    ∃ req' problems, req.normalize compile = some (req', problems) ∧
      Answer req' (collectorSearcher compile srt source view rings took req) := by
  obtain ⟨req', problems, res, h1, h2, _, _, _, _, _, _, _, _, h11, _⟩ :=
    search_spec compile srt source req hf view rings contents hb.walk hb.rep
  obtain ⟨ss, o1, o2⟩ := observeAll_wf (contents.flatten.map (view · .observe)) (statsOf_new req'.bucketing).wf
  rw [h11] at o1
  obtain rfl := Option.some.inj o1
  refine ⟨req', problems, h1, { res.toResponse with request := some req', duration := took }, res.stats, ?_, rfl, o2⟩
  unfold collectorSearcher
  rw [h1, h2]
  rfl

theorem good_collector {α : Type} [Inhabited α] (srt : List Static → List Static) (source : String) (view : α → Look → Static)
    (rings : List (Ring.RB α)) (contents : List (List α)) (hb : Buffers rings contents) (took : Duration) :
    Good compile (collectorSearcher compile srt source view rings took) := by
  intro req hr
  obtain ⟨req', problems, h1, h2⟩ := collector_answer srt source view rings contents hb took req hr.fresh
  rw [hr.fix] at h1
  obtain ⟨rfl, _⟩ := Prod.mk.inj (Option.some.inj h1)
  exact h2

/-- The data of a request that was normalized. -/
theorem searchData_ok {searcher : Searcher} {req req₁ req₂ : SearchRequest} {problems : List String} (h1 : req.normalize compile = some (req₁, problems))
    (h2 : Answer req₂ (searcher req₁)) :
    ∃ data, searchData compile searcher req = some data ∧ data.request = req₂ ∧
      ∃ st, data.response.stats = some st ∧ st.WF req₂.bucketing.length := by
  obtain ⟨res, st, e1, e2, e3⟩ := h2
  unfold searchData
  rw [h1]
  simp only [Option.bind_eq_bind, Option.bind_some, e1, takeResult, responseProblems, checkCategories, e2]
  split
  · exact ⟨_, rfl, rfl, st, e2, e3⟩
  · exact ⟨_, rfl, rfl, st, e2, e3⟩

theorem goodOrFails_client (renders : SearchData → Bool) (hm : mime "application/json".toList = some "application/json")
    {s : Searcher} (hs : Good compile s) (rawQuery : Bytes) :
    GoodOrFails compile (clientSearcher rawQuery (handleSearch compile mulFrac size mime renders s)) := by
  intro req hr
  unfold clientSearcher searchClient
  by_cases hsize : size (encRequest req) > maxRequestBodySizeBytes
  · right
    refine ⟨"read HTTP response", ?_⟩
    unfold handleSearch readRequest readBody
    simp [hsize, Except.map]
  · left
    obtain ⟨data, d1, d2, st, d3, d4⟩ := searchData_ok (searcher := s) (req := wireRequest req) (by rw [normalize_wire compile req hr.fresh]; exact hr.fix) (hs req hr)
    have hread : readRequest mulFrac size
        { neg := { rawQuery, accept := ["application/json".toList] }, isJSON := true, body := some (encRequest req) } =
        some (wireRequest req) := by
      unfold readRequest readBody
      simp only [if_true]
      rw [if_neg hsize, request_rt]
    refine ⟨wireReply data.response, wireStats st, ?_, by simp [wireReply, d3], Cmd.wireStats_wf d4⟩
    unfold handleSearch
    rw [hread]
    simp only [d1, Option.map_some]
    unfold render
    rw [(client_json mime hm rawQuery).2]
    simp only [ne_eq, not_true_eq_false, if_false, data_rt]
    rfl

/-- What arrives from searchers that answer or fail. -/
theorem arrivals_ok (o : Orders) {req : SearchRequest} (hr : Ready compile req) (ss : List (String × Searcher))
    (hs : ∀ s ∈ ss, GoodOrFails compile s.2) :
    ∃ as, arrivalsOf o req ss = some as ∧ as.length = ss.length ∧
      ∀ p ∈ arrivedStats as, (p.1.isZero = true ∨ p.1.WF req.bucketing.length) ∧ p.2.Perm p.1.categories := by
  induction ss with
  | nil => exact ⟨[], rfl, rfl, by intro p hp; cases hp⟩
  | cons s ss ih =>
    obtain ⟨as, h1, h2, h3⟩ := ih fun s hs' => hs s (by simp [hs'])
    rcases hs s (by simp) req hr with ⟨res, st, e1, e2, e3⟩ | ⟨e, e1⟩
    · refine ⟨_, by simp [arrivalsOf, arrivalOf, e1, h1]; rfl, by simp [h2], ?_⟩
      intro p hp
      simp only [arrivedStats, List.filterMap_cons, Option.bind_some, e2, Option.map_some, List.mem_cons] at hp
      rcases hp with rfl | hp
      · exact ⟨.inr e3, o.merge_perm st⟩
      · exact h3 p hp
    · refine ⟨_, by simp [arrivalsOf, arrivalOf, e1, h1]; rfl, by simp [h2], ?_⟩
      intro p hp
      simp only [arrivedStats, List.filterMap_cons, Option.bind_none, Option.map_none] at hp
      exact h3 p hp

theorem good_multi (srt : List Static → List Static) (o : Orders) (n₁ n₂ : Nat) (took : Duration) (ss : List (String × Searcher))
    (hs : ∀ s ∈ ss, GoodOrFails compile s.2) : Good compile (multiSearcher compile srt o n₁ n₂ took ss) := by
  intro req hr
  obtain ⟨as, h1, _, h2⟩ := arrivals_ok o hr ss hs
  have hfix := normalizeAgain_fix hr.fix
  have hb : req.bucketing ≠ [] := by
    obtain ⟨r, p, c1, c2, c3, c4, _⟩ := C35_buckets compile req hr.nonneg
    rw [hr.fix] at c1
    obtain ⟨rfl, _⟩ := Prod.mk.inj (Option.some.inj c1)
    intro e
    have := (c4 0).mpr (.inl rfl)
    rw [e] at this; cases this
  obtain ⟨st, m1, m2⟩ := mergeAll_usable (List.length_pos_iff.mpr hb) _ h2 (statsOf_new req.bucketing).wf
  unfold multiSearcher multiSearch
  rw [hr.fix]
  simp only [bind, Option.bind_some, h1, hfix, gather_eq, m1, Option.map_some, pure]
  exact ⟨_, st, rfl, rfl, m2⟩

end

/-! ## C111 -/

/-- The ways to put searchers together: a collector; a multi-searcher of such searchers, of clients of servers that
serve them, and of clients of servers that cannot be reached.  The first argument tells whether a
server may serve the searcher. -/
inductive Net (compile : Compile) (mulFrac : Nat → Nat → Nat → Nat) (size : JSON → Nat) (mime : List Char → Option String) :
    Bool → Searcher → Prop
  | collector {α : Type} [Inhabited α] (srt : List Static → List Static) (source : String) (view : α → Look → Static)
      (rings : List (Ring.RB α)) (contents : List (List α)) (took : Duration) (h : Buffers rings contents) :
      Net compile mulFrac size mime true (collectorSearcher compile srt source view rings took)
  | multi (srt : List Static → List Static) (o : Orders) (n₁ n₂ : Nat) (took : Duration) (ss : List (String × Searcher))
      (h : ∀ s ∈ ss, Net compile mulFrac size mime false s.2) :
      Net compile mulFrac size mime true (multiSearcher compile srt o n₁ n₂ took ss)
  | here (s : Searcher) (h : Net compile mulFrac size mime true s) : Net compile mulFrac size mime false s
  | there (rawQuery : Bytes) (renders : SearchData → Bool) (s : Searcher) (h : Net compile mulFrac size mime true s) :
      Net compile mulFrac size mime false (clientSearcher rawQuery (handleSearch compile mulFrac size mime renders s))
  | down (rawQuery : Bytes) (server : SearchHTTP → Option HTTPResponse)
      (h : ∀ r, server r = none ∨ ∃ res, server r = some res ∧ res.status ≠ 200) :
      Net compile mulFrac size mime false (clientSearcher rawQuery server)

section
variable {compile : Compile} {mulFrac : Nat → Nat → Nat → Nat} {size : JSON → Nat} {mime : List Char → Option String}

theorem net_good (hm : mime "application/json".toList = some "application/json") {b : Bool} {s : Searcher}
    (h : Net compile mulFrac size mime b s) : GoodOrFails compile s ∧ (b = true → Good compile s) := by
  induction h with
  | collector srt source view rings contents took h =>
    have := good_collector (compile := compile) srt source view rings contents h took
    exact ⟨fun req hr => .inl (this req hr), fun _ => this⟩
  | multi srt o n₁ n₂ took ss h ih =>
    have := good_multi srt o n₁ n₂ took ss fun s hs => (ih s hs).1
    exact ⟨fun req hr => .inl (this req hr), fun _ => this⟩
  | here s h ih => exact ⟨ih.1, by intro h; cases h⟩
  | there rawQuery renders s h ih => exact ⟨goodOrFails_client renders hm (ih.2 rfl) rawQuery, by intro h; cases h⟩
  | down rawQuery server h =>
    refine ⟨fun req hr => .inr ?_, by intro h; cases h⟩
    unfold clientSearcher searchClient
    rcases h { neg := { rawQuery, accept := ["application/json".toList] }, isJSON := true, body := some (encRequest req) } with h | ⟨res, h, hst⟩
    · rw [h]; exact ⟨_, rfl⟩
    · rw [h]; simp only [if_pos hst]; exact ⟨_, rfl⟩

theorem dec_bind {α β : Type} {x : Option α} {f : α → Option β} {P : β → Prop} (h : ∀ a b, f a = some b → P b) :
    ∀ b, (x >>= f) = some b → P b := by
  intro b e
  cases x with
  | none => cases e
  | some a => exact h a b e

/-- A request as it is read has no compiled query. -/
theorem read_fresh (compile : Compile) {r : SearchHTTP} {req : SearchRequest} (h : readRequest mulFrac size r = some req) :
    req.filter.Fresh compile := by
  have hd : ∀ v f, decFilter v = some f → f.regexp = none := by
    intro v
    unfold decFilter
    iterate 10 (apply dec_bind; intro _)
    intro f e
    cases e; rfl
  have : req.filter.regexp = none := by
    unfold readRequest at h
    split at h
    · unfold readBody at h
      split at h
      · cases h
      · split at h
        · cases h
        · rename_i v _ _
          unfold decRequest at h
          simp only [Option.bind_eq_bind, Option.bind_eq_some_iff] at h
          obtain ⟨o, _, b, _, f, hf, l, _, s, _, e⟩ := h
          cases e
          show f.regexp = none
          unfold get at hf
          split at hf
          · cases hf; rfl
          · cases hf; rfl
          · exact hd _ f hf
    · cases h; rfl
  intro re hre
  rw [this] at hre; cases hre

/-- A page that can be shown. -/
theorem render_ok (o : Orders) (r : SearchHTTP) (data : SearchData) (st : SearchStats) (h : data.response.stats = some st)
    (hw : st.WF data.request.bucketing.length) : (render mime (shows o) r data).status = 200 := by
  unfold render
  split
  · obtain ⟨rows, hr⟩ := summary_some o data.request st hw
    simp [shows, h, hr]
  · rfl

/-- **C111** A server of a collector answers every request that can be read with status 200: the page can be shown, whatever
the request asks for and whatever the collector holds. -/
theorem C111_collector {α : Type} [Inhabited α] (srt : List Static → List Static) (source : String) (view : α → Look → Static)
    (rings : List (Ring.RB α)) (contents : List (List α)) (hb : Buffers rings contents) (took : Duration) (o : Orders)
    (r : SearchHTTP) (req : SearchRequest) (hreq : readRequest mulFrac size r = some req) :
    ∃ resp, handleSearch compile mulFrac size mime (shows o) (collectorSearcher compile srt source view rings took) r = some resp ∧
      resp.status = 200 := by
  have hf := read_fresh compile hreq
  obtain ⟨req₁, hn⟩ := normalize_total compile req
  have hf₁ : req₁.filter.Fresh compile := by
    have : req₁.filter = (req.filter.normalize compile).1 := by
      unfold SearchRequest.normalize at hn
      cases hb : normalizeBucketing req.bucketing with
      | none => rw [hb] at hn; cases hn
      | some b =>
        rw [hb] at hn
        simp only [bind, Option.bind_some, pure, Option.some.injEq, Prod.mk.injEq] at hn
        rw [← hn.1]
    rw [this]; exact (normalize_fresh compile _ hf).1
  obtain ⟨req₂, p₂, _, h2⟩ := collector_answer (compile := compile) srt source view rings contents hb took req₁ hf₁
  obtain ⟨data, d1, rfl, st, d3, d4⟩ := searchData_ok hn h2
  exact ⟨render mime (shows o) r data, by unfold handleSearch; rw [hreq]; simp only [d1, Option.map_some], render_ok o r data st d3 d4⟩

/-- **C111** A server of any network of collectors, multi-searchers and servers, some of which may be down, answers every
request for buckets that are not negative with status 200: the page can be shown.  (Partial: negative buckets,
`C111_negative_violated`.) -/
theorem C111_net_partial (hm : mime "application/json".toList = some "application/json") (s : Searcher)
    (hs : Net compile mulFrac size mime true s) (o : Orders) (r : SearchHTTP) (req : SearchRequest)
    (hreq : readRequest mulFrac size r = some req) (h0 : ∀ d ∈ req.bucketing, 0 ≤ d) :
    ∃ resp, handleSearch compile mulFrac size mime (shows o) s r = some resp ∧ resp.status = 200 := by
  obtain ⟨req₁, problems, hn, hr⟩ := normalize_ready (read_fresh compile hreq) h0
  obtain ⟨data, d1, rfl, st, d3, d4⟩ := searchData_ok hn ((net_good hm hs).2 rfl req₁ hr)
  exact ⟨render mime (shows o) r data, by unfold handleSearch; rw [hreq]; simp only [d1, Option.map_some], render_ok o r data st d3 d4⟩

/-- With a negative bucket, every normalization adds a bucket. -/
theorem normalize_negative {req : SearchRequest} (h : ∃ d ∈ req.bucketing, d < 0) (hf : req.filter.Fresh compile) :
    ∃ req' problems, req.normalize compile = some (req', problems) ∧ req'.bucketing.length = req.bucketing.length + 1 ∧
      (∃ d ∈ req'.bucketing, d < 0) ∧ req'.filter.Fresh compile := by
  obtain ⟨d, hd, hneg⟩ := h
  have hne : ¬ (req.bucketing.length : Int) ≤ 0 := by
    have := List.length_pos_of_mem hd
    omega
  have hp := sortDurations_perm req.bucketing
  have hs := sortDurations_sorted req.bucketing
  have hb : normalizeBucketing req.bucketing = some (0 :: sortDurations req.bucketing) := by
    unfold normalizeBucketing
    simp only [if_neg hne]
    cases hl : sortDurations req.bucketing with
    | nil => rw [hl] at hp; have := hp.symm.subset hd; cases this
    | cons b0 l =>
      have hb0 : b0 < 0 := by
        rw [hl] at hs hp
        rcases List.mem_cons.mp (hp.symm.subset hd) with rfl | hm
        · exact hneg
        · exact Int.lt_of_le_of_lt ((List.pairwise_cons.mp hs).1 d hm) hneg
      simp only
      rw [if_pos (Int.ne_of_lt hb0)]
  refine ⟨_, _, by unfold SearchRequest.normalize; rw [hb]; rfl, ?_, ⟨d, ?_, hneg⟩, (normalize_fresh compile _ hf).1⟩
  · simp [hp.length_eq]
  · exact List.mem_cons_of_mem _ (hp.symm.subset hd)

theorem merge_bucketing {ss o r : SearchStats} {order : List (String × CategoryStats)} (hz : ss.isZero = false)
    (h : ss.merge o order = some r) : r.bucketing = ss.bucketing := by
  have hl : ∀ (l : List (String × CategoryStats)) (ss r : SearchStats), ss.mergeLoop l = some r → r.bucketing = ss.bucketing := by
    intro l
    induction l with
    | nil => intro ss r e; cases e; rfl
    | cons p l ih =>
      intro ss r e
      simp only [SearchStats.mergeLoop, Option.bind_eq_bind, Option.bind_eq_some_iff] at e
      obtain ⟨s₁, e1, e2⟩ := e
      rw [ih s₁ r e2]
      unfold SearchStats.mergeCategory at e1
      split at e1
      · cases e1; rfl
      · simp only [Option.bind_eq_bind, Option.bind_eq_some_iff] at e1
        obtain ⟨_, _, e3⟩ := e1
        cases e3; rfl
  unfold SearchStats.merge at h
  split at h
  · cases h; rfl
  · rw [if_neg (by simp [hz])] at h
    split at h
    · cases h
    · exact hl _ _ _ h

/-- Statistics for another number of buckets cannot be merged. -/
theorem mergeAll_none {p : SearchStats × List (String × CategoryStats)} (hp : p.1.isZero = false) :
    ∀ (l : List (SearchStats × List (String × CategoryStats))) (ss : SearchStats), ss.isZero = false →
      p.1.bucketing.length ≠ ss.bucketing.length → p ∈ l → mergeAll ss l = none := by
  intro l
  induction l with
  | nil => intro ss _ _ h; cases h
  | cons q l ih =>
    intro ss hz hne hm
    unfold mergeAll
    rcases List.mem_cons.mp hm with rfl | hm
    · have : ss.merge p.1 p.2 = none := by
        unfold SearchStats.merge
        rw [if_neg (by simp [hp]), if_neg (by simp [hz]), if_pos (Ne.symm hne)]
      rw [this]; rfl
    · cases hq : ss.merge q.1 q.2 with
      | none => rfl
      | some r =>
        have hb := merge_bucketing hz hq
        refine ih r ?_ (by rw [hb]; exact hne) hm
        unfold SearchStats.isZero at hz ⊢
        rw [hb]; exact hz

theorem arrivals_mem (o : Orders) {req : SearchRequest} {id : String} {s : Searcher} {res : Reply} {st : SearchStats} {q : SearchRequest}
    (h : s req = some (q, .ok (some res))) (hst : res.stats = some st) :
    ∀ (ss : List (String × Searcher)) (as : List Arrival), (id, s) ∈ ss → arrivalsOf o req ss = some as → (st, o.merge st) ∈ arrivedStats as := by
  intro ss
  induction ss with
  | nil => intro as hm; cases hm
  | cons x ss ih =>
    intro as hm e
    simp only [arrivalsOf, Option.bind_eq_bind, Option.bind_eq_some_iff, Option.pure_def] at e
    obtain ⟨a, e1, as', e2, e3⟩ := e
    cases e3
    rcases List.mem_cons.mp hm with rfl | hm
    · simp only [arrivalOf, h, hst] at e1
      cases e1
      simp [arrivedStats, hst]
    · have := ih as' hm e2
      unfold arrivedStats at this ⊢
      rw [List.filterMap_cons]
      split
      · exact this
      · exact List.mem_cons_of_mem _ this

/-- **C111 fails** with a negative bucket, as in `?b=-1s`: a multi-searcher that asks a server of a collector, among any others, and
gets its answer, always panics, as that server normalizes the request twice more, and so its statistics have
two more buckets than those they are to be merged with.  The client gets no response. -/
theorem C111_negative_violated (hm : mime "application/json".toList = some "application/json")
    {α : Type} [Inhabited α] (srt srt' : List Static → List Static) (source : String) (view : α → Look → Static)
    (rings : List (Ring.RB α)) (contents : List (List α)) (hb : Buffers rings contents) (took took' : Duration) (o : Orders)
    (renders renders' : SearchData → Bool) (rawQuery : Bytes) (n₂ : Nat) (ss : List (String × Searcher)) (id : String)
    (hs : (id, clientSearcher rawQuery (handleSearch compile mulFrac size mime renders
      (collectorSearcher compile srt source view rings took))) ∈ ss)
    (r : SearchHTTP) (req : SearchRequest) (hreq : readRequest mulFrac size r = some req) (hneg : ∃ d ∈ req.bucketing, d < 0)
    (hsize : ∀ q p q' p', req.normalize compile = some (q, p) → q.normalize compile = some (q', p') →
      size (encRequest q') ≤ 1048576) :
    handleSearch compile mulFrac size mime renders' (multiSearcher compile srt' o 0 n₂ took' ss) r = none := by
  obtain ⟨req₁, p₁, n1, l1, g1, f1⟩ := normalize_negative hneg (read_fresh compile hreq)
  obtain ⟨req₂, p₂, n2, l2, g2, f2⟩ := normalize_negative g1 f1
  obtain ⟨req₃, p₃, n3, l3, g3, f3⟩ := normalize_negative g2 f2
  obtain ⟨req₄, p₄, n4, l4, g4, f4⟩ := normalize_negative g3 f3
  have hsz := hsize _ _ _ _ n1 n2
  obtain ⟨req₅, p₅, n5, ha⟩ := collector_answer (compile := compile) srt source view rings contents hb took req₃ f3
  rw [n4] at n5
  obtain ⟨rfl, _⟩ := Prod.mk.inj (Option.some.inj n5)
  obtain ⟨data, d1, d2, st, d3, d4⟩ := searchData_ok (req := wireRequest req₂) (by rw [normalize_wire compile req₂ f2]; exact n3) ha
  have hclient : clientSearcher rawQuery (handleSearch compile mulFrac size mime renders
      (collectorSearcher compile srt source view rings took)) req₂ = some (req₂, .ok (some (wireReply data.response))) := by
    have hread : readRequest mulFrac size
        { neg := { rawQuery, accept := ["application/json".toList] }, isJSON := true, body := some (encRequest req₂) } =
        some (wireRequest req₂) := by
      unfold readRequest readBody
      simp only [if_true]
      rw [if_neg (by rw [show maxRequestBodySizeBytes = 1048576 from rfl]; omega), request_rt]
    unfold clientSearcher searchClient handleSearch
    rw [hread]
    simp only [d1, Option.map_some]
    unfold render
    rw [(client_json mime hm rawQuery).2]
    simp only [ne_eq, not_true_eq_false, if_false, data_rt]
    rfl
  have hst : (wireReply data.response).stats = some (wireStats st) := by simp [wireReply, d3]
  have hmulti : multiSearcher compile srt' o 0 n₂ took' ss req₁ = none := by
    unfold multiSearcher
    rw [n2]
    simp only [Option.bind_eq_bind, Option.bind_some]
    cases has' : arrivalsOf o req₂ ss with
    | none => rfl
    | some as =>
      have hmem := arrivals_mem o hclient hst ss as hs has'
      have hnone : mergeAll (newSearchStats req₂.bucketing) (arrivedStats as) = none := by
        have e : (wireStats st).bucketing.length = req₄.bucketing.length := d4.len
        have e' : (newSearchStats req₂.bucketing).bucketing.length = req₂.bucketing.length := rfl
        refine mergeAll_none (p := (wireStats st, o.merge (wireStats st))) ?_ _ _ ?_ ?_ hmem
        · exact decide_eq_false (by simp only [e]; omega)
        · exact decide_eq_false (by simp only [e']; omega)
        · simp only [e, e']; omega
      unfold multiSearch
      rw [n2]
      simp only [bind, Option.bind_some, SearchRequest.normalizeAgain, gather_eq, hnone, Option.map_none, Option.bind_none]
  unfold handleSearch
  rw [hreq]
  simp only [Option.map_eq_none_iff]
  unfold searchData
  rw [n1]
  simp [hmulti]

end

/-! ## Examples -/

/-- The order in which the categories are listed. -/
def listed : Orders where
  all ss := ss.categories.map Prod.snd
  overall ss := ss.categories.map Prod.snd
  merge ss := ss.categories
  all_perm _ := List.Perm.refl _
  overall_perm _ := List.Perm.refl _
  merge_perm _ := List.Perm.refl _

/-- A mime type parser that knows two types. -/
private def twoMimes : List Char → Option String := fun l =>
  if l = "application/json".toList then some "application/json" else if l = "text/html".toList then some "text/html" else none

private def noRegexp : Compile := fun _ => .error ""
private def frac : Nat → Nat → Nat → Nat := fun f unit k => f * unit / 10 ^ k

/-- A request of a browser. -/
private def browse (query : String) : SearchHTTP :=
  { neg := { rawQuery := bytesOf query, accept := ["text/html".toList] }, isJSON := false, body := none }

/-- A foreign server, whose statistics have one bucket, but two counts for a category. -/
private def foreign : SearchHTTP → Option HTTPResponse := fun _ =>
  some ⟨200, .json (encData { response := { stats := some { bucketing := [0], categories := [("c", { category := "c", bucketCounts := [1, 2] })] } } })⟩

/-- **C111 fails** also if a server that is not trc's answers with more counts than buckets: the page is an error page. -/
theorem C111_foreign_violated :
    (handleSearch noRegexp frac (fun _ => 0) twoMimes (shows listed)
      (multiSearcher noRegexp sortNewest listed 0 0 0 [("1", clientSearcher [] foreign)]) (browse "b=0s")).map (·.status) = some 500 := by
  decide +kernel

/-- A collector with two traces, one of them active, in two categories. -/
private def twoTraces : List (Ring.Op Static) :=
  [.add { sampleTrace "a" 1 false false 0 with category := "x" }, .add { sampleTrace "b" 2 true false 3 with category := "y" }]

/-- A network: a multi-searcher over a collector in the process, a server that serves another, and one that is down.  The page is
shown, also of the collector alone if asked for a negative bucket; the network then panics. -/
example : ∃ (rb : Ring.RB Static) (outs : List (List Static)), Ring.exec 10 twoTraces = some (rb, outs) ∧
    Buffers [rb] [[{ sampleTrace "b" 2 true false 3 with category := "y" }, { sampleTrace "a" 1 false false 0 with category := "x" }]] ∧
    let collector := collectorSearcher noRegexp sortNewest "s" still [rb] 5
    let remote := clientSearcher [] (handleSearch noRegexp frac (fun _ => 0) twoMimes (shows listed) collector)
    let net := multiSearcher noRegexp sortNewest listed 0 1 7 [("2", remote), ("3", clientSearcher [] fun _ => none), ("1", collector)]
    Net noRegexp frac (fun _ => 0) twoMimes true net ∧
    (∀ d ∈ (requestOfURL frac (bytesOf "b=1s&b=5s")).bucketing, 0 ≤ d) ∧
    (handleSearch noRegexp frac (fun _ => 0) twoMimes (shows listed) net (browse "b=1s&b=5s")).map (·.status) = some 200 ∧
    (∃ d ∈ (requestOfURL frac (bytesOf "b=-1s")).bucketing, d < 0) ∧
    (handleSearch noRegexp frac (fun _ => 0) twoMimes (shows listed) collector (browse "b=-1s")).map (·.status) = some 200 ∧
    (handleSearch noRegexp frac (fun _ => 0) twoMimes (shows listed) net (browse "b=-1s")).map (·.status) = none := by
  have hbuf : ∀ rb outs, Ring.exec 10 twoTraces = some (rb, outs) →
      Buffers [rb] [[{ sampleTrace "b" 2 true false 3 with category := "y" }, { sampleTrace "a" 1 false false 0 with category := "x" }]] := by
    intro rb outs h
    refine ⟨?_, ?_⟩
    · cases h; rfl
    · intro rb' hm
      obtain rfl := List.mem_singleton.mp hm
      exact ⟨10, _, _, h⟩
  refine ⟨_, _, rfl, hbuf _ _ rfl, ?_, ?_, ?_, ?_, ?_, ?_⟩
  · refine .multi _ _ _ _ _ _ ?_
    intro s hs
    simp only [List.mem_cons, List.not_mem_nil, or_false] at hs
    rcases hs with rfl | rfl | rfl
    · exact .there _ _ _ (.collector _ _ _ _ _ _ (hbuf _ _ rfl))
    · exact .down _ _ fun _ => .inl rfl
    · exact .here _ (.collector _ _ _ _ _ _ (hbuf _ _ rfl))
  all_goals decide +kernel

end Trc.Web
