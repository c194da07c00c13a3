import Verif.Web.Topline
import Verif.Props.Shown

/-!
# C128: the numbers above the traces
-/

namespace Trc

open Ring (Assoc)

/-! ## The sum of the totals of all categories -/

def SearchStats.totals (ss : SearchStats) : Int := sumBy (·.totalCount) (ss.categories.map Prod.snd)

theorem sumBy_insert (f : CategoryStats → Int) (m : Assoc CategoryStats) (k : String) (v : CategoryStats) :
    sumBy f ((m.insert k v).map Prod.snd) = sumBy f (m.map Prod.snd) - ((m.find k).map f).getD 0 + f v := by
  induction m with
  | nil => simp [Ring.Assoc.insert, Ring.Assoc.find, sumBy]
  | cons p m ih =>
    obtain ⟨k', v'⟩ := p
    unfold Ring.Assoc.find at ih ⊢
    unfold Ring.Assoc.insert
    by_cases h : k' = k
    · simp only [if_pos h, List.map_cons, sumBy, List.find?_cons, show (k' == k) = true from by simp [h], Option.map_some,
        Option.getD_some]; omega
    · simp only [if_neg h, List.map_cons, sumBy, List.find?_cons, show (k' == k) = false from by simp [h], ih]; omega

theorem total_of_ok {n : Nat} {c : CategoryStats} (hn : 0 < n) (h : c.bucketCounts.length = n) :
    c.totalCount = c.activeCount + c.bucket 0 + c.erroredCount := by
  unfold CategoryStats.totalCount CategoryStats.bucket
  cases hb : c.bucketCounts with
  | nil => rw [hb] at h; simp at h; omega
  | cons x l => simp

theorem bump_head (d : Duration) (hd : 0 ≤ d) {b : List Duration} (h0 : b.head? = some 0) {c c' : List Int}
    (h : bump d b c = some c') : c'.getD 0 0 = c.getD 0 0 + 1 := by
  cases b with
  | nil => cases h0
  | cons x b =>
    obtain rfl := Option.some.inj h0
    unfold bump at h
    rw [if_neg (Int.not_lt.mpr hd)] at h
    cases c with
    | nil => cases h
    | cons c cs =>
      simp only [Option.map_eq_some_iff] at h
      obtain ⟨l, _, rfl⟩ := h
      rfl

/-- A trace that has not a negative duration is counted in one of the three ways. -/
def Static.Counted (t : Static) : Prop := t.finished = true → t.errored = false → 0 ≤ t.duration

theorem observe_totals {n : Nat} {ss ss' : SearchStats} (hn : 0 < n) (h : ss.WF n) (h0 : ss.bucketing.head? = some 0) {t : Static}
    (ht : t.Counted) (he : ss.observe t = some ss') : ss'.totals = ss.totals + 1 ∧ ss'.bucketing = ss.bucketing := by
  unfold SearchStats.observe at he
  simp only [Option.bind_eq_bind, Option.bind_eq_some_iff, Option.pure_def] at he
  obtain ⟨cs', e1, e2⟩ := he
  obtain rfl := Option.some.inj e2
  refine ⟨?_, rfl⟩
  have hg : ((ss.categories.find t.category).getD (newCategoryStats t.category ss.bucketing)) = ss.get t.category := rfl
  rw [hg] at e1
  obtain ⟨ok, _⟩ := h.get_ok t.category
  obtain ⟨cs, hcs⟩ : ∃ cs, ss.get t.category = cs := ⟨_, rfl⟩
  have hold : ((ss.categories.find t.category).map (·.totalCount)).getD 0 = cs.totalCount := by
    rw [← hcs]
    unfold SearchStats.get
    cases ss.categories.find t.category with
    | some c => rfl
    | none =>
      simp only [Option.map_none, Option.getD_none]
      rw [total_of_ok hn (by simp [newCategoryStats, h.len]), newCat_bucket]; rfl
  unfold SearchStats.totals
  rw [sumBy_insert, hold]
  rw [hcs] at e1 ok
  have hlen : cs'.bucketCounts.length = n ∧ cs'.totalCount = cs.totalCount + 1 := by
    unfold CategoryStats.count at e1
    split at e1
    · obtain rfl := Option.some.inj e1
      refine ⟨ok.len, ?_⟩
      unfold CategoryStats.totalCount
      cases cs.bucketCounts <;> simp only <;> omega
    · rename_i hf
      split at e1
      · rename_i hfe
        simp only [Option.map_eq_some_iff] at e1
        obtain ⟨bc, e1, rfl⟩ := e1
        simp only [Bool.and_eq_true, Bool.not_eq_true'] at hfe
        obtain ⟨bc', b1, hl⟩ := bump_some t.duration ss.bucketing cs.bucketCounts (by rw [ok.len, h.len])
        obtain rfl : bc' = bc := Option.some.inj (b1.symm.trans e1)
        have hh := bump_head t.duration (ht hfe.1 hfe.2) h0 e1
        refine ⟨hl.trans h.len, ?_⟩
        rw [total_of_ok hn ok.len, total_of_ok hn (show List.length _ = n from hl.trans h.len)]
        unfold CategoryStats.bucket; simp only [hh]; omega
      · rename_i hfe
        split at e1
        · obtain rfl := Option.some.inj e1
          refine ⟨ok.len, ?_⟩
          unfold CategoryStats.totalCount
          cases cs.bucketCounts <;> simp only <;> omega
        · rename_i h3
          exfalso
          cases hx : t.finished <;> cases hy : t.errored <;> simp_all
  have : CategoryStats.totalCount { cs' with oldest := olderOf cs'.oldest t.started, newest := newerOf cs'.newest t.started } = cs'.totalCount := rfl
  rw [this]
  omega

theorem observeAll_totals {n : Nat} (hn : 0 < n) (l : List Static) (hl : ∀ t ∈ l, t.Counted) {ss ss' : SearchStats} (h : ss.WF n)
    (h0 : ss.bucketing.head? = some 0) (he : ss.observeAll l = some ss') : ss'.totals = ss.totals + l.length := by
  induction l generalizing ss with
  | nil => cases he; simp
  | cons t l ih =>
    obtain ⟨s₁, o1, o2⟩ := observe_wf h t
    simp only [SearchStats.observeAll, o1, Option.bind_eq_bind, Option.bind_some] at he
    obtain ⟨t1, t2⟩ := observe_totals hn h h0 (hl t (by simp)) o1
    rw [ih (fun t ht => hl t (by simp [ht])) o2 (by rw [t2]; exact h0) he, t1]
    simp only [List.length_cons]; omega

theorem sumOf_total {n : Nat} (hn : 0 < n) {r a b : CategoryStats} (h : SumOf n r a b) (ha : a.OK n) (hb : b.OK n) :
    r.totalCount = a.totalCount + b.totalCount := by
  rw [total_of_ok hn h.len, total_of_ok hn ha.len, total_of_ok hn hb.len, h.active, h.errored, h.bucket 0]
  omega

theorem mergeLoop_totals {n : Nat} (hn : 0 < n) (order : List (String × CategoryStats))
    (hok : ∀ p ∈ order, p.2.OK n ∧ p.2.category = p.1) {ss r : SearchStats} (h : ss.WF n) (he : ss.mergeLoop order = some r) :
    r.totals = ss.totals + sumBy (·.totalCount) (order.map Prod.snd) := by
  induction order generalizing ss with
  | nil => cases he; simp [sumBy]
  | cons p order ih =>
    obtain ⟨k, theirs⟩ := p
    obtain ⟨o1, o2⟩ := hok (k, theirs) (by simp)
    obtain ⟨s₁, m1, m2, _⟩ := mergeCategory_spec h o1 o2
    simp only [SearchStats.mergeLoop, m1, Option.bind_eq_bind, Option.bind_some] at he
    rw [ih (fun p hp => hok p (by simp [hp])) m2 he]
    have : s₁.totals = ss.totals + theirs.totalCount := by
      unfold SearchStats.mergeCategory at m1
      cases hf : ss.categories.find k with
      | none =>
        rw [hf] at m1
        obtain rfl := Option.some.inj m1
        unfold SearchStats.totals
        rw [sumBy_insert, hf]; simp
      | some ours =>
        rw [hf] at m1
        have hg : (ss.get k).OK n := (h.get_ok k).1
        rw [SearchStats.find_get hf] at hg
        obtain ⟨c, c1, _, c3, _⟩ := catMerge_spec hg o1
        simp only [c1, Option.bind_eq_bind, Option.bind_some, Option.pure_def] at m1
        obtain rfl := Option.some.inj m1
        unfold SearchStats.totals
        rw [sumBy_insert, hf, sumOf_total hn c3 hg o1]
        simp only [Option.map_some, Option.getD_some]; omega
    rw [this]
    simp only [List.map_cons, sumBy]; omega

theorem mergeAll_totals {n : Nat} (hn : 0 < n) (l : List (SearchStats × List (String × CategoryStats)))
    (hl : ∀ p ∈ l, p.1.WF n ∧ p.2.Perm p.1.categories) {ss r : SearchStats} (h : ss.WF n) (he : mergeAll ss l = some r) :
    r.totals = ss.totals + sumBy (·.1.totals) l := by
  induction l generalizing ss with
  | nil => cases he; simp [sumBy]
  | cons p l ih =>
    obtain ⟨o, order⟩ := p
    obtain ⟨h1, h2⟩ := hl (o, order) (by simp)
    obtain ⟨s₁, m1, m2⟩ := merge_spec hn h h1 order h2
    simp only [mergeAll, m1, Option.bind_eq_bind, Option.bind_some] at he
    rw [ih (fun q hq => hl q (by simp [hq])) m2.wf he]
    have hok : ∀ p ∈ order, p.2.OK n ∧ p.2.category = p.1 := by
      intro p hpm
      have := (find_of_perm h1.nodup h2 p.1).2 p.2 |>.mpr hpm
      obtain ⟨h1, h2⟩ := h1.get_ok p.1
      unfold SearchStats.get at h1 h2
      rw [this] at h1 h2
      exact ⟨h1, h2⟩
    have hs : s₁.totals = ss.totals + o.totals := by
      unfold SearchStats.merge at m1
      have z : ∀ s : SearchStats, s.WF n → ¬ s.isZero = true := by
        intro s hs
        unfold SearchStats.isZero
        rw [hs.len]; simp; omega
      rw [if_neg (z o h1), if_neg (z ss h), if_neg (by rw [h.len, h1.len]; simp)] at m1
      rw [mergeLoop_totals hn order hok h m1]
      unfold SearchStats.totals
      rw [sumBy_perm _ (h2.map Prod.snd)]
    rw [hs]
    simp only [sumBy]; omega

end Trc

namespace Trc.Web

/-! ## Networks -/

/-- What a network reaches for a request: the buffers of its programs, each trace as it was counted and as it was compared with the
filter; the names of the programs; and how many servers failed. -/
structure Reach where
  buffers : List (List (Static × Static))
  sources : List String
  failed : Nat

def Reach.join (l : List Reach) : Reach := ⟨l.flatMap (·.buffers), l.flatMap (·.sources), (l.map (·.failed)).sum⟩

/-- A server that failed. -/
def Reach.nothing : Reach := ⟨[], [], 1⟩

/-- The ways to put searchers together, as in `Net`, with what they reach.  A request whose text is longer than a
megabyte is refused by a server. -/
inductive Network (compile : Compile) (mulFrac : Nat → Nat → Nat → Nat) (size : JSON → Nat) (mime : List Char → Option String) :
    Bool → Searcher → (SearchRequest → Reach) → Prop
  | collector {α : Type} [Inhabited α] (srt : List Static → List Static) (source : String) (view : α → Look → Static)
      (rings : List (Ring.RB α)) (contents : List (List α)) (took : Duration) (hs : SortOK srt) (h : Buffers rings contents) :
      Network compile mulFrac size mime true (collectorSearcher compile srt source view rings took) fun _ =>
        ⟨contents.map fun items => items.map fun c => (view c .observe, view c .filter), [source], 0⟩
  | multi (srt : List Static → List Static) (o : Orders) (n₁ n₂ : Nat) (took : Duration)
      (ss : List ((String × Searcher) × (SearchRequest → Reach))) (hs : SortOK srt)
      (h : ∀ s ∈ ss, Network compile mulFrac size mime false s.1.2 s.2) :
      Network compile mulFrac size mime true (multiSearcher compile srt o n₁ n₂ took (ss.map Prod.fst)) fun req =>
        .join (ss.map fun s => s.2 req)
  | here (s : Searcher) (r : SearchRequest → Reach) (h : Network compile mulFrac size mime true s r) :
      Network compile mulFrac size mime false s r
  | there (rawQuery : Bytes) (renders : SearchData → Bool) (s : Searcher) (r : SearchRequest → Reach)
      (h : Network compile mulFrac size mime true s r) :
      Network compile mulFrac size mime false (clientSearcher rawQuery (handleSearch compile mulFrac size mime renders s)) fun req =>
        if size (encRequest req) > 1048576 then .nothing else r req
  | down (rawQuery : Bytes) (server : SearchHTTP → Option HTTPResponse)
      (h : ∀ r, server r = none ∨ ∃ res, server r = some res ∧ res.status ≠ 200) :
      Network compile mulFrac size mime false (clientSearcher rawQuery server) fun _ => .nothing

/-- How many traces of a buffer match. -/
noncomputable def matching (compile : Compile) (req : SearchRequest) (buffer : List (Static × Static)) : Nat :=
  open Classical in (buffer.filter fun t => req.filter.Sat compile t.2).length

/-- How many of them are returned: of each buffer no more than the limit. -/
noncomputable def Reach.matched (compile : Compile) (req : SearchRequest) (R : Reach) : Nat :=
  (R.buffers.map fun b => min req.limit.toNat (matching compile req b)).sum

/-- No clock was set back. -/
def Reach.Counted (R : Reach) : Prop := ∀ b ∈ R.buffers, ∀ t ∈ b, t.1.Counted

/-- An answer that fits what is reached. -/
structure FitsReach (compile : Compile) (req : SearchRequest) (R : Reach) (res : Reply) : Prop where
  total : res.totalCount = R.buffers.flatten.length
  matched : res.matchCount = R.matched compile req
  shown : res.traces.length = min req.limit.toNat (R.matched compile req)
  sorted : res.sources.Pairwise (· < ·)
  sources : ∀ s, s ∈ res.sources ↔ s ∈ R.sources
  problems : res.problems.length = R.failed
  stats : ∃ st, res.stats = some st ∧ st.WF req.bucketing.length ∧ (R.Counted → st.totals = R.buffers.flatten.length)

section
variable {compile : Compile} {mulFrac : Nat → Nat → Nat → Nat} {size : JSON → Nat} {mime : List Char → Option String}

def AllFit (compile : Compile) (s : Searcher) (r : SearchRequest → Reach) : Prop :=
  ∀ req, Ready compile req → ∃ res, s req = some (req, .ok (some res)) ∧ FitsReach compile req (r req) res

def FitOrFail (compile : Compile) (s : Searcher) (r : SearchRequest → Reach) : Prop :=
  ∀ req, Ready compile req → (∃ res, s req = some (req, .ok (some res)) ∧ FitsReach compile req (r req) res) ∨
    ((∃ e, s req = some (req, .error e)) ∧ r req = .nothing)

theorem ready_bucketing {req : SearchRequest} (hr : Ready compile req) : req.bucketing.head? = some 0 ∧ 0 < req.bucketing.length := by
  obtain ⟨r, p, c1, c2, c3, c4, _⟩ := C35_buckets compile req hr.nonneg
  rw [hr.fix] at c1
  obtain ⟨rfl, _⟩ := Prod.mk.inj (Option.some.inj c1)
  refine ⟨c3, ?_⟩
  cases h : req.bucketing with
  | nil => rw [h] at c3; cases c3
  | cons a l => simp

theorem fit_collector {α : Type} [Inhabited α] (srt : List Static → List Static) (source : String) (view : α → Look → Static)
    (rings : List (Ring.RB α)) (contents : List (List α)) (hs : SortOK srt) (hb : Buffers rings contents) (took : Duration) :
    AllFit compile (collectorSearcher compile srt source view rings took) fun _ =>
      ⟨contents.map fun items => items.map fun c => (view c .observe, view c .filter), [source], 0⟩ := by
  intro req hr
  obtain ⟨req', problems, res, h1, h2, _, _, h5, _, h7, h8, h9, h10, h11, h12⟩ :=
    search_spec compile srt source req hr.fresh view rings contents hb.walk hb.rep
  have h1' := h1
  rw [hr.fix] at h1'
  obtain ⟨rfl, rfl⟩ := Prod.mk.inj (Option.some.inj h1')
  obtain ⟨ss, o1, o2⟩ := observeAll_wf (contents.flatten.map (view · .observe)) (statsOf_new req.bucketing).wf
  rw [h11] at o1
  obtain rfl := Option.some.inj o1
  obtain ⟨b0, bn⟩ := ready_bucketing hr
  have hm : (contents.flatMap (selected compile req view)).length =
      Reach.matched compile req ⟨contents.map fun items => items.map fun c => (view c .observe, view c .filter), [source], 0⟩ := by
    rw [List.length_flatMap]
    unfold Reach.matched
    simp only [List.map_map]
    congr 1
    apply List.map_congr_left
    intro items _
    unfold selected
    rw [List.length_take]
    simp only [Function.comp]
    congr 1
    unfold allowed matching
    rw [List.filter_map, List.length_map]
    congr 1
    apply List.filter_congr
    intro c _
    rw [Bool.eq_iff_iff, selected_sat hr.fresh h5]
    simp
  have hlen : ((contents.map fun items => items.map fun c => (view c .observe, view c .filter)).flatten).length = contents.flatten.length := by
    simp [List.length_flatten, Function.comp_def]
  refine ⟨{ res.toResponse with request := some req, duration := took }, ?_, ?_⟩
  · unfold collectorSearcher
    rw [h1, h2]
    rfl
  · refine ⟨?_, ?_, ?_, ?_, ?_, ?_, res.stats, rfl, o2, ?_⟩
    · show res.totalCount = _
      rw [h9, hlen]
    · show res.matchCount = _
      rw [h10, hm]
    · show res.traces.length = _
      rw [h12, List.length_take, (hs.perm _).length_eq, List.length_map, hm]
    · show res.sources.Pairwise _
      rw [h7]; simp
    · intro s
      show s ∈ res.sources ↔ _
      rw [h7]
    · show res.problems.length = 0
      rw [h8]; rfl
    · intro hc
      have := observeAll_totals bn (contents.flatten.map (view · .observe)) (by
        intro t ht
        obtain ⟨c, hc', rfl⟩ := List.mem_map.mp ht
        obtain ⟨items, hi, hci⟩ := List.mem_flatten.mp hc'
        exact hc (items.map fun c => (view c .observe, view c .filter)) (List.mem_map.mpr ⟨items, hi, rfl⟩)
          (view c .observe, view c .filter) (List.mem_map.mpr ⟨c, hci, rfl⟩)) (statsOf_new req.bucketing).wf b0 h11
      rw [this, hlen, List.length_map]
      show (0 : Int) + _ = _
      omega

theorem searchData_fit {s : Searcher} {r : SearchRequest → Reach} (hs : AllFit compile s r) {req req₁ : SearchRequest}
    {problems : List String} (h1 : req.normalize compile = some (req₁, problems)) (hr : Ready compile req₁) :
    ∃ data st, searchData compile s req = some data ∧ data.request = req₁ ∧ FitsReach compile req₁ (r req₁) data.response ∧
      data.response.stats = some st ∧ st.WF req₁.bucketing.length ∧
      data.problems.length = problems.length + (r req₁).failed + if 100 ≤ st.categories.length then 1 else 0 := by
  obtain ⟨res, e1, e2⟩ := hs req₁ hr
  obtain ⟨st, s1, s2, s3⟩ := e2.stats
  unfold searchData
  rw [h1]
  simp only [Option.bind_eq_bind, Option.bind_some, e1, takeResult, responseProblems, checkCategories, s1]
  have hp := e2.problems
  split
  · rename_i h
    refine ⟨_, st, rfl, rfl, e2, s1, s2, ?_⟩
    rw [if_pos h]; simp; omega
  · rename_i h
    refine ⟨_, st, rfl, rfl, e2, s1, s2, ?_⟩
    rw [if_neg h]; simp; omega

theorem wireStats_totals (st : SearchStats) : (wireStats st).totals = st.totals := by
  unfold SearchStats.totals wireStats
  simp only [List.map_map]
  induction st.categories with
  | nil => rfl
  | cons p l ih =>
    simp only [List.map_cons, sumBy, ih]
    rfl

theorem fit_client (renders : SearchData → Bool) (hm : mime "application/json".toList = some "application/json")
    {s : Searcher} {r : SearchRequest → Reach} (hs : AllFit compile s r) (rawQuery : Bytes) :
    FitOrFail compile (clientSearcher rawQuery (handleSearch compile mulFrac size mime renders s)) fun req =>
      if size (encRequest req) > 1048576 then .nothing else r req := by
  intro req hr
  unfold clientSearcher searchClient
  by_cases hsize : size (encRequest req) > maxRequestBodySizeBytes
  · right
    refine ⟨⟨"read HTTP response", ?_⟩, if_pos hsize⟩
    unfold handleSearch readRequest readBody
    simp [hsize, Except.map]
  · left
    obtain ⟨data, st, d1, d2, d3, d4, d5, _⟩ := searchData_fit hs (req := wireRequest req) (by rw [normalize_wire compile req hr.fresh]; exact hr.fix) hr
    have hread : readRequest mulFrac size
        { neg := { rawQuery, accept := ["application/json".toList] }, isJSON := true, body := some (encRequest req) } =
        some (wireRequest req) := by
      unfold readRequest readBody
      simp only [if_true]
      rw [if_neg hsize, request_rt]
    refine ⟨wireReply data.response, ?_, ?_⟩
    · unfold handleSearch
      rw [hread]
      simp only [d1, Option.map_some]
      unfold render
      rw [(client_json mime hm rawQuery).2]
      simp only [ne_eq, not_true_eq_false, if_false, data_rt]
      rfl
    · simp only []
      rw [if_neg (show ¬ size (encRequest req) > 1048576 from hsize)]
      refine ⟨d3.total, d3.matched, ?_, d3.sorted, d3.sources, d3.problems, wireStats st, by simp [wireReply, d4], Cmd.wireStats_wf d5, ?_⟩
      · have := d3.shown
        simpa [wireReply] using this
      · intro hc
        obtain ⟨st', s1, _, s3⟩ := d3.stats
        obtain rfl : st' = st := Option.some.inj (s1.symm.trans d4)
        rw [wireStats_totals, s3 hc]

theorem matched_join (req : SearchRequest) (R : Reach) (l : List Reach) :
    (Reach.join (R :: l)).matched compile req = R.matched compile req + (Reach.join l).matched compile req := by
  simp [Reach.matched, Reach.join]

theorem arrivals_fit (o : Orders) {req : SearchRequest} (hr : Ready compile req) (ss : List ((String × Searcher) × (SearchRequest → Reach)))
    (hs : ∀ s ∈ ss, FitOrFail compile s.1.2 s.2) :
    ∃ as, arrivalsOf o req (ss.map Prod.fst) = some as ∧
      let R := Reach.join (ss.map fun s => s.2 req)
      sumBy (·.totalCount) (responses as) = R.buffers.flatten.length ∧
      sumBy (·.matchCount) (responses as) = R.matched compile req ∧
      min req.limit.toNat ((responses as).flatMap (·.traces)).length = min req.limit.toNat (R.matched compile req) ∧
      (∀ s, s ∈ (responses as).flatMap (·.sources) ↔ s ∈ R.sources) ∧
      (as.flatMap Trc.problemsOf).length = R.failed ∧
      (∀ p ∈ arrivedStats as, p.1.WF req.bucketing.length ∧ p.2.Perm p.1.categories) ∧
      (R.Counted → sumBy (·.1.totals) (arrivedStats as) = R.buffers.flatten.length) := by
  induction ss with
  | nil => exact ⟨[], rfl, rfl, rfl, rfl, by simp [responses, Reach.join], rfl, by simp [arrivedStats], fun _ => rfl⟩
  | cons s ss ih =>
    obtain ⟨as, h1, h2, h3, h4, h5, h6, h7, h8⟩ := ih fun s hs' => hs s (by simp [hs'])
    rcases hs s (by simp) req hr with ⟨res, e1, e2⟩ | ⟨⟨e, e1⟩, e2⟩
    · obtain ⟨st, s1, s2, s3⟩ := e2.stats
      refine ⟨{ id := s.1.1, res := some res.toResponse, order := o.merge st } :: as, by simp [arrivalsOf, arrivalOf, e1, h1, s1], ?_⟩
      have hstats : res.toResponse.stats = some st := s1
      simp only [List.map_cons, matched_join]
      refine ⟨?_, ?_, ?_, ?_, ?_, ?_, ?_⟩
      · simp only [responses, List.filterMap_cons, sumBy] at h2 ⊢
        rw [h2, e2.total]; simp [Reach.join]
      · simp only [responses, List.filterMap_cons, sumBy] at h3 ⊢
        rw [h3, e2.matched]; simp
      · have := e2.shown
        simp only [responses, List.filterMap_cons, List.flatMap_cons, List.length_append] at h4 ⊢
        omega
      · intro x
        have := h5 x
        simp only [responses, List.filterMap_cons, List.flatMap_cons, List.mem_append] at this ⊢
        rw [this, e2.sources x]; simp [Reach.join]
      · have := e2.problems
        simp only [List.flatMap_cons, List.length_append, h6]
        simp [Trc.problemsOf, this, Reach.join]
      · intro p hp
        simp only [arrivedStats, List.filterMap_cons, Option.bind_some, hstats, Option.map_some, List.mem_cons] at hp
        rcases hp with rfl | hp
        · exact ⟨s2, o.merge_perm st⟩
        · exact h7 p hp
      · intro hc
        have c1 : (s.2 req).Counted := fun b hb => hc b (by simp [Reach.join, hb])
        have c2 : (Reach.join (ss.map fun s => s.2 req)).Counted := fun b hb => hc b (by
          simp only [Reach.join, List.flatMap_cons, List.mem_append]; exact .inr hb)
        have := h8 c2
        simp only [arrivedStats, List.filterMap_cons, Option.bind_some, hstats, Option.map_some, sumBy] at this ⊢
        rw [this, s3 c1]; simp [Reach.join]
    · refine ⟨{ id := s.1.1, err := some e } :: as, by simp [arrivalsOf, arrivalOf, e1, h1], ?_⟩
      have ej : Reach.join ((s :: ss).map fun s => s.2 req) =
          ⟨(Reach.join (ss.map fun s => s.2 req)).buffers, (Reach.join (ss.map fun s => s.2 req)).sources, 1 + (Reach.join (ss.map fun s => s.2 req)).failed⟩ := by
        simp [Reach.join, e2, Reach.nothing]
      rw [ej]
      refine ⟨h2, h3, h4, h5, ?_, ?_, ?_⟩
      · simp only [List.flatMap_cons, List.length_append, h6]
        simp [Trc.problemsOf]
      · intro p hp
        simp only [arrivedStats, List.filterMap_cons, Option.bind_none, Option.map_none] at hp
        exact h7 p hp
      · intro hc
        simp only [arrivedStats, List.filterMap_cons, Option.bind_none, Option.map_none]
        exact h8 hc

theorem fit_multi (srt : List Static → List Static) (o : Orders) (n₁ n₂ : Nat) (took : Duration)
    (ss : List ((String × Searcher) × (SearchRequest → Reach))) (hsort : SortOK srt) (hs : ∀ s ∈ ss, FitOrFail compile s.1.2 s.2) :
    AllFit compile (multiSearcher compile srt o n₁ n₂ took (ss.map Prod.fst)) fun req => .join (ss.map fun s => s.2 req) := by
  intro req hr
  obtain ⟨as, h1, h2, h3, h4, h5, h6, h7, h8⟩ := arrivals_fit o hr ss hs
  have hfix := normalizeAgain_fix hr.fix
  obtain ⟨b0, bn⟩ := ready_bucketing hr
  obtain ⟨st, m1, m2⟩ := mergeAll_usable bn _ (fun p hp => ⟨.inr (h7 p hp).1, (h7 p hp).2⟩) (statsOf_new req.bucketing).wf
  have mt := mergeAll_totals bn _ h7 (statsOf_new req.bucketing).wf m1
  have hlim : 0 ≤ req.limit := by
    obtain ⟨r, p, c1, c2, _⟩ := C35_limit compile req
    rw [hr.fix] at c1
    obtain ⟨rfl, _⟩ := Prod.mk.inj (Option.some.inj c1)
    omega
  unfold multiSearcher multiSearch
  rw [hr.fix]
  simp only [bind, Option.bind_some, h1, hfix, gather_eq, m1, Option.map_some, pure]
  obtain ⟨f1, f2⟩ := fixSources_spec ([] ++ (responses as).flatMap (·.sources))
  refine ⟨_, rfl, ?_, ?_, ?_, f1, ?_, ?_, st, rfl, m2, ?_⟩
  · show (0 : Int) + _ = _
    rw [h2]; omega
  · show (0 : Int) + _ = _
    rw [h3]; omega
  · show (cutTo req.limit (srt ([] ++ (responses as).flatMap (·.traces)))).length = _
    rw [← h4]
    have hl := (hsort.perm ([] ++ (responses as).flatMap (·.traces))).length_eq
    unfold cutTo
    split
    · rw [List.length_take, hl]; rfl
    · rw [hl] at *
      simp only [List.nil_append] at *
      omega
  · intro x
    exact (f2 x).trans (h5 x)
  · show ([] ++ as.flatMap Trc.problemsOf).length = _
    exact h6
  · intro hc
    rw [mt, h8 hc]
    show (0 : Int) + _ = _
    omega

theorem network_fit (hm : mime "application/json".toList = some "application/json") {b : Bool} {s : Searcher} {r : SearchRequest → Reach}
    (h : Network compile mulFrac size mime b s r) : FitOrFail compile s r ∧ (b = true → AllFit compile s r) := by
  induction h with
  | collector srt source view rings contents took hs h =>
    have := fit_collector (compile := compile) srt source view rings contents hs h took
    exact ⟨fun req hr => .inl (this req hr), fun _ => this⟩
  | multi srt o n₁ n₂ took ss hs h ih =>
    have := fit_multi srt o n₁ n₂ took ss hs fun s hs => (ih s hs).1
    exact ⟨fun req hr => .inl (this req hr), fun _ => this⟩
  | here s r h ih => exact ⟨ih.1, by intro h; cases h⟩
  | there rawQuery renders s r h ih => exact ⟨fit_client renders hm (ih.2 rfl) rawQuery, by intro h; cases h⟩
  | down rawQuery server h =>
    refine ⟨fun req hr => .inr ⟨?_, rfl⟩, by intro h; cases h⟩
    unfold clientSearcher searchClient
    rcases h { neg := { rawQuery, accept := ["application/json".toList] }, isJSON := true, body := some (encRequest req) } with h | ⟨res, h, hst⟩
    · rw [h]; exact ⟨_, rfl⟩
    · rw [h]; simp only [if_pos hst]; exact ⟨_, rfl⟩

/-! ## C128 -/

theorem rows_last (req : SearchRequest) (l : List CategoryStats) (ov : CategoryStats) (rows : List Row)
    (h : summaryRows req (l ++ [ov]) = some rows) :
    ∃ front row, rows = front ++ [row] ∧ front.length = l.length ∧ row.category = ov.category ∧ row.total = ov.totalCount := by
  induction l generalizing rows with
  | nil =>
    simp only [List.nil_append, summaryRows, Option.bind_eq_bind, Option.bind_eq_some_iff, Option.pure_def] at h
    obtain ⟨row, h1, _, h2, h3⟩ := h
    cases h2; cases h3
    refine ⟨[], row, rfl, rfl, ?_⟩
    simp only [summaryRow, Option.bind_eq_bind, Option.bind_eq_some_iff, Option.pure_def] at h1
    obtain ⟨_, _, h1⟩ := h1
    cases h1
    exact ⟨rfl, rfl⟩
  | cons cs l ih =>
    simp only [List.cons_append, summaryRows, Option.bind_eq_bind, Option.bind_eq_some_iff, Option.pure_def] at h
    obtain ⟨row, h1, rows', h2, h3⟩ := h
    cases h3
    obtain ⟨front, last, rfl, e1, e2⟩ := ih rows' h2
    exact ⟨row :: front, last, rfl, by simp [e1], e2⟩

theorem matching_zero (req : SearchRequest) (b : List (Static × Static)) :
    matching compile req b = 0 ↔ ∀ t ∈ b, ¬ req.filter.Sat compile t.2 := by
  unfold matching
  simp

theorem sum_zero (l : List Nat) : l.sum = 0 ↔ ∀ n ∈ l, n = 0 := by
  induction l with
  | nil => simp
  | cons a l ih => simp [ih]

/-- What a list of the line shows. -/
def ShowsList (l : Option Listing) (items : List String) : Prop :=
  (items = [] → l = none) ∧ (items ≠ [] → l = some ⟨items.length, items⟩)

theorem shows_listing (l : List String) : ShowsList (listing l) l := by
  unfold listing
  cases l <;> simp [ShowsList]

/-- **C128** On every page of a server of any network of collectors, multi-searchers and servers, some of which may be down, for a
request for buckets that are not negative: `total` is the number of the traces that are reached, and the total of
the last row of the summary; `matched` counts those that match, of each category of a program no more than the limit;
`shown` is the lesser of `matched` and the limit, and the number of traces below; if, and only if, none that is reached matches, it is said
that none was found; the sources are the programs that were reached, each once, in order; and there is a problem for each
invalid part of the request, for each server that failed, and for a hundred categories or more. -/
theorem C128_page (hm : mime "application/json".toList = some "application/json") (s : Searcher) (r : SearchRequest → Reach)
    (hs : Network compile mulFrac size mime true s r) (o : Orders) (q : SearchHTTP) (req : SearchRequest)
    (hreq : readRequest mulFrac size q = some req) (h0 : ∀ d ∈ req.bucketing, 0 ≤ d) (resp : HTTPResponse) (data : SearchData)
    (hresp : handleSearch compile mulFrac size mime (shows o) s q = some resp) (hpage : resp.body = .page data) :
    ∃ req₁ invalid st rows row sources problems, req.normalize compile = some (req₁, invalid) ∧ resp.status = 200 ∧ data.request = req₁ ∧
      data.response.stats = some st ∧ summary req₁ st (o.all st) (o.overall st) = some (rows ++ [row]) ∧
      (topline data).total = (r req₁).buffers.flatten.length ∧
      (row.category = "overall" ∧ ((r req₁).Counted → row.total = (topline data).total)) ∧
      (topline data).matched = ((r req₁).buffers.map fun b => min req₁.limit.toNat (matching compile req₁ b)).sum ∧
      (topline data).matched ≤ (topline data).total ∧
      ((topline data).shown : Int) = min req₁.limit (topline data).matched ∧
      (topline data).shown = data.response.traces.length ∧
      (nothingFound data = true ↔ ∀ b ∈ (r req₁).buffers, ∀ t ∈ b, ¬ req₁.filter.Sat compile t.2) ∧
      ShowsList (topline data).sources sources ∧ sources.Pairwise (· < ·) ∧ (∀ s, s ∈ sources ↔ s ∈ (r req₁).sources) ∧
      ShowsList (topline data).problems problems ∧
      problems.length = invalid.length + (r req₁).failed + if 100 ≤ rows.length then 1 else 0 := by
  obtain ⟨req₁, invalid, hn, hr⟩ := normalize_ready (read_fresh compile hreq) h0
  obtain ⟨data', st, d1, d2, d3, d4, d5, d6⟩ := searchData_fit ((network_fit hm hs).2 rfl) hn hr
  have hresp' : resp = render mime (shows o) q data' := by
    unfold handleSearch at hresp
    rw [hreq] at hresp
    simp only [d1, Option.map_some] at hresp
    exact (Option.some.inj hresp).symm
  have hstatus := render_ok (mime := mime) o q data' st d4 (by rw [d2]; exact d5)
  have hdata : data' = data := by
    rw [hresp'] at hpage
    unfold render at hpage
    split at hpage
    · cases hpage; rfl
    · cases hpage
  subst hdata
  obtain ⟨l, ov, c1, c2, c3, _⟩ := C43_allCategories st d5 _ _ (o.all_perm st) (o.overall_perm st)
  obtain ⟨ov', v1, v2, _, _, _, _, v7, _⟩ := C43_overall_partial st d5 _ (o.overall_perm st)
  obtain rfl : ov = ov' := Option.some.inj (c2.symm.trans v1)
  obtain ⟨rows, hrows⟩ := summary_some o req₁ st d5
  have hrows' := hrows
  unfold summary at hrows'
  rw [c1] at hrows'
  obtain ⟨front, row, rfl, f1, f2, f3⟩ := rows_last req₁ l ov rows hrows'
  have hlim : 1 ≤ req₁.limit := by
    obtain ⟨r', p, c1, c2, _⟩ := C35_limit compile req
    rw [hn] at c1
    obtain ⟨rfl, _⟩ := Prod.mk.inj (Option.some.inj c1)
    omega
  have hfl : front.length = st.categories.length := by rw [f1, c3.length_eq, List.length_map]
  have hmt : (r req₁).matched compile req₁ ≤ (r req₁).buffers.flatten.length := by
    unfold Reach.matched
    rw [List.length_flatten]
    generalize (r req₁).buffers = bs
    induction bs with
    | nil => simp
    | cons b bs ih =>
      have : matching compile req₁ b ≤ b.length := by unfold matching; exact List.length_filter_le ..
      simp only [List.map_cons, List.sum_cons]
      omega
  have ht := d3.total
  have hma := d3.matched
  have hsh := d3.shown
  refine ⟨req₁, invalid, st, front, row, data'.response.sources, data'.problems, hn, hresp' ▸ hstatus, d2, d4, hrows, ht, ⟨f2.trans v2, ?_⟩,
    hma, ?_, ?_, rfl, ?_, shows_listing _, d3.sorted, d3.sources, shows_listing _, ?_⟩
  · intro hc
    obtain ⟨st', s1, _, s3⟩ := d3.stats
    obtain rfl : st' = st := Option.some.inj (s1.symm.trans d4)
    show row.total = data'.response.totalCount
    rw [f3, v7 (ready_bucketing hr).2, ht, ← s3 hc]
    rfl
  · show data'.response.matchCount ≤ data'.response.totalCount
    omega
  · show (data'.response.traces.length : Int) = min req₁.limit data'.response.matchCount
    omega
  · unfold nothingFound
    rw [List.isEmpty_iff, ← List.length_eq_zero_iff, hsh]
    have : min req₁.limit.toNat ((r req₁).matched compile req₁) = 0 ↔ (r req₁).matched compile req₁ = 0 := by omega
    rw [this]
    unfold Reach.matched
    rw [sum_zero]
    simp only [List.forall_mem_map]
    refine forall_congr' fun b => forall_congr' fun _ => ?_
    rw [← matching_zero]
    omega
  · rw [d6, hfl]

end

/-! ## Example -/

private def twoMimes : List Char → Option String := fun l =>
  if l = "application/json".toList then some "application/json" else if l = "text/html".toList then some "text/html" else none

private def noRegexp : Compile := fun _ => .error ""
private def frac : Nat → Nat → Nat → Nat := fun f unit k => f * unit / 10 ^ k

private def browse (query : String) : SearchHTTP :=
  { neg := { rawQuery := bytesOf query, accept := ["text/html".toList] }, isJSON := false, body := none }

private def twoTraces : List (Ring.Op Static) :=
  [.add (sampleTrace "a" 1 false false 0), .add (sampleTrace "b" 2 true false 3)]

private def pageOf : Option HTTPResponse → Option (Topline × Bool)
  | some ⟨200, .page data⟩ => some (topline data, nothingFound data)
  | _ => none

/-- Two programs, one of them asked over HTTP, with two traces each, and a server that is down: three of four matches are shown, at a limit of 3; one
of each matches if only finished traces are asked for; and none if only failed ones are.  The query cannot be compiled. -/
example : ∃ (rb : Ring.RB Static) (outs : List (List Static)), Ring.exec 10 twoTraces = some (rb, outs) ∧
    let contents := [[sampleTrace "b" 2 true false 3, sampleTrace "a" 1 false false 0]]
    let collector := fun source => collectorSearcher noRegexp sortNewest source still [rb] 5
    let R : String → SearchRequest → Reach := fun source _ => ⟨contents.map fun items => items.map fun c => (still c .observe, still c .filter), [source], 0⟩
    let remote := clientSearcher [] (handleSearch noRegexp frac (fun _ => 0) twoMimes (shows listed) (collector "t"))
    let net := multiSearcher noRegexp sortNewest listed 0 1 7 [("2", remote), ("3", clientSearcher [] fun _ => none), ("1", collector "s")]
    let reach := fun req => Reach.join [R "t" req, .nothing, R "s" req]
    Network noRegexp frac (fun _ => 0) twoMimes true net reach ∧
    (∀ d ∈ (requestOfURL frac (bytesOf "n=3&q=x")).bucketing, 0 ≤ d) ∧ (∀ req, (reach req).Counted) ∧
    (pageOf (handleSearch noRegexp frac (fun _ => 0) twoMimes (shows listed) net (browse "n=3&q=x"))).map
      (fun p => ((p.1.total, p.1.matched, p.1.shown), p.1.sources, p.1.problems.map (·.count), p.2)) =
      some ((4, 4, 3), some ⟨2, ["s", "t"]⟩, some 2, false) ∧
    (pageOf (handleSearch noRegexp frac (fun _ => 0) twoMimes (shows listed) net (browse "finished=true"))).map
      (fun p => ((p.1.total, p.1.matched, p.1.shown), p.2)) = some ((4, 2, 2), false) ∧
    (pageOf (handleSearch noRegexp frac (fun _ => 0) twoMimes (shows listed) net (browse "errored=true"))).map
      (fun p => ((p.1.total, p.1.matched, p.1.shown), p.2)) = some ((4, 0, 0), true) := by
  have hbuf : ∀ rb outs, Ring.exec 10 twoTraces = some (rb, outs) →
      Buffers [rb] [[sampleTrace "b" 2 true false 3, sampleTrace "a" 1 false false 0]] := by
    intro rb outs h
    refine ⟨?_, ?_⟩
    · cases h; rfl
    · intro rb' hm
      obtain rfl := List.mem_singleton.mp hm
      exact ⟨10, _, _, h⟩
  refine ⟨_, _, rfl, ?_, ?_, ?_, ?_, ?_, ?_⟩
  · refine .multi _ _ _ _ _ [(("2", _), _), (("3", _), _), (("1", _), _)] sortNewest_ok ?_
    intro s hs
    simp only [List.mem_cons, List.not_mem_nil, or_false] at hs
    rcases hs with rfl | rfl | rfl
    · exact .there _ _ _ _ (.collector _ _ _ _ _ _ sortNewest_ok (hbuf _ _ rfl))
    · exact .down _ _ fun _ => .inl rfl
    · exact .here _ _ (.collector _ _ _ _ _ _ sortNewest_ok (hbuf _ _ rfl))
  · decide +kernel
  · intro req b hb t ht
    simp only [Reach.join, List.flatMap_cons, List.flatMap_nil, Reach.nothing, List.map_cons, List.map_nil, List.nil_append, List.append_nil,
      List.cons_append, List.mem_cons, List.not_mem_nil, or_false, or_self] at hb
    subst hb
    simp only [List.mem_cons, List.not_mem_nil, or_false] at ht
    rcases ht with rfl | rfl <;> intro _ _ <;> decide
  all_goals decide +kernel

end Trc.Web
