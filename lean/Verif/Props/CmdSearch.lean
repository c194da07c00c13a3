import Verif.Cmd.Search
import Verif.Props.Server
import Verif.Props.Multi
import Verif.Props.Util

/-!
# C84, C85: what the commands ask for and print
-/

namespace Trc.Cmd

open Trc.Web

/-- A trace is what the flags ask for; a query that is not a regular expression asks for nothing. -/
def FilterFlags.Wants (compile : Compile) (c : FilterFlags) (x : Static) : Prop :=
  (c.sources ≠ [] → x.source ∈ c.sources) ∧ (c.ids ≠ [] → x.id ∈ c.ids) ∧
  (c.category ≠ "" → x.category = c.category) ∧ (c.isActive = true → x.finished = false) ∧
  (c.isFinished = true → x.finished = true) ∧
  (∀ d, c.minDuration = some d → x.finished = true ∧ d ≤ x.duration) ∧
  (c.isSuccess = true → x.errored = false) ∧ (c.isErrored = true → x.errored = true) ∧
  (c.query ≠ "" → ∀ re, compile c.query = .ok re → queryHits re x)

theorem wants_iff (compile : Compile) (c : FilterFlags) (x : Static) : c.Wants compile x ↔ c.filter.Sat compile x := by
  unfold FilterFlags.Wants FilterFlags.filter Filter.Sat Filter.Basic
  simp only [ne_eq, ← Decidable.or_iff_not_imp_left, and_assoc]

/-! ## C84 -/

/-- **C84**, for runs without `--active`, and without `--finished` together with `--events`: the filter that
`trc stream` sends lets through exactly the traces that satisfy the flags and, unless events are asked for,
are finished.  Full statement: for all flags, see `C84_active_violated`. -/
theorem C84_stream_filter_partial (compile : Compile) (c : FilterFlags) (streamEvents : Bool) (h : c.isActive = false)
    (h' : streamEvents = true → c.isFinished = false) (x : Static) :
    (c.streamFilter streamEvents).Sat compile x ↔ c.Wants compile x ∧ (streamEvents = true ∨ x.finished = true) := by
  rw [wants_iff]
  unfold FilterFlags.streamFilter FilterFlags.filter Filter.Sat Filter.Basic
  cases streamEvents with
  | true => simp [h, h' rfl]
  | false =>
    simp only [h, Bool.false_eq_true, if_false, false_or, false_implies, true_and, true_implies]
    constructor
    · rintro ⟨⟨h1, h2, h3, h4, h5⟩, h6⟩
      exact ⟨⟨⟨h1, h2, h3, fun _ => h4, h5⟩, h6⟩, h4⟩
    · rintro ⟨⟨⟨h1, h2, h3, h4, h5⟩, h6⟩, h7⟩
      exact ⟨⟨h1, h2, h3, h7, h5⟩, h6⟩

/-- **C84**, in general: `--active` is ignored, and so is `--finished` with `--events`. -/
theorem C84_ignored (c : FilterFlags) (streamEvents a f : Bool) :
    { c with isActive := a, isFinished := f }.streamFilter streamEvents = c.streamFilter streamEvents := by
  unfold FilterFlags.streamFilter FilterFlags.filter
  cases streamEvents <;> rfl

/-- **C84**, exactly, for all flags: what is shown is what satisfies the flags other than `--active` and `--finished`
and, unless events are asked for, is finished. -/
theorem C84_exact (compile : Compile) (c : FilterFlags) (streamEvents : Bool) (x : Static) :
    (c.streamFilter streamEvents).Sat compile x ↔
      { c with isActive := false, isFinished := false }.Wants compile x ∧ (streamEvents = true ∨ x.finished = true) := by
  rw [← C84_stream_filter_partial compile { c with isActive := false, isFinished := false } streamEvents rfl (fun _ => rfl),
    C84_ignored c streamEvents false false]

/-- **C84** is violated: with `--active` only finished traces are shown. -/
theorem C84_active_violated (compile : Compile) :
    ∃ (c : FilterFlags) (x : Static), (c.streamFilter false).Sat compile x ∧ ¬ c.Wants compile x := by
  refine ⟨{ isActive := true }, ⟨"", "", "", .zero, 0, true, false, []⟩, ?_, ?_⟩
  · simp [FilterFlags.streamFilter, FilterFlags.filter, Filter.Sat, Filter.Basic]
  · simp [FilterFlags.Wants]

/-! ## C85 -/

/-- **C85** The stack depth: a positive `--stack-depth` is the number of frames, no `--stack-depth` (or one that
is not positive) means none. -/
theorem C85_stack_depth (c : SearchFlags) (t : Static) (ev : Core.Event) (h : ev ∈ (t.trimStacks c.request.stackDepth).events) :
    (ev.stack.length : Int) ≤ max c.stackDepth 0 := by
  have hd : c.request.stackDepth ≠ 0 := by
    unfold SearchFlags.request
    simp only
    split
    · omega
    · assumption
  obtain ⟨_, _, hev⟩ := C68_trim t _ hd
  obtain ⟨i, hi, rfl⟩ := List.mem_iff_getElem.mp h
  have := hev i
  rw [List.getElem?_eq_getElem hi] at this
  cases ho : t.events[i]? with
  | none => rw [ho] at this; cases this
  | some e =>
    rw [ho] at this
    simp only [Option.map_some, Option.some.injEq] at this
    rw [this]
    unfold trimmed SearchFlags.request
    simp only
    by_cases h0 : c.stackDepth = 0
    · simp [h0]
    · simp only [h0, if_false]
      split
      · simp; omega
      · simp only [List.length_take]; omega

variable {α : Type} [Inhabited α]

/-- A server that serves a collector: what it holds, and how its traces look to the search. -/
structure Live (compile : Compile) (mulFrac : Nat → Nat → Nat → Nat) (size : JSON → Nat) (mime : List Char → Option String)
    (α : Type) [Inhabited α] (s : Remote) where
  source : String
  srt : List Static → List Static
  sorts : SortOK srt
  view : α → Look → Static
  rings : List (Ring.RB α)
  contents : List (List α)
  holds : Buffers rings contents
  distinct : contents.flatten.Nodup
  comparable : Comparable (contents.flatten.map fun c => (view c .copy).started)
  took : Duration
  renders : SearchData → Bool
  server : s.server = handleSearch compile mulFrac size mime renders (collectorSearcher compile srt source view rings took)

/-- The number of traces at a live server. -/
def Live.total {compile : Compile} {mulFrac : Nat → Nat → Nat → Nat} {size : JSON → Nat} {mime : List Char → Option String}
    {s : Remote} (l : Live compile mulFrac size mime α s) : Int := l.contents.flatten.length

/-- A server that cannot be reached, or answers with an error, to whatever it is asked. -/
def Down (s : Remote) (e : String) : Prop := ∀ req, searchClient s.rawQuery s.server req = .error e

theorem wire_find (l : List (String × CategoryStats)) (k : String) :
    Ring.Assoc.find (l.map fun p => (p.1, wireCategory p.2)) k = (Ring.Assoc.find l k).map wireCategory := by
  induction l with
  | nil => rfl
  | cons p l ih =>
    obtain ⟨n, v⟩ := p
    unfold Ring.Assoc.find at ih ⊢
    rw [List.map_cons, List.find?_cons, List.find?_cons]
    cases n == k
    · exact ih
    · rfl

theorem wire_zero {t : Time} (h : t.onWire.isZero = true) : t.onWire = Time.zero := by
  unfold Time.isZero at h
  unfold Time.onWire at h ⊢
  simp only [Time.zero, decide_eq_true_eq, beq_iff_eq] at h ⊢
  rw [h]

theorem wireStats_wf {n : Nat} {ss : SearchStats} (h : ss.WF n) : (wireStats ss).WF n := by
  refine ⟨h.len, ?_, fun k cs hf => ?_⟩
  · have : (wireStats ss).categories.keys = ss.categories.keys := by
      unfold wireStats Ring.Assoc.keys
      simp
    rw [this]; exact h.nodup
  · unfold wireStats at hf
    rw [wire_find] at hf
    cases hk : ss.categories.find k with
    | none => rw [hk] at hf; cases hf
    | some cs' =>
      rw [hk] at hf
      obtain rfl := Option.some.inj hf
      obtain ⟨h1, h2, h3, h4, h5, _, _⟩ := h.cat k cs' hk
      exact ⟨h1, h2, h3, h4, h5, wire_zero, wire_zero⟩

section
variable {compile : Compile} {mulFrac : Nat → Nat → Nat → Nat} {size : JSON → Nat} {mime : List Char → Option String}

/-- The request of the command is well-behaved. -/
theorem request_fresh (c : SearchFlags) : c.request.filter.Fresh compile := by
  intro re h
  simp [SearchFlags.request, FilterFlags.filter] at h

theorem request_normalized (c : SearchFlags) : ∃ req problems, c.request.normalize compile = some (req, problems) ∧
    req.normalize compile = some (req, []) ∧ req.filter.Fresh compile ∧ (∀ d ∈ req.bucketing, 0 ≤ d) ∧
    req.stackDepth = c.request.stackDepth := by
  have h0 : ∀ d ∈ c.request.bucketing, 0 ≤ d := by simp [SearchFlags.request]
  obtain ⟨req, problems, h1, h2⟩ := C36_idempotent_partial compile c.request (request_fresh c) h0
  have hn := h1
  unfold SearchRequest.normalize at h1
  cases hb : normalizeBucketing c.request.bucketing with
  | none => rw [hb] at h1; cases h1
  | some b =>
    rw [hb] at h1
    simp only [bind, Option.bind_some, pure, Option.some.injEq, Prod.mk.injEq] at h1
    refine ⟨req, problems, hn, h2, ?_, ?_, by rw [← h1.1]⟩
    · rw [← h1.1]; exact (normalize_fresh compile _ (request_fresh c)).1
    · obtain ⟨r, p, c1, c2, c3, c4, _⟩ := C35_buckets compile c.request h0
      rw [hn] at c1
      obtain ⟨rfl, _⟩ := Prod.mk.inj (Option.some.inj c1)
      intro d hd
      rcases (c4 d).mp hd with rfl | hd
      · exact Int.le_refl 0
      · unfold requested at hd
        split at hd
        · exact (show ∀ d ∈ defaultBucketing, 0 ≤ d by decide) d hd
        · exact h0 d hd

/-- What a live server answers. -/
theorem live_answer (c : SearchFlags) {req : SearchRequest} {problems : List String} (hn : c.request.normalize compile = some (req, problems))
    (hsize : size (encRequest req) ≤ 1048576) (hm : mime "application/json".toList = some "application/json")
    {s : Remote} (l : Live compile mulFrac size mime α s) :
    ∃ reply ss, searchClient s.rawQuery s.server req = .ok reply ∧ reply.totalCount = l.total ∧ reply.problems = [] ∧
      reply.stats = some ss ∧ ss.WF req.bucketing.length ∧
      ∀ t ∈ reply.traces, ∃ x, t = wireStatic (copyOf c.request l.view x) ∧ x ∈ l.contents.flatten ∧
        c.filter.filter.Sat compile (l.view x .filter) := by
  obtain ⟨req', problems', hn', hfix, hfresh, hneg, hdepth⟩ := request_normalized (compile := compile) c
  rw [hn] at hn'
  obtain ⟨rfl, rfl⟩ := Prod.mk.inj (Option.some.inj hn')
  obtain ⟨res, hres, _, _, _, _, cs, _, htr, hsel⟩ :=
    C25_response compile l.srt l.sorts l.source c.request (request_fresh c) l.view l.rings l.contents l.holds l.distinct l.comparable
  obtain ⟨res2, hres2, htot⟩ := C27_totalCount compile l.srt l.source c.request (request_fresh c) l.view l.rings l.contents l.holds
  rw [hres] at hres2
  obtain rfl := Option.some.inj hres2
  have hsn := search_normalized compile l.srt l.source c.request req problems hn hfix l.view l.rings
  rw [hres] at hsn
  simp only [Option.map_some] at hsn
  obtain ⟨req3, problems3, res3, hn3, hres3, hwf⟩ := search_usable compile l.srt l.source req hfresh hneg l.view l.rings l.contents l.holds
  rw [hfix] at hn3
  obtain ⟨rfl, rfl⟩ := Prod.mk.inj (Option.some.inj hn3)
  rw [hsn] at hres3
  obtain rfl := Option.some.inj hres3
  have hlocal : collectorSearcher compile l.srt l.source l.view l.rings l.took req =
      some (req, .ok (some { ({ res with problems := [] } : SearchResponse).toResponse with request := some req, duration := l.took })) := by
    unfold collectorSearcher
    rw [hfix, hsn]
    rfl
  obtain ⟨reply, h1, h2, h3, h4, h5, h6, h7, h8, h9⟩ :=
    C71_remote_partial compile mulFrac size mime l.renders l.srt l.source req hfresh hneg hsize hm l.view l.rings l.took l.took s.rawQuery
      req _ hlocal
  refine ⟨reply, wireStats res.stats, by rw [l.server]; exact h1, ?_, h9, ?_, wireStats_wf hwf, fun t ht => ?_⟩
  · rw [h3]
    show res.totalCount = _
    rw [htot]
    unfold Live.total
    rw [List.length_flatten]
  · rw [h6]; rfl
  · rw [h5] at ht
    obtain ⟨t', ht', rfl⟩ := List.mem_map.mp ht
    have ht' : t' ∈ res.traces := ht'
    rw [htr] at ht'
    obtain ⟨x, hx, rfl⟩ := List.mem_map.mp ht'
    exact ⟨x, rfl, (hsel x hx).1, (hsel x hx).2⟩

/-- A URI of the command line: a server that serves a collector, or one that is down. -/
abbrev Site (compile : Compile) (mulFrac : Nat → Nat → Nat → Nat) (size : JSON → Nat) (mime : List Char → Option String)
    (α : Type) [Inhabited α] := (s : Remote) × (Live compile mulFrac size mime α s ⊕ { e : String // Down s e })

def Site.total (s : Site compile mulFrac size mime α) : Int :=
  match s.2 with
  | .inl l => l.total
  | .inr _ => 0

def Site.down (s : Site compile mulFrac size mime α) : Bool :=
  match s.2 with
  | .inl _ => false
  | .inr _ => true

/-- What arrives from a site. -/
theorem site_arrival (c : SearchFlags) {req : SearchRequest} {problems : List String} (hn : c.request.normalize compile = some (req, problems))
    (hsize : size (encRequest req) ≤ 1048576) (hm : mime "application/json".toList = some "application/json")
    (s : Site compile mulFrac size mime α) :
    (∃ l reply ss, s.2 = .inl l ∧ searchClient s.1.rawQuery s.1.server req = .ok reply ∧
      s.1.arrival req = { id := s.1.uri, res := some reply.toResponse, order := s.1.order } ∧
      reply.totalCount = l.total ∧ reply.problems = [] ∧ reply.stats = some ss ∧ ss.WF req.bucketing.length ∧
      ∀ t ∈ reply.traces, ∃ x, t = wireStatic (copyOf c.request l.view x) ∧ x ∈ l.contents.flatten ∧
        c.filter.filter.Sat compile (l.view x .filter)) ∨
    (∃ e, s.2 = .inr e ∧ s.1.arrival req = { id := s.1.uri, err := some e.1 }) := by
  obtain ⟨r, k⟩ := s
  cases k with
  | inl l =>
    obtain ⟨reply, ss, h1, h2⟩ := live_answer c hn hsize hm l
    refine .inl ⟨l, reply, ss, rfl, h1, ?_, h2⟩
    simp only [Remote.arrival, h1]
  | inr e =>
    refine .inr ⟨e, rfl, ?_⟩
    simp only [Remote.arrival, e.2 req]

/-- **C85** `trc search` over any number of servers, some of which are down, in any order of arrival: it prints a
result; the total is that of the live servers; the traces are newest first, at most the limit, and each is a
copy of a trace that a live server holds and that satisfies the flags, with the stacks of `C85_stack_depth`;
every server that is down adds a problem, and there are no problems besides these and those of the flags. -/
theorem C85_end_to_end {srt : List Static → List Static} (hs : Sorts srt) (c : SearchFlags)
    (sites : List (Site compile mulFrac size mime α)) (req : SearchRequest) (problems : List String)
    (hn : c.request.normalize compile = some (req, problems))
    (hsize : size (encRequest req) ≤ 1048576) (hm : mime "application/json".toList = some "application/json")
    (horder : ∀ s ∈ sites, ∀ reply ss, searchClient s.1.rawQuery s.1.server req = .ok reply → reply.stats = some ss →
      s.1.order.Perm ss.categories) :
    ∃ out, searchExec compile srt c (sites.map (·.1)) = some out ∧
      out.totalCount = sumBy Site.total sites ∧ NewestFirst out.traces ∧
      (out.traces.length : Int) ≤ (if c.limit ≤ 0 then 10 else min c.limit 250) ∧
      (∀ t ∈ out.traces, ∃ s ∈ sites, ∃ l, s.2 = .inl l ∧ ∃ x, t = wireStatic (copyOf c.request l.view x) ∧
        x ∈ l.contents.flatten ∧ c.filter.Wants compile (l.view x .filter)) ∧
      (∀ s ∈ sites, ∀ e, s.2 = .inr e → e.1 ∈ out.problems) ∧
      out.problems.length = problems.length + sites.countP Site.down ∧
      (out.request.isSome = c.includeRequest) ∧ (out.stats.isSome = c.includeStats) := by
  have ha := fun s : Site compile mulFrac size mime α => site_arrival c hn hsize hm s
  simp only [wants_iff]
  generalize hts : (sites.map (·.1)).map (·.arrival req) = ts
  have hts' : ts = sites.map fun s => s.1.arrival req := by rw [← hts, List.map_map]; rfl
  -- the search returns
  have h0 : ∀ d ∈ c.request.bucketing, 0 ≤ d := by simp [SearchFlags.request]
  obtain ⟨req', problems', hn', hret⟩ := C47_returns_partial compile srt c.request (request_fresh c) h0 0 0 ts
  rw [hn] at hn'
  obtain ⟨rfl, rfl⟩ := Prod.mk.inj (Option.some.inj hn')
  obtain ⟨r, hr⟩ := hret (by
    intro t ht x hx
    rw [hts'] at ht
    obtain ⟨s, hsm, rfl⟩ := List.mem_map.mp ht
    rcases ha s with ⟨l, reply, ss, e1, e2, e3, e4, e5, e6, e7, e8⟩ | ⟨e, e1, e2⟩
    · rw [e3] at hx ⊢
      obtain rfl := Option.some.inj hx
      refine ⟨fun ss' h => ?_, fun ss' h => horder s hsm reply ss' e2 h⟩
      have h : reply.stats = some ss' := h
      rw [e6] at h
      obtain rfl := Option.some.inj h
      exact .inr e7
    · rw [e2] at hx; cases hx)
  -- what the answers are
  have hresp : ∀ x ∈ responses ts, ∃ s ∈ sites, ∃ l reply, s.2 = .inl l ∧ x = Reply.toResponse reply ∧
      ∀ t ∈ reply.traces, ∃ x, t = wireStatic (copyOf c.request l.view x) ∧ x ∈ l.contents.flatten ∧
        c.filter.filter.Sat compile (l.view x .filter) := by
    intro x hx
    unfold responses at hx
    obtain ⟨t, ht, hx⟩ := List.mem_filterMap.mp hx
    rw [hts'] at ht
    obtain ⟨s, hsm, rfl⟩ := List.mem_map.mp ht
    rcases ha s with ⟨l, reply, ss, e1, e2, e3, e4, e5, e6, e7, e8⟩ | ⟨e, e1, e2⟩
    · rw [e3] at hx
      obtain rfl := Option.some.inj hx
      exact ⟨s, hsm, l, reply, e1, rfl, e8⟩
    · rw [e2] at hx; cases hx
  have htraces : ∀ t ∈ (responses ts).flatMap (·.traces), ∃ s ∈ sites, ∃ l, s.2 = .inl l ∧
      ∃ x, t = wireStatic (copyOf c.request l.view x) ∧ x ∈ l.contents.flatten ∧
        c.filter.filter.Sat compile (l.view x .filter) := by
    intro t ht
    obtain ⟨x, hx, ht⟩ := List.mem_flatMap.mp ht
    obtain ⟨s, hsm, l, reply, e1, rfl, e2⟩ := hresp x hx
    exact ⟨s, hsm, l, e1, e2 t ht⟩
  have htotal : sumBy (·.totalCount) (responses ts) = sumBy Site.total sites := by
    rw [hts']
    clear hts hts' hret hr hresp htraces horder
    induction sites with
    | nil => rfl
    | cons s sites ih =>
      unfold responses at ih ⊢
      rw [List.map_cons]
      rcases ha s with ⟨l, reply, ss, e1, e2, e3, e4, e5, e6, e7, e8⟩ | ⟨e, e1, e2⟩
      · rw [List.filterMap_cons, e3]
        simp only [sumBy, ih, e4, Site.total, e1]
      · rw [List.filterMap_cons, e2]
        simp only [sumBy, ih, Site.total, e1, Int.zero_add]
  have hproblems : (ts.flatMap problemsOf).length = sites.countP Site.down ∧
      ∀ s ∈ sites, ∀ e, s.2 = .inr e → e.1 ∈ ts.flatMap problemsOf := by
    rw [hts']
    clear hts hts' hret hr hresp htraces horder htotal
    induction sites with
    | nil => exact ⟨rfl, by simp⟩
    | cons s sites ih =>
      obtain ⟨i1, i2⟩ := ih
      rw [List.map_cons, List.flatMap_cons]
      rcases ha s with ⟨l, reply, ss, e1, e2, e3, e4, e5, e6, e7, e8⟩ | ⟨e, e1, e2⟩
      · rw [e3]
        have hp : problemsOf { id := s.1.uri, res := some reply.toResponse, order := s.1.order } = [] := by
          simp only [problemsOf, e5]
        have hd : Site.down s = false := by simp only [Site.down, e1]
        rw [hp, List.nil_append, List.countP_cons_of_neg (by simp [hd])]
        refine ⟨i1, fun s' hm' e' he' => ?_⟩
        rcases List.mem_cons.mp hm' with rfl | hm'
        · rw [e1] at he'; cases he'
        · exact i2 s' hm' e' he'
      · rw [e2]
        have hp : problemsOf { id := s.1.uri, err := some e.1 } = [e.1] := rfl
        have hd : Site.down s = true := by simp only [Site.down, e1]
        rw [hp, List.countP_cons_of_pos hd]
        refine ⟨by simp [i1, Nat.add_comm], fun s' hm' e' he' => ?_⟩
        rcases List.mem_cons.mp hm' with rfl | hm'
        · rw [e1] at he'
          obtain rfl := Sum.inr.inj he'
          simp
        · exact List.mem_append_right _ (i2 s' hm' e' he')
  have hmr := C45_most_recent hs hr (ordered_comparable ⟨false, fun t ht => by
    obtain ⟨x, hx, rfl⟩ := List.mem_map.mp ht
    obtain ⟨s, _, l, _, y, rfl, _⟩ := htraces x hx
    rfl⟩)
  obtain ⟨m1, m2, rest, m3, _⟩ := hmr
  obtain ⟨_, problems', stats, hn', rfl⟩ := multiSearch_spec hr
  rw [hn] at hn'
  obtain ⟨rfl, rfl⟩ := Prod.mk.inj (Option.some.inj hn')
  refine ⟨_, by unfold searchExec; rw [hn]; simp only [bind, Option.bind_some, hts, hr]; rfl, htotal, m1, ?_, ?_, ?_, ?_, ?_, ?_⟩
  · have h1 := (limitOf_pos c.request).1
    have h2 : limitOf c.request = if c.limit ≤ 0 then 10 else min c.limit 250 := by
      unfold limitOf SearchFlags.request
      simp only
      split
      · rfl
      · split <;> omega
    rw [← h2]
    simp only at m2 ⊢
    omega
  · intro t ht
    exact htraces t (m3.subset (List.mem_append_left _ ht))
  · intro s hsm e he
    exact List.mem_append_right _ (hproblems.2 s hsm e he)
  · simp only [List.length_append, hproblems.1]
  · cases c.includeRequest <;> rfl
  · cases c.includeStats <;> rfl

end

/-! ## Non-vacuity -/

private def knowsJSON : List Char → Option String := fun l => if l = "application/json".toList then some "application/json" else none

/-- Two traces at a live server. -/
private def held : List Static := [sampleTrace "b" 2 true false 3, sampleTrace "a" 1 false false 0]

/-- A live server and one that is down. -/
example : ∃ sites : List (Site (fun _ => .error "") (fun _ _ _ => 0) (fun _ => 0) knowsJSON Static),
    sumBy Site.total sites = 2 ∧ sites.countP Site.down = 1 ∧ sites.length = 2 := by
  obtain ⟨rb, h1, h2⟩ := Ring.rep_exec (α := Static) 10 [.add (sampleTrace "a" 1 false false 0), .add (sampleTrace "b" 2 true false 3)]
  refine ⟨[⟨{ uri := "up", server := _ }, .inl
      { source := "s", srt := sortNewest, sorts := sortNewest_ok, view := still, rings := [rb], contents := [held]
        holds := ⟨by simp only [List.map_cons, List.map_nil, Ring.walkAll_spec h2]; rfl, ?_⟩
        distinct := by decide +kernel
        comparable := ⟨false, by decide +kernel⟩, took := 0, renders := fun _ => true, server := rfl }⟩,
    ⟨{ uri := "down", server := fun _ => none }, .inr ⟨"execute HTTP request", fun _ => rfl⟩⟩], rfl, rfl, rfl⟩
  intro r hr
  simp at hr
  subst hr
  exact ⟨10, _, _, h1⟩

/-- A run of `trc search --finished` over such servers; the second is `none`. -/
example : ∃ (rb : Ring.RB Static) (outs : List (List Static)) (out : Printed),
    Ring.exec 10 [.add (sampleTrace "a" 1 false false 0), .add (sampleTrace "b" 2 true false 3)] = some (rb, outs) ∧
    searchExec (fun _ => .error "") sortNewest { filter := { isFinished := true } }
      [{ uri := "up", server := handleSearch (fun _ => .error "") (fun _ _ _ => 0) (fun _ => 0) knowsJSON (fun _ => true)
          (collectorSearcher (fun _ => .error "") sortNewest "s" still [rb] 5) },
       { uri := "down", server := fun _ => none }] = some out ∧
    out.traces.map (·.id) = ["b"] ∧ out.totalCount = 2 ∧ out.problems.length = 1 := by
  refine ⟨_, _, _, rfl, rfl, ?_, ?_, ?_⟩
  all_goals decide +kernel

/-- The hypotheses of `C84_stream_filter_partial` hold for `trc stream --errored`. -/
example : ({ isErrored := true } : FilterFlags).isActive = false ∧
    (true = true → ({ isErrored := true } : FilterFlags).isFinished = false) := ⟨rfl, fun _ => rfl⟩

end Trc.Cmd
