import Verif.Props.Outage

/-!
# C164: servers that ask each other

A server is described by what it asks, some of which may be other servers of the same description.  The equations that say
that each server answers what a multi-searcher makes of the answers to what it asks are `Runs`.  A behaviour of the servers in
which every search comes to an end, be it with an answer, an error or a panic, is a solution of them.
-/

namespace Trc.Web

/-- What a server asks: a searcher that does not depend on the servers described, or one of them by HTTP. -/
inductive Asks (ι : Type) where
  | here (s : Searcher)
  | there (rawQuery : Bytes) (renders : SearchData → Bool) (server : ι)

/-- A server with a multi-searcher, search_types.go:137-227. -/
structure Site (ι : Type) where
  srt : List Static → List Static
  o : Orders
  n₁ : Nat
  n₂ : Nat
  took : Duration
  asked : List (String × Asks ι)

section
variable {compile : Compile} {mulFrac : Nat → Nat → Nat → Nat} {size : JSON → Nat} {mime : List Char → Option String}

/-- The searcher that is asked, if `F` tells what the servers answer, trcweb/trace_server.go:179-222. -/
def Asks.searcher (compile : Compile) (mulFrac : Nat → Nat → Nat → Nat) (size : JSON → Nat) (mime : List Char → Option String)
    {ι : Type} (F : ι → Searcher) : Asks ι → Searcher
  | .here s => s
  | .there raw renders j => clientSearcher raw (handleSearch compile mulFrac size mime renders (F j))

/-- `F` tells what the servers answer. -/
def Runs (compile : Compile) (mulFrac : Nat → Nat → Nat → Nat) (size : JSON → Nat) (mime : List Char → Option String)
    {ι : Type} (sites : ι → Site ι) (F : ι → Searcher) : Prop :=
  ∀ i, F i = multiSearcher compile (sites i).srt (sites i).o (sites i).n₁ (sites i).n₂ (sites i).took
    ((sites i).asked.map fun a => (a.1, a.2.searcher compile mulFrac size mime F))

/-- The total of an answer, and zero for an error. -/
def totalOf : Option (SearchRequest × Except String (Option Reply)) → Int
  | some (_, .ok (some r)) => r.totalCount
  | _ => 0

theorem arrivals_congr (o : Orders) (req : SearchRequest) {α : Type} (f g : α → String × Searcher) (l : List α)
    (h : ∀ a ∈ l, (f a).1 = (g a).1 ∧ (f a).2 req = (g a).2 req) : arrivalsOf o req (l.map f) = arrivalsOf o req (l.map g) := by
  induction l with
  | nil => rfl
  | cons a l ih =>
    have e : arrivalOf o req (f a) = arrivalOf o req (g a) := by
      unfold arrivalOf
      rw [(h a (by simp)).1, (h a (by simp)).2]
    simp only [List.map_cons, arrivalsOf, e, ih fun b hb => h b (by simp [hb])]

theorem arrivals_total (o : Orders) (req : SearchRequest) (ss : List (String × Searcher)) (as : List Arrival)
    (h : arrivalsOf o req ss = some as) : sumBy (·.totalCount) (responses as) = sumBy (fun s => totalOf (s.2 req)) ss := by
  induction ss generalizing as with
  | nil => cases h; rfl
  | cons s ss ih =>
    simp only [arrivalsOf, bind] at h
    cases h1 : arrivalOf o req s with
    | none => rw [h1] at h; cases h
    | some a =>
      cases h2 : arrivalsOf o req ss with
      | none => rw [h1, h2] at h; cases h
      | some bs =>
        rw [h1, h2] at h
        cases h
        have := ih bs h2
        unfold arrivalOf at h1
        simp only [sumBy]
        rw [← this]
        split at h1
        · cases h1
        · next e => cases h1; simp [responses, totalOf, e]
        · next e => cases h1; simp [responses, totalOf, e]
        · next e => cases h1; simp [responses, totalOf, e, sumBy]

/-- A multi-searcher that returns answers, and its total is the sum. -/
theorem multi_total {srt : List Static → List Static} {o : Orders} {n₁ n₂ : Nat} {took : Duration} {ss : List (String × Searcher)}
    {req : SearchRequest} (hr : Ready compile req) (h : multiSearcher compile srt o n₁ n₂ took ss req ≠ none) :
    ∃ res st, multiSearcher compile srt o n₁ n₂ took ss req = some (req, .ok (some res)) ∧ res.stats = some st ∧
      res.totalCount = sumBy (fun s => totalOf (s.2 req)) ss := by
  unfold multiSearcher at h ⊢
  simp only [hr.fix, bind, Option.bind_some, normalizeAgain_fix hr.fix] at h ⊢
  cases h1 : arrivalsOf o req ss with
  | none => rw [h1] at h; exact absurd rfl h
  | some as =>
    rw [h1] at h
    simp only [Option.bind_some] at h ⊢
    cases h2 : multiSearch compile srt req n₁ n₂ as with
    | none => rw [h2] at h; exact absurd rfl h
    | some res =>
      obtain ⟨_, _, stats, _, e⟩ := multiSearch_spec h2
      refine ⟨_, stats, rfl, by rw [e], ?_⟩
      rw [← arrivals_total o req ss as h1, e]

/-- What a client makes of a server that answers. -/
theorem client_total (hm : mime "application/json".toList = some "application/json") {s : Searcher} {req : SearchRequest}
    (hr : Ready compile req) (hsize : size (encRequest req) ≤ 1048576) (raw : Bytes) (renders : SearchData → Bool)
    {res : Reply} {st : SearchStats} (h : s req = some (req, .ok (some res))) (hst : res.stats = some st) :
    ∃ res', clientSearcher raw (handleSearch compile mulFrac size mime renders s) req = some (req, .ok (some res')) ∧
      res'.totalCount = res.totalCount ∧ res'.stats = some (wireStats st) := by
  have hread : readRequest mulFrac size
      { neg := { rawQuery := raw, accept := ["application/json".toList] }, isJSON := true, body := some (encRequest req) } =
      some (wireRequest req) := by
    unfold readRequest readBody
    simp only [if_true]
    rw [if_neg (by show ¬ _ > 1048576; omega), request_rt]
  have hd : ∃ data, searchData compile s (wireRequest req) = some data ∧ data.response = res := by
    unfold searchData
    rw [normalize_wire compile req hr.fresh, hr.fix]
    simp only [Option.bind_eq_bind, Option.bind_some, h, takeResult, responseProblems, checkCategories, hst]
    split
    · exact ⟨_, rfl, rfl⟩
    · exact ⟨_, rfl, rfl⟩
  obtain ⟨data, d1, d2⟩ := hd
  refine ⟨wireReply data.response, ?_, by rw [d2]; rfl, by simp [wireReply, d2, hst]⟩
  unfold clientSearcher searchClient handleSearch
  rw [hread]
  simp only [d1, Option.map_some]
  unfold render
  rw [(client_json mime hm raw).2]
  simp only [ne_eq, not_true_eq_false, if_false, data_rt]
  rfl

/-- What a client makes of a server that panics. -/
theorem client_panic {s : Searcher} {req : SearchRequest} (hr : Ready compile req) (raw : Bytes) (renders : SearchData → Bool)
    (h : s req = none) : ∃ e, clientSearcher raw (handleSearch compile mulFrac size mime renders s) req = some (req, .error e) := by
  unfold clientSearcher searchClient handleSearch readRequest readBody
  by_cases hsize : size (encRequest req) > maxRequestBodySizeBytes
  · refine ⟨"read HTTP response", ?_⟩
    simp [hsize, Except.map]
  · refine ⟨"execute HTTP request", ?_⟩
    have : searchData compile s (wireRequest req) = none := by
      unfold searchData
      rw [normalize_wire compile req hr.fresh, hr.fix]
      simp [h]
    simp [hsize, request_rt, this, Except.map]

theorem fit_answer {s : Searcher} {r : SearchRequest → Reach} {req : SearchRequest} (hr : Ready compile req) (h : FitOrFail compile s r) :
    (Answer req (s req) ∨ ∃ e, s req = some (req, .error e)) ∧ totalOf (s req) = (r req).buffers.flatten.length := by
  rcases h req hr with ⟨res, e1, e2⟩ | ⟨⟨e, e1⟩, e2⟩
  · obtain ⟨st, s1, s2, _⟩ := e2.stats
    exact ⟨.inl ⟨res, st, e1, s1, s2⟩, by rw [e1]; exact e2.total⟩
  · exact ⟨.inr ⟨e, e1⟩, by rw [e1, e2]; rfl⟩

/-- A multi-searcher of searchers that answer a request or fail answers it. -/
theorem multi_answers (srt : List Static → List Static) (o : Orders) (n₁ n₂ : Nat) (took : Duration) (ss : List (String × Searcher))
    {req : SearchRequest} (hr : Ready compile req)
    (hs : ∀ s ∈ ss, Answer req (s.2 req) ∨ ∃ e, s.2 req = some (req, .error e)) :
    Answer req (multiSearcher compile srt o n₁ n₂ took ss req) := by
  classical
  let only : String × Searcher → String × Searcher := fun s => (s.1, fun r => if r = req then s.2 r else some (r, .error ""))
  have h := good_multi (compile := compile) srt o n₁ n₂ took (ss.map only) (by
    intro s hs' r hr'
    obtain ⟨s, hmem, rfl⟩ := List.mem_map.mp hs'
    by_cases e : r = req
    · subst e
      simpa [only] using hs s hmem
    · exact .inr ⟨"", by simp [only, e]⟩) req hr
  have e : arrivalsOf o req (ss.map only) = arrivalsOf o req ss := by
    have := arrivals_congr o req only id ss fun s _ => ⟨rfl, by simp [only]⟩
    rwa [List.map_id] at this
  unfold multiSearcher at h ⊢
  rw [hr.fix] at h ⊢
  simp only [bind, Option.bind_some] at h ⊢
  rwa [e] at h

/-- **C164** is false: take servers each of which asks the next one, besides searchers of any networks, such that one comes back to the
first one.  Let this one reach a trace that is not on the circle.  Then, whatever the order in which answers arrive, no
behaviour of the servers in which searches come to an end, with answers, errors or panics, is consistent: the total would have to exceed
itself.  So a search asks around the circle without end. -/
theorem C164_circle_always_violated (hm : mime "application/json".toList = some "application/json") {ι : Type} (sites : ι → Site ι) (next : ι → ι)
    (before after : ι → List ((String × Searcher) × (SearchRequest → Reach)))
    (id : ι → String) (raw : ι → Bytes) (renders : ι → SearchData → Bool)
    (hsites : ∀ i, (sites i).asked = (before i).map (fun s => (s.1.1, .here s.1.2)) ++ (id i, .there (raw i) (renders i) (next i)) ::
      (after i).map fun s => (s.1.1, .here s.1.2))
    (hnet : ∀ i, ∀ s ∈ before i ++ after i, Network compile mulFrac size mime false s.1.2 s.2)
    (i : ι) (n : Nat) (hn : 0 < n) (hcircle : next^[n] i = i)
    (req : SearchRequest) (hf : req.filter.Fresh compile) (h0 : ∀ d ∈ req.bucketing, 0 ≤ d) (req₁ : SearchRequest) (invalid : List String)
    (hreq : req.normalize compile = some (req₁, invalid)) (hsize : size (encRequest req₁) ≤ 1048576)
    (htrace : ∃ s ∈ before i ++ after i, (s.2 req₁).buffers.flatten ≠ []) :
    ¬ ∃ F, Runs compile mulFrac size mime sites F := by
  rintro ⟨F, hF⟩
  obtain ⟨_, _, hn', hr⟩ := normalize_ready hf h0
  rw [hreq] at hn'
  obtain ⟨rfl, rfl⟩ := Prod.mk.inj (Option.some.inj hn')
  let cl : ι → Searcher := fun j => clientSearcher (raw j) (handleSearch compile mulFrac size mime (renders j) (F (next j)))
  have hFj : ∀ j, F j = multiSearcher compile (sites j).srt (sites j).o (sites j).n₁ (sites j).n₂ (sites j).took
      ((before j).map Prod.fst ++ (id j, cl j) :: (after j).map Prod.fst) := by
    intro j
    rw [hF j, hsites j]
    simp only [List.map_append, List.map_cons, List.map_map, Function.comp_def, Asks.searcher, cl]
  have hfit : ∀ j, ∀ s ∈ before j ++ after j, (Answer req₁ (s.1.2 req₁) ∨ ∃ e, s.1.2 req₁ = some (req₁, .error e)) ∧
      totalOf (s.1.2 req₁) = (s.2 req₁).buffers.flatten.length := fun j s hs =>
    fit_answer hr (network_fit hm (hnet j s hs)).1
  -- a server whose next one answers well or panics answers well
  have hback : ∀ j, (F (next j) req₁ = none ∨ Answer req₁ (F (next j) req₁)) → Answer req₁ (F j req₁) := by
    intro j hj
    rw [hFj j]
    refine multi_answers _ _ _ _ _ _ hr fun s hs => ?_
    simp only [List.mem_append, List.mem_map, List.mem_cons] at hs
    rcases hs with ⟨p, hp, rfl⟩ | rfl | ⟨p, hp, rfl⟩
    · exact (hfit j p (by simp [hp])).1
    · rcases hj with hj | ⟨res, st, e1, e2, e3⟩
      · exact .inr (client_panic hr _ _ hj)
      · obtain ⟨res', c1, _, c3⟩ := client_total (mulFrac := mulFrac) hm hr hsize (raw j) (renders j) e1 e2
        exact .inl ⟨res', _, c1, c3, Cmd.wireStats_wf e3⟩
    · exact (hfit j p (by simp [hp])).1
  -- so none of the circle panics
  have hsome : ∀ k, k ≤ n → F (next^[k] i) req₁ ≠ none := by
    have key : ∀ m j, F (next^[m + 1] j) req₁ = none → Answer req₁ (F j req₁) := by
      intro m
      induction m with
      | zero => intro j h; exact hback j (.inl h)
      | succ m ih => intro j h; exact hback j (.inr (ih (next j) h))
    intro k hk hnone
    have hcyc : next^[n] (next^[k] i) = next^[k] i := by
      rw [← Function.iterate_add_apply, Nat.add_comm, Function.iterate_add_apply, hcircle]
    obtain ⟨m, rfl⟩ : ∃ m, n = m + 1 := ⟨n - 1, by omega⟩
    obtain ⟨res, st, e, _⟩ := key m (next^[k] i) (by rw [hcyc]; exact hnone)
    rw [hnone] at e
    cases e
  -- the totals
  have hpos : ∀ j, ∀ s ∈ before j ++ after j, 0 ≤ totalOf (s.1.2 req₁) := by
    intro j s hs
    rw [(hfit j s hs).2]
    omega
  have hnonneg : ∀ l : List ((String × Searcher) × (SearchRequest → Reach)), (∀ s ∈ l, 0 ≤ totalOf (s.1.2 req₁)) →
      0 ≤ sumBy (fun s => totalOf (s.1.2 req₁)) l ∧ ∀ s ∈ l, totalOf (s.1.2 req₁) ≤ sumBy (fun s => totalOf (s.1.2 req₁)) l := by
    intro l
    induction l with
    | nil => intro _; exact ⟨Int.le_refl 0, by intro s hs; cases hs⟩
    | cons a l ih =>
      intro h
      obtain ⟨h1, h2⟩ := ih fun s hs => h s (by simp [hs])
      have h3 := h a (by simp)
      refine ⟨by simp only [sumBy]; omega, ?_⟩
      intro s hs
      rcases List.mem_cons.mp hs with rfl | hs
      · simp only [sumBy]; omega
      · have := h2 s hs
        simp only [sumBy]; omega
  have hstep : ∀ j, F j req₁ ≠ none → F (next j) req₁ ≠ none →
      totalOf (F j req₁) = sumBy (fun s => totalOf (s.1.2 req₁)) (before j ++ after j) + totalOf (F (next j) req₁) := by
    intro j h1 h2
    have h3 := hFj j
    rw [h3] at h1
    obtain ⟨res, st, e1, _, e3⟩ := multi_total hr h1
    have h4 := hFj (next j)
    rw [h4] at h2
    obtain ⟨res', st', f1, f2, _⟩ := multi_total hr h2
    rw [← h4] at f1
    obtain ⟨res'', c1, c2, _⟩ := client_total (mulFrac := mulFrac) hm hr hsize (raw j) (renders j) f1 f2
    rw [h3, e1, f1]
    show res.totalCount = _ + res'.totalCount
    rw [e3, sumBy_append, sumBy_append]
    simp only [sumBy, sumBy_map]
    have : totalOf (cl j req₁) = res'.totalCount := by
      show totalOf (clientSearcher _ _ req₁) = _
      rw [c1]; exact c2
    rw [this]
    omega
  obtain ⟨m, rfl⟩ : ∃ m, n = m + 1 := ⟨n - 1, by omega⟩
  -- around the circle from the second server
  have hcyc : ∀ k, k ≤ m → totalOf (F (next^[k] (next i)) req₁) ≤ totalOf (F (next i) req₁) := by
    intro k
    induction k with
    | zero => intro _; exact Int.le_refl _
    | succ k ih =>
      intro hk
      have h1 := ih (by omega)
      have a1 := hsome (k + 1) (by omega)
      have a2 := hsome (k + 2) (by omega)
      rw [Function.iterate_succ_apply] at a1 a2
      rw [Function.iterate_succ_apply'] at a2 ⊢
      have h3 := hstep _ a1 a2
      have h4 := (hnonneg _ (hpos (next^[k] (next i)))).1
      omega
  have hfirst := hcyc m (Nat.le_refl m)
  rw [← Function.iterate_succ_apply, hcircle] at hfirst
  have h1 := hstep i (hsome 0 (by omega)) (hsome 1 (by omega))
  obtain ⟨s, hs, hne⟩ := htrace
  have h2 := (hnonneg _ (hpos i)).2 s hs
  rw [(hfit i s hs).2] at h2
  have := List.length_pos_iff.mpr hne
  omega

/-- **C164.** What the circle does with a search before it is stopped: suppose that the search is cut off after `n` further hops, where
the last server asked gets no answer from the next one.  Then the server answers, and its total counts the traces of every server
as often as the search came by it. -/
theorem C164_hops (hm : mime "application/json".toList = some "application/json") {ι : Type} (sites : ι → Site ι) (next : ι → ι)
    (before after : ι → List ((String × Searcher) × (SearchRequest → Reach)))
    (id : ι → String) (raw : ι → Bytes) (renders : ι → SearchData → Bool)
    (hsites : ∀ i, (sites i).asked = (before i).map (fun s => (s.1.1, .here s.1.2)) ++ (id i, .there (raw i) (renders i) (next i)) ::
      (after i).map fun s => (s.1.1, .here s.1.2))
    (hnet : ∀ i, ∀ s ∈ before i ++ after i, Network compile mulFrac size mime false s.1.2 s.2)
    (F : Nat → ι → Searcher) (hzero : ∀ i req, F 0 i req = none)
    (hF : ∀ n i, F (n + 1) i = multiSearcher compile (sites i).srt (sites i).o (sites i).n₁ (sites i).n₂ (sites i).took
      ((sites i).asked.map fun a => (a.1, a.2.searcher compile mulFrac size mime (F n))))
    (n : Nat) (i : ι) (q : SearchHTTP) (theirs : SearchData → Bool) (req req₁ : SearchRequest) (invalid : List String)
    (hreq : readRequest mulFrac size q = some req) (h0 : ∀ d ∈ req.bucketing, 0 ≤ d)
    (hn : req.normalize compile = some (req₁, invalid)) (hsize : size (encRequest req₁) ≤ 1048576) :
    ∃ resp data, handleSearch compile mulFrac size mime theirs (F (n + 1) i) q = some resp ∧ Gives resp data ∧
      data.response.totalCount = (((List.range (n + 1)).map fun k =>
        ((before (next^[k] i) ++ after (next^[k] i)).map fun s => (s.2 req₁).buffers.flatten.length).sum).sum : Nat) := by
  obtain ⟨_, _, hn', hr⟩ := normalize_ready (read_fresh compile hreq) h0
  rw [hn] at hn'
  obtain ⟨rfl, rfl⟩ := Prod.mk.inj (Option.some.inj hn')
  have hfit : ∀ j, ∀ s ∈ before j ++ after j, (Answer req₁ (s.1.2 req₁) ∨ ∃ e, s.1.2 req₁ = some (req₁, .error e)) ∧
      totalOf (s.1.2 req₁) = (s.2 req₁).buffers.flatten.length := fun j s hs =>
    fit_answer hr (network_fit hm (hnet j s hs)).1
  have hown : ∀ l : List ((String × Searcher) × (SearchRequest → Reach)),
      (∀ s ∈ l, totalOf (s.1.2 req₁) = (s.2 req₁).buffers.flatten.length) →
      sumBy (fun s => totalOf (s.1.2 req₁)) l = ((l.map fun s => (s.2 req₁).buffers.flatten.length).sum : Nat) := by
    intro l
    induction l with
    | nil => intro _; rfl
    | cons a l ih =>
      intro h
      simp only [sumBy, List.map_cons, List.sum_cons, h a (by simp), ih fun s hs => h s (by simp [hs])]
      omega
  have hall : ∀ n i, Answer req₁ (F (n + 1) i req₁) ∧ totalOf (F (n + 1) i req₁) = (((List.range (n + 1)).map fun k =>
        ((before (next^[k] i) ++ after (next^[k] i)).map fun s => (s.2 req₁).buffers.flatten.length).sum).sum : Nat) := by
    intro n
    induction n with
    | zero =>
      intro i
      have hcl := client_panic (mulFrac := mulFrac) (size := size) (mime := mime) hr (raw i) (renders i) (hzero (next i) req₁)
      have hFi := hF 0 i
      rw [hsites i] at hFi
      simp only [List.map_append, List.map_cons, List.map_map, Function.comp_def, Asks.searcher] at hFi
      have hans : Answer req₁ (F 1 i req₁) := by
        rw [hFi]
        refine multi_answers _ _ _ _ _ _ hr fun s hs => ?_
        simp only [List.mem_append, List.mem_map, List.mem_cons] at hs
        rcases hs with ⟨p, hp, rfl⟩ | rfl | ⟨p, hp, rfl⟩
        · exact (hfit i p (by simp [hp])).1
        · exact .inr hcl
        · exact (hfit i p (by simp [hp])).1
      refine ⟨hans, ?_⟩
      obtain ⟨r, st, e, _⟩ := hans
      obtain ⟨res, st', e1, _, e3⟩ := multi_total hr (by rw [← hFi, e]; exact Option.some_ne_none _)
      rw [hFi, e1]
      show res.totalCount = _
      obtain ⟨err, hcl⟩ := hcl
      rw [e3, sumBy_append]
      have hzero' : totalOf (some (req₁, (.error err : Except String (Option Reply)))) = 0 := rfl
      simp only [sumBy, sumBy_map, hcl, hzero']
      have := hown _ fun s hs => (hfit i s hs).2
      rw [sumBy_append] at this
      rw [show List.range (0 + 1) = [0] from rfl, List.map_cons, List.map_nil, List.sum_cons, List.sum_nil, Nat.add_zero,
        Function.iterate_zero]
      show _ = ((((before i ++ after i).map fun s => (s.2 req₁).buffers.flatten.length).sum : Nat) : Int)
      rw [← this]
      omega
    | succ n ih =>
      intro i
      obtain ⟨⟨res₀, st₀, a1, a2, a3⟩, htot⟩ := ih (next i)
      obtain ⟨res', c1, c2, c3⟩ := client_total (mulFrac := mulFrac) hm hr hsize (raw i) (renders i) a1 a2
      have hFi := hF (n + 1) i
      rw [hsites i] at hFi
      simp only [List.map_append, List.map_cons, List.map_map, Function.comp_def, Asks.searcher] at hFi
      have hans : Answer req₁ (F (n + 1 + 1) i req₁) := by
        rw [hFi]
        refine multi_answers _ _ _ _ _ _ hr fun s hs => ?_
        simp only [List.mem_append, List.mem_map, List.mem_cons] at hs
        rcases hs with ⟨p, hp, rfl⟩ | rfl | ⟨p, hp, rfl⟩
        · exact (hfit i p (by simp [hp])).1
        · exact .inl ⟨res', _, c1, c3, Cmd.wireStats_wf a3⟩
        · exact (hfit i p (by simp [hp])).1
      refine ⟨hans, ?_⟩
      obtain ⟨r, st, e, _⟩ := hans
      obtain ⟨res, st', e1, _, e3⟩ := multi_total hr (by rw [← hFi, e]; exact Option.some_ne_none _)
      rw [a1] at htot
      rw [hFi, e1]
      show res.totalCount = _
      rw [e3, sumBy_append]
      have hres : totalOf (some (req₁, (.ok (some res') : Except String (Option Reply)))) = res₀.totalCount := c2
      simp only [sumBy, sumBy_map, c1, hres]
      change res₀.totalCount = _ at htot
      have := hown _ fun s hs => (hfit i s hs).2
      rw [sumBy_append] at this
      rw [List.range_succ_eq_map, List.map_cons, List.sum_cons, List.map_map]
      simp only [Function.comp_def, Function.iterate_succ_apply, Function.iterate_zero, _root_.id] at htot ⊢
      rw [htot]
      omega
  obtain ⟨⟨res, st, a1, a2, _⟩, htot⟩ := hall n i
  rw [a1] at htot
  have hd : ∃ data, searchData compile (F (n + 1) i) req = some data ∧ data.response = res := by
    unfold searchData
    rw [hn]
    simp only [Option.bind_eq_bind, Option.bind_some, a1, takeResult, responseProblems, checkCategories, a2]
    split
    · exact ⟨_, rfl, rfl⟩
    · exact ⟨_, rfl, rfl⟩
  obtain ⟨data, d1, d2⟩ := hd
  refine ⟨render mime theirs q data, data, ?_, gives_rendered .., by rw [d2]; exact htot⟩
  unfold handleSearch
  rw [hreq]
  simp only [d1, Option.map_some]

theorem network_net {b : Bool} {s : Searcher} {r : SearchRequest → Reach} (h : Network compile mulFrac size mime b s r) :
    Net compile mulFrac size mime b s := by
  induction h with
  | collector srt source view rings contents took hs h => exact .collector srt source view rings contents took h
  | multi srt o n₁ n₂ took ss hs h ih =>
    refine .multi srt o n₁ n₂ took _ fun s hs' => ?_
    obtain ⟨p, hp, rfl⟩ := List.mem_map.mp hs'
    exact ih p hp
  | here s r h ih => exact .here s ih
  | there raw renders s r h ih => exact .there raw renders s ih
  | down raw server h => exact .down raw server h

/-- **C164**, for servers without a circle: let each server have a rank above those of the servers it asks.  Then there is exactly one
behaviour, and in it each server answers every request that can be read.  What is missing is servers on a circle. -/
theorem C164_ranked_partial (hm : mime "application/json".toList = some "application/json") {ι : Type} (sites : ι → Site ι) (rank : ι → Nat)
    (hhere : ∀ i id s, (id, Asks.here s) ∈ (sites i).asked → Net compile mulFrac size mime false s)
    (hrank : ∀ i id raw renders j, (id, Asks.there raw renders j) ∈ (sites i).asked → rank j < rank i) :
    ∃ F, Runs compile mulFrac size mime sites F ∧ (∀ F', Runs compile mulFrac size mime sites F' → F' = F) ∧
      ∀ i q req, readRequest mulFrac size q = some req → (∀ d ∈ req.bucketing, 0 ≤ d) → ∀ renders,
        ∃ resp data, handleSearch compile mulFrac size mime renders (F i) q = some resp ∧ Gives resp data ∧
          ∃ st, data.response.stats = some st ∧ st.WF data.request.bucketing.length := by
  -- what the servers of a rank below `n` answer
  let step : (ι → Searcher) → ι → Searcher := fun F i =>
    multiSearcher compile (sites i).srt (sites i).o (sites i).n₁ (sites i).n₂ (sites i).took
      ((sites i).asked.map fun a => (a.1, a.2.searcher compile mulFrac size mime F))
  have hstep : ∀ F G i, (∀ j, rank j < rank i → F j = G j) → step F i = step G i := by
    intro F G i h
    show multiSearcher _ _ _ _ _ _ _ = multiSearcher _ _ _ _ _ _ _
    congr 1
    refine List.map_congr_left fun a ha => ?_
    obtain ⟨id, a⟩ := a
    cases a with
    | here s => rfl
    | there raw renders j => simp only [Asks.searcher, h j (hrank i id raw renders j ha)]
  let upTo : Nat → ι → Searcher := fun n => step^[n] fun _ _ => none
  have hstable : ∀ n i, rank i < n → ∀ m, n ≤ m → upTo m i = upTo n i := by
    intro n
    induction n with
    | zero => intro i h; omega
    | succ n ih =>
      intro i hi m hm'
      obtain ⟨m, rfl⟩ : ∃ k, m = k + 1 := ⟨m - 1, by omega⟩
      show step^[m + 1] _ i = step^[n + 1] _ i
      rw [Function.iterate_succ_apply', Function.iterate_succ_apply']
      exact hstep _ _ i fun j hj => ih j (by omega) m (by omega)
  let F : ι → Searcher := fun i => upTo (rank i + 1) i
  have hruns : Runs compile mulFrac size mime sites F := by
    intro i
    show step^[rank i + 1] _ i = step F i
    rw [Function.iterate_succ_apply']
    exact hstep _ _ i fun j hj => hstable (rank j + 1) j (by omega) (rank i) (by omega)
  have hnet : ∀ n i, rank i < n → Net compile mulFrac size mime true (F i) := by
    intro n
    induction n with
    | zero => intro i h; omega
    | succ n ih =>
      intro i hi
      rw [hruns i]
      refine .multi _ _ _ _ _ _ fun s hs => ?_
      obtain ⟨⟨id, a⟩, ha, rfl⟩ := List.mem_map.mp hs
      cases a with
      | here s => exact hhere i id s ha
      | there raw renders j =>
        have := hrank i id raw renders j ha
        exact .there raw renders (F j) (ih j (by omega))
  refine ⟨F, hruns, ?_, ?_⟩
  · intro F' hF'
    have : ∀ n i, rank i < n → F' i = F i := by
      intro n
      induction n with
      | zero => intro i h; omega
      | succ n ih =>
        intro i hi
        rw [hF' i, hruns i]
        exact hstep F' F i fun j hj => ih j (by omega)
    exact funext fun i => this (rank i + 1) i (by omega)
  · intro i q req hq h0 renders
    obtain ⟨req₁, invalid, hn, hr⟩ := normalize_ready (read_fresh compile hq) h0
    obtain ⟨data, d1, d2, d3⟩ := searchData_ok hn ((net_good hm (hnet _ i (Nat.lt_succ_self _))).2 rfl req₁ hr)
    refine ⟨render mime renders q data, data, ?_, gives_rendered .., by rw [d2]; exact d3⟩
    unfold handleSearch
    rw [hq]
    simp only [d1, Option.map_some]

end

/-! ## Examples -/

private def mimes : List Char → Option String := fun l =>
  if l = "application/json".toList then some "application/json" else none

private def noRegexp : Compile := fun _ => .error ""
private def frac : Nat → Nat → Nat → Nat := fun f unit k => f * unit / 10 ^ k

private def holder (source : String) : Option Searcher :=
  (Ring.exec 10 [.add (sampleTrace source 1 true false 1)]).map fun rb =>
    collectorSearcher noRegexp sortNewest source still [rb.1] 5

private theorem holder_network (source : String) : ∃ s, holder source = some s ∧
    Network noRegexp frac (fun _ => 0) mimes false s fun _ =>
      ⟨[[(sampleTrace source 1 true false 1, sampleTrace source 1 true false 1)]], [source], 0⟩ := by
  obtain ⟨rb, o, h⟩ : ∃ rb o, Ring.exec 10 [.add (sampleTrace source 1 true false 1)] = some (rb, o) := ⟨_, _, rfl⟩
  refine ⟨collectorSearcher noRegexp sortNewest source still [rb] 5, by simp [holder, h], .here _ _ ?_⟩
  refine Network.collector sortNewest source still _ [[sampleTrace source 1 true false 1]] 5 sortNewest_ok ⟨by cases h; rfl, ?_⟩
  intro rb' hm
  obtain rfl := List.mem_singleton.mp hm
  exact ⟨10, _, _, h⟩

/-- A server that asks its own collector and some servers. -/
private def site {ι : Type} (s : Searcher) (peers : List ι) : Site ι :=
  ⟨sortNewest, listed, 0, 1, 7, ("1", .here s) :: peers.map fun j => ("2", .there [] (fun _ => true) j)⟩

/-- Two programs, each with a trace, whose servers ask each other. -/
example : ∃ p q, holder "p" = some p ∧ holder "q" = some q ∧
    ¬ ∃ F, Runs noRegexp frac (fun _ => 0) mimes (fun i : Bool => site (if i then p else q) [!i]) F := by
  obtain ⟨p, hp, np⟩ := holder_network "p"
  obtain ⟨q, hq, nq⟩ := holder_network "q"
  refine ⟨p, q, hp, hq, ?_⟩
  obtain ⟨req₁, invalid, hn, -⟩ := normalize_ready (compile := noRegexp) (req := {}) (by intro re h; cases h) (by decide)
  refine C164_circle_always_violated rfl _ (fun i => !i)
    (fun i => [(("1", if i then p else q), fun _ => ⟨[[(sampleTrace (if i then "p" else "q") 1 true false 1,
      sampleTrace (if i then "p" else "q") 1 true false 1)]], [if i then "p" else "q"], 0⟩)]) (fun _ => []) (fun _ => "2") (fun _ => [])
    (fun _ _ => true) (fun _ => rfl) ?_ true 2 (by decide) rfl {} (by intro re h; cases h) (by decide) req₁ invalid hn (by decide) ?_
  · intro i s hs
    obtain rfl := List.mem_singleton.mp hs
    cases i
    · exact nq
    · exact np
  · exact ⟨_, List.mem_singleton.mpr rfl, by simp⟩

/-- The same programs, if only the first server asks the second one. -/
example : ∃ p q, holder "p" = some p ∧ holder "q" = some q ∧
    ∃ F, Runs noRegexp frac (fun _ => 0) mimes (fun i : Bool => site (if i then p else q) (if i then [false] else [])) F := by
  obtain ⟨p, hp, np⟩ := holder_network "p"
  obtain ⟨q, hq, nq⟩ := holder_network "q"
  refine ⟨p, q, hp, hq, ?_⟩
  have h := C164_ranked_partial (compile := noRegexp) (mulFrac := frac) (size := fun _ => 0) (mime := mimes) rfl
    (fun i : Bool => site (if i then p else q) (if i then [false] else [])) (fun i => if i then 1 else 0) (by
      intro i id s hs
      cases i
      · simp [site] at hs
        exact hs.2 ▸ network_net nq
      · simp [site] at hs
        exact hs.2 ▸ network_net np) (by
      intro i id raw renders j hj
      cases i
      · simp [site] at hj
      · simp [site] at hj
        rw [hj.2.2.2]; decide)
  obtain ⟨F, hF, _⟩ := h
  exact ⟨F, hF⟩

private def totalIn : Option HTTPResponse → Option Int
  | some ⟨200, .json v⟩ => (decData v).map fun d => d.response.totalCount
  | _ => none

private def hops (p q : Searcher) : Nat → Bool → Searcher
  | 0, _ => fun _ => none
  | n + 1, i => multiSearcher noRegexp sortNewest listed 0 1 7
      ((site (if i then p else q) [!i]).asked.map fun a => (a.1, a.2.searcher noRegexp frac (fun _ => 0) mimes (hops p q n)))

/-- The two programs whose servers ask each other, if the search is cut off after some hops: there are two traces. -/
example : ∃ p q, holder "p" = some p ∧ holder "q" = some q ∧
    (List.range 5).map (fun n => totalIn (handleSearch noRegexp frac (fun _ => 0) mimes (fun _ => true) (hops p q (n + 1) true)
      { neg := { rawQuery := bytesOf "n=3", accept := [] }, isJSON := false, body := none })) =
      [some 1, some 2, some 3, some 4, some 5] := by
  refine ⟨_, _, rfl, rfl, ?_⟩
  decide +kernel

end Trc.Web
