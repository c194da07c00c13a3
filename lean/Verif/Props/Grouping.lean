import Verif.Props.AskingNet
import Verif.Props.Topline

/-!
# C160: however servers are grouped, an answer has the same traces
-/

namespace Trc.Web

section
variable {compile : Compile} {mulFrac : Nat → Nat → Nat → Nat} {size : JSON → Nat} {mime : List Char → Option String}

/-- Newer, by the time on the clock and then by ID. -/
def NewerOnClock (a b : Static) : Prop := b.started.wall < a.started.wall ∨ (a.started.wall = b.started.wall ∧ b.id < a.id)

theorem onClock_less {ahead : Int} {l : List Static} (hc : Clocked ahead l) {a b : Static} (ha : a ∈ l) (hb : b ∈ l) :
    a.less b = true ↔ NewerOnClock a b := by
  refine less_key (key := (·.wall)) ?_
  unfold Time.sub
  split
  · rename_i m n e1 e2
    have := hc a ha m e1
    have := hc b hb n e2
    show m - n = a.started.wall - b.started.wall
    omega
  · rfl

theorem wire_newer (a b : Static) : NewerOnClock (wireStatic a) (wireStatic b) ↔ NewerOnClock a b := Iff.rfl

theorem wanted_perm (req : SearchRequest) {held held' : List (Static × Static)} (h : held.Perm held') :
    (wantedOf compile req held).Perm (wantedOf compile req held') := by
  classical
  unfold wantedOf
  exact (h.filter _).map _

theorem gives_rendered (renders : SearchData → Bool) (q : SearchHTTP) (data : SearchData) : Gives (render mime renders q data) data := by
  unfold render Gives
  split
  · exact .inl rfl
  · exact .inr rfl

/-- Of traces with distinct IDs, one of any two is newer. -/
theorem clock_order {l : List Static} (hids : (l.map (·.id)).Nodup) : ∀ x ∈ l, ∀ y ∈ l, x ≠ y → NewerOnClock x y ∨ NewerOnClock y x := by
  intro x hx y hy hne
  unfold NewerOnClock
  rcases Int.lt_trichotomy x.started.wall y.started.wall with h | h | h
  · exact .inr (.inl h)
  · rcases str_trichotomy x.id y.id with h' | h' | h'
    · exact .inr (.inr ⟨h.symm, h'⟩)
    · exact absurd (List.inj_on_of_nodup_map hids hx hy h') hne
    · exact .inl (.inr ⟨h, h'⟩)
  · exact .inl (.inl h)

/-- The first traces by `less` are the first ones by the clock, also after they were sent as JSON. -/
theorem clock_first {a : Int} {all l rest : List Static} (hc : Clocked a all) (hp : (l ++ rest).Perm all) (hl : NewestFirst l)
    (hr : ∀ x ∈ l, ∀ y ∈ rest, y.less x = false) :
    Lined NewerOnClock (l.map wireStatic) ∧ ∀ x ∈ l.map wireStatic, ∀ y ∈ rest.map wireStatic, ¬ NewerOnClock y x := by
  have hin : ∀ x ∈ l, x ∈ all := fun x hx => hp.mem_iff.mp (by simp [hx])
  have hin' : ∀ x ∈ rest, x ∈ all := fun x hx => hp.mem_iff.mp (by simp [hx])
  refine ⟨?_, ?_⟩
  · unfold Lined
    rw [List.pairwise_map]
    unfold NewestFirst at hl
    refine (List.Pairwise.and_mem.mp hl).imp ?_
    rintro x y ⟨hx, hy, h⟩
    rw [wire_newer, ← onClock_less hc (hin y hy) (hin x hx), h]
    simp
  · intro x hx y hy
    obtain ⟨u, hu, rfl⟩ := List.mem_map.mp hx
    obtain ⟨v, hv, rfl⟩ := List.mem_map.mp hy
    rw [wire_newer, ← onClock_less hc (hin' v hv) (hin u hu), hr u hu v hv]
    simp

/-- **C160.** Two servers at the heads of two networks, which reach the same traces in different ways: some directly, some over
further servers, one or several at a time, in whatever order (`wireStatic` is what remains of a trace that was sent as JSON). The
traces have distinct IDs; on each machine, no clock was set and traces were added in the order in which they began. To the same
request, both servers answer with the same traces in the same order. -/
theorem C160_traces (hm : mime "application/json".toList = some "application/json") (ahead ahead' : Int) (s s' : Searcher)
    (r r' : SearchRequest → List (Static × Static)) (hs : Holding compile mulFrac size mime True ahead true s r)
    (hs' : Holding compile mulFrac size mime True ahead' true s' r')
    (hsame : ∀ req, ((r req).map fun t => (t.1, wireStatic t.2)).Perm ((r' req).map fun t => (t.1, wireStatic t.2)))
    (hnd : ∀ req, ((r req).map fun t => t.2.id).Nodup)
    (renders renders' : SearchData → Bool) (q : SearchHTTP) (req : SearchRequest)
    (hreq : readRequest mulFrac size q = some req) (h0 : ∀ d ∈ req.bucketing, 0 ≤ d) :
    ∃ resp data resp' data', handleSearch compile mulFrac size mime renders s q = some resp ∧ Gives resp data ∧
      handleSearch compile mulFrac size mime renders' s' q = some resp' ∧ Gives resp' data' ∧
      data.response.traces.map wireStatic = data'.response.traces.map wireStatic := by
  obtain ⟨req₁, invalid, hn, hrd⟩ := normalize_ready (read_fresh compile hreq) h0
  obtain ⟨data, d1, d2, d3⟩ := tells_data ((net_good hm (holding_net hs)).2 rfl) (holding_tells hm hs) hn hrd
  obtain ⟨data', d1', d2', d3'⟩ := tells_data ((net_good hm (holding_net hs')).2 rfl) (holding_tells hm hs') hn hrd
  obtain ⟨p1, p2, rest, p3, p4, p5⟩ := d3.recent trivial
  obtain ⟨p1', p2', rest', p3', p4', p5'⟩ := d3'.recent trivial
  have hc := wanted_clocked (compile := compile) (req := req₁) ((holding_tells hm hs req₁ hrd).1 trivial)
  have hc' := wanted_clocked (compile := compile) (req := req₁) ((holding_tells hm hs' req₁ hrd).1 trivial)
  have hw : ((wantedOf compile req₁ (r' req₁)).map wireStatic).Perm ((wantedOf compile req₁ (r req₁)).map wireStatic) := by
    rw [← wanted_wire, ← wanted_wire]
    exact (wanted_perm req₁ (hsame req₁)).symm
  have hids : (((wantedOf compile req₁ (r req₁)).map wireStatic).map (·.id)).Nodup := by
    unfold wantedOf
    rw [List.map_map, List.map_map]
    exact (hnd req₁).sublist (List.filter_sublist.map _)
  have htri := clock_order hids
  obtain ⟨a1, a2⟩ := clock_first hc p3 p1 p5
  obtain ⟨b1, b2⟩ := clock_first hc' p3' p1' p5'
  have q1 : (data.response.traces.map wireStatic ++ rest.map wireStatic).Perm ((wantedOf compile req₁ (r req₁)).map wireStatic) := by
    rw [← List.map_append]; exact p3.map _
  have q2 : (data'.response.traces.map wireStatic ++ rest'.map wireStatic).Perm ((wantedOf compile req₁ (r req₁)).map wireStatic) := by
    rw [← List.map_append]; exact (p3'.map _).trans hw
  have l1 := q1.length_eq
  have l2 := q2.length_eq
  simp only [List.length_append, List.length_map] at l1 l2
  have hfull : data.response.traces.length = req₁.limit.toNat ∨ rest = [] := by
    by_cases h : rest = []
    · exact .inr h
    · exact .inl (p4 h)
  have hfull' : data'.response.traces.length = req₁.limit.toNat ∨ rest' = [] := by
    by_cases h : rest' = []
    · exact .inr h
    · exact .inl (p4' h)
  have hlen : data.response.traces.length = data'.response.traces.length := by
    rcases hfull with h | h <;> rcases hfull' with h' | h'
    · omega
    · subst h'
      simp only [List.length_nil] at l2
      omega
    · subst h
      simp only [List.length_nil] at l1
      omega
    · subst h h'
      simp only [List.length_nil] at l1 l2
      omega
  have hfirst := first_same htri (List.Nodup.of_map _ hids) q1 q2 a1 b1 a2 b2 (by simp [hlen])
  refine ⟨render mime renders q data, data, render mime renders' q data', data', ?_, gives_rendered .., ?_, gives_rendered .., ?_⟩
  · unfold handleSearch
    rw [hreq]
    simp only [d1, Option.map_some]
  · unfold handleSearch
    rw [hreq]
    simp only [d1', Option.map_some]
  · rw [hfirst, List.take_of_length_le (by simp [hlen])]

/-- **C160.** Likewise, if the same buffers of the same programs are reached, both servers answer with the same total, as many matches, as many
traces, and the same sources. -/
theorem C160_numbers (hm : mime "application/json".toList = some "application/json") (s s' : Searcher) (r r' : SearchRequest → Reach)
    (hs : Network compile mulFrac size mime true s r) (hs' : Network compile mulFrac size mime true s' r')
    (hbuf : ∀ req, (r req).buffers.Perm (r' req).buffers) (hsrc : ∀ req source, source ∈ (r req).sources ↔ source ∈ (r' req).sources)
    (renders renders' : SearchData → Bool) (q : SearchHTTP) (req : SearchRequest)
    (hreq : readRequest mulFrac size q = some req) (h0 : ∀ d ∈ req.bucketing, 0 ≤ d) :
    ∃ resp data resp' data', handleSearch compile mulFrac size mime renders s q = some resp ∧ Gives resp data ∧
      handleSearch compile mulFrac size mime renders' s' q = some resp' ∧ Gives resp' data' ∧
      data.response.totalCount = data'.response.totalCount ∧ data.response.matchCount = data'.response.matchCount ∧
      data.response.traces.length = data'.response.traces.length ∧ data.response.sources = data'.response.sources := by
  obtain ⟨req₁, invalid, hn, hrd⟩ := normalize_ready (read_fresh compile hreq) h0
  obtain ⟨data, st, d1, -, d3, -⟩ := searchData_fit ((network_fit hm hs).2 rfl) hn hrd
  obtain ⟨data', st', d1', -, d3', -⟩ := searchData_fit ((network_fit hm hs').2 rfl) hn hrd
  have hmatched : (r req₁).matched compile req₁ = (r' req₁).matched compile req₁ := by
    unfold Reach.matched
    exact ((hbuf req₁).map _).sum_nat
  refine ⟨render mime renders q data, data, render mime renders' q data', data', ?_, gives_rendered .., ?_, gives_rendered .., ?_, ?_, ?_, ?_⟩
  · unfold handleSearch
    rw [hreq]
    simp only [d1, Option.map_some]
  · unfold handleSearch
    rw [hreq]
    simp only [d1', Option.map_some]
  · rw [d3.total, d3'.total, (hbuf req₁).flatten.length_eq]
  · rw [d3.matched, d3'.matched, hmatched]
  · rw [d3.shown, d3'.shown, hmatched]
  · exact sorted_strings_eq d3.sorted d3'.sorted fun x => (d3.sources x).trans ((hsrc req₁ x).trans (d3'.sources x).symm)

end

/-! ## Example -/

private def mimes : List Char → Option String := fun l =>
  if l = "application/json".toList then some "application/json" else none

private def noRegexp : Compile := fun _ => .error ""
private def frac : Nat → Nat → Nat → Nat := fun f unit k => f * unit / 10 ^ k

private def begun (id : String) (wall mono : Int) : Static := { sampleTrace id 0 true false 1 with started := ⟨wall, some mono⟩ }

private def asked (query : String) : SearchHTTP := { neg := { rawQuery := bytesOf query, accept := [] }, isJSON := false, body := none }

private def overHTTP (s : Searcher) : Searcher := clientSearcher [] (handleSearch noRegexp frac (fun _ => 0) mimes (fun _ => true) s)

private def one (t : Static) : List (Static × Static) := [(t, t)]

private theorem one_buffer (t : Static) (rb : Ring.RB Static) (o : List (List Static)) (h : Ring.exec 10 [.add t] = some (rb, o)) :
    Buffers [rb] [[t]] := by
  refine ⟨by cases h; rfl, ?_⟩
  intro rb' hm
  obtain rfl := List.mem_singleton.mp hm
  exact ⟨10, _, _, h⟩

private theorem one_holding (source : String) (id : String) (wall : Int) (rb : Ring.RB Static) (o : List (List Static))
    (h : Ring.exec 10 [.add (begun id wall (wall - 1000))] = some (rb, o)) :
    Holding noRegexp frac (fun _ => 0) mimes True 1000 true (collectorSearcher noRegexp sortNewest source still [rb] 5)
      fun _ => one (begun id wall (wall - 1000)) := by
  refine .collector 1000 _ _ _ _ [[begun id wall (wall - 1000)]] _ sortNewest_sorts (one_buffer _ _ _ h) ?_ ?_
  · intro _ t ht m e
    simp only [List.flatten_cons, List.flatten_nil, List.append_nil, List.map_cons, List.map_nil, List.mem_cons, List.not_mem_nil,
      or_false] at ht
    subst ht
    have e' : some (wall - 1000) = some m := e
    cases e'
    show wall - (wall - 1000) = 1000
    omega
  · intro _ items hi
    obtain rfl := List.mem_singleton.mp hi
    simp [NewestFirst]

private def flat (p p' : Searcher) : Searcher := multiSearcher noRegexp sortNewest listed 0 1 7 [("1", p), ("2", p')]

private def deep (p p' : Searcher) : Searcher := multiSearcher noRegexp sortNewest listed 0 1 7
  [("2", p'), ("3", overHTTP (multiSearcher noRegexp sortNewest listed 0 1 7 [("1", p)]))]

private theorem both_holding {p p' : Searcher} {r r' : SearchRequest → List (Static × Static)}
    (h : Holding noRegexp frac (fun _ => 0) mimes True 1000 true p r) (h' : Holding noRegexp frac (fun _ => 0) mimes True 1000 true p' r') :
    Holding noRegexp frac (fun _ => 0) mimes True 1000 true (flat p p') (fun req => r req ++ (r' req ++ [])) ∧
    Holding noRegexp frac (fun _ => 0) mimes True 1000 true (deep p p')
      (fun req => r' req ++ (((r req ++ []).map fun t : Static × Static => (t.1, wireStatic t.2)) ++ [])) := by
  refine ⟨.multi 1000 _ _ _ _ _ [(("1", p), r), (("2", p'), r')] sortNewest_sorts ?_,
    .multi 1000 _ _ _ _ _ [(("2", p'), r'), (("3", _), fun req => if (0 : Nat) > 1048576 then [] else
      ([((("1", p) : String × Searcher), r)].flatMap fun s => s.2 req).map fun t => (t.1, wireStatic t.2))] sortNewest_sorts ?_⟩
  · intro s hs
    simp only [List.mem_cons, List.not_mem_nil, or_false] at hs
    rcases hs with rfl | rfl
    · exact .here _ _ _ h
    · exact .here _ _ _ h'
  · intro s hs
    simp only [List.mem_cons, List.not_mem_nil, or_false] at hs
    rcases hs with rfl | rfl
    · exact .here _ _ _ h'
    · refine .there 1000 1000 _ _ _ _ (.multi 1000 _ _ _ _ _ [(("1", p), r)] sortNewest_sorts ?_)
      intro s hs
      obtain rfl := List.mem_singleton.mp hs
      exact .here _ _ _ h

private theorem both_network {p p' : Searcher} {r r' : SearchRequest → Reach}
    (h : Network noRegexp frac (fun _ => 0) mimes true p r) (h' : Network noRegexp frac (fun _ => 0) mimes true p' r') :
    Network noRegexp frac (fun _ => 0) mimes true (flat p p') (fun req => .join [r req, r' req]) ∧
    Network noRegexp frac (fun _ => 0) mimes true (deep p p') (fun req => .join [r' req, .join [r req]]) := by
  refine ⟨.multi _ _ _ _ _ [(("1", p), r), (("2", p'), r')] sortNewest_ok ?_,
    .multi _ _ _ _ _ [(("2", p'), r'), (("3", _), fun req => if (0 : Nat) > 1048576 then .nothing else .join [r req])] sortNewest_ok ?_⟩
  · intro s hs
    simp only [List.mem_cons, List.not_mem_nil, or_false] at hs
    rcases hs with rfl | rfl
    · exact .here _ _ h
    · exact .here _ _ h'
  · intro s hs
    simp only [List.mem_cons, List.not_mem_nil, or_false] at hs
    rcases hs with rfl | rfl
    · exact .here _ _ h'
    · refine .there _ _ _ _ (.multi _ _ _ _ _ [(("1", p), r)] sortNewest_ok ?_)
      intro s hs
      obtain rfl := List.mem_singleton.mp hs
      exact .here _ _ h

/-- Two programs; one server asks both itself, the other asks one of them, and a third server that asks the other. -/
example : ∃ (rb rb' : Ring.RB Static) (o o' : List (List Static)),
    Ring.exec 10 [.add (begun "a" 1010 10)] = some (rb, o) ∧ Ring.exec 10 [.add (begun "b" 1030 30)] = some (rb', o') ∧
    let p := collectorSearcher noRegexp sortNewest "p" still [rb] 5
    let p' := collectorSearcher noRegexp sortNewest "p'" still [rb'] 5
    (∃ r r', Holding noRegexp frac (fun _ => 0) mimes True 1000 true (flat p p') r ∧ Holding noRegexp frac (fun _ => 0) mimes True 1000 true (deep p p') r' ∧
      (∀ req, ((r req).map fun t => (t.1, wireStatic t.2)).Perm ((r' req).map fun t => (t.1, wireStatic t.2))) ∧
      ∀ req, ((r req).map fun t => t.2.id).Nodup) ∧
    (∃ r r', Network noRegexp frac (fun _ => 0) mimes true (flat p p') r ∧ Network noRegexp frac (fun _ => 0) mimes true (deep p p') r' ∧
      (∀ req, (r req).buffers.Perm (r' req).buffers) ∧ ∀ req source, source ∈ (r req).sources ↔ source ∈ (r' req).sources) ∧
    ∃ req, readRequest frac (fun _ => 0) (asked "n=1") = some req ∧ ∀ d ∈ req.bucketing, 0 ≤ d := by
  refine ⟨_, _, _, _, rfl, rfl,
    ⟨_, _, (both_holding (one_holding "p" "a" 1010 _ _ rfl) (one_holding "p'" "b" 1030 _ _ rfl)).1,
      (both_holding (one_holding "p" "a" 1010 _ _ rfl) (one_holding "p'" "b" 1030 _ _ rfl)).2, ?_, ?_⟩,
    ⟨_, _, (both_network (.collector _ _ _ _ _ _ sortNewest_ok (one_buffer _ _ _ rfl))
        (.collector _ _ _ _ _ _ sortNewest_ok (one_buffer _ _ _ rfl))).1,
      (both_network (.collector _ _ _ _ _ _ sortNewest_ok (one_buffer _ _ _ rfl))
        (.collector _ _ _ _ _ _ sortNewest_ok (one_buffer _ _ _ rfl))).2, ?_, ?_⟩,
    requestOfURL frac (bytesOf "n=1"), rfl, by decide +kernel⟩
  · intro req
    exact .swap _ _ _
  · intro req
    show ["a", "b"].Nodup
    decide
  · intro req
    exact .swap _ _ _
  · intro req source
    show source ∈ ["p", "p'"] ↔ source ∈ ["p'", "p"]
    simp [or_comm]

end Trc.Web
