import Verif.Props.Grouping

/-!
# C163: a server that is down takes only its own traces with it
-/

namespace Trc.Web

section
variable {compile : Compile} {mulFrac : Nat → Nat → Nat → Nat} {size : JSON → Nat} {mime : List Char → Option String}

theorem wire_again (t : Static) : wireStatic (wireStatic t) = wireStatic t := by
  unfold wireStatic
  simp only [List.map_map]
  congr 1

/-- **C163.** Two servers at the heads of two networks, of which the second one does not reach some of the traces, wherever in the
network they are missing.  The traces have distinct IDs; on each machine, no clock was set and traces were added in the order in which
they began.  To the same request, the second server answers first with those traces of the first answer that it reaches, in the same
order; and with nothing else if the first answer had room for more. -/
theorem C163_missing (hm : mime "application/json".toList = some "application/json") (ahead ahead' : Int) (s s' : Searcher)
    (r r' : SearchRequest → List (Static × Static)) (gone : List (Static × Static)) (hs : Holding compile mulFrac size mime True ahead true s r)
    (hs' : Holding compile mulFrac size mime True ahead' true s' r')
    (renders renders' : SearchData → Bool) (q : SearchHTTP) (req req₁ : SearchRequest) (invalid : List String)
    (hreq : readRequest mulFrac size q = some req) (h0 : ∀ d ∈ req.bucketing, 0 ≤ d) (hn : req.normalize compile = some (req₁, invalid))
    (hsame : ((r req₁).map fun t => (t.1, wireStatic t.2)).Perm ((r' req₁ ++ gone).map fun t => (t.1, wireStatic t.2)))
    (hnd : ((r req₁).map fun t => t.2.id).Nodup) :
    ∃ resp data resp' data', handleSearch compile mulFrac size mime renders s q = some resp ∧ Gives resp data ∧
      handleSearch compile mulFrac size mime renders' s' q = some resp' ∧ Gives resp' data' ∧
      let kept := data.response.traces.filter fun t => !(gone.map fun g => g.2.id).contains t.id
      kept.map wireStatic <+: data'.response.traces.map wireStatic ∧
      ((data.response.traces.length : Int) < req₁.limit → kept.map wireStatic = data'.response.traces.map wireStatic) := by
  obtain ⟨_, _, hn', hrd⟩ := normalize_ready (read_fresh compile hreq) h0
  rw [hn] at hn'
  obtain ⟨rfl, rfl⟩ := Prod.mk.inj (Option.some.inj hn')
  obtain ⟨data, d1, d2, d3⟩ := tells_data ((net_good hm (holding_net hs)).2 rfl) (holding_tells hm hs) hn hrd
  obtain ⟨data', d1', d2', d3'⟩ := tells_data ((net_good hm (holding_net hs')).2 rfl) (holding_tells hm hs') hn hrd
  obtain ⟨p1, p2, rest, p3, p4, p5⟩ := d3.recent trivial
  obtain ⟨p1', p2', rest', p3', p4', p5'⟩ := d3'.recent trivial
  have hc := wanted_clocked (compile := compile) (req := req₁) ((holding_tells hm hs req₁ hrd).1 trivial)
  have hc' := wanted_clocked (compile := compile) (req := req₁) ((holding_tells hm hs' req₁ hrd).1 trivial)
  have hall : (((r' req₁ ++ gone).map fun t => t.2.id)).Nodup := by
    have := (hsame.map fun t => t.2.id)
    simp only [List.map_map] at this
    exact this.nodup_iff.mp hnd
  rw [List.map_append, List.nodup_append] at hall
  obtain ⟨hnd', -, hdis⟩ := hall
  let keep : Static → Bool := fun t => !(gone.map fun g => g.2.id).contains t.id
  have hw : (((wantedOf compile req₁ (r req₁)).filter keep).map wireStatic).Perm ((wantedOf compile req₁ (r' req₁)).map wireStatic) := by
    have h1 := (wanted_perm (compile := compile) req₁ hsame)
    rw [wanted_wire, wanted_wire] at h1
    have h2 := h1.filter keep
    rw [List.filter_map, List.filter_map] at h2
    have e1 : (keep ∘ wireStatic) = keep := rfl
    rw [e1] at h2
    refine h2.trans (List.Perm.of_eq (congrArg _ ?_))
    have e2 : wantedOf compile req₁ (r' req₁ ++ gone) = wantedOf compile req₁ (r' req₁) ++ wantedOf compile req₁ gone := by
      unfold wantedOf
      rw [List.filter_append, List.map_append]
    rw [e2, List.filter_append]
    have f1 : (wantedOf compile req₁ (r' req₁)).filter keep = wantedOf compile req₁ (r' req₁) := by
      refine List.filter_eq_self.mpr fun t ht => ?_
      obtain ⟨p, hp, rfl⟩ := wanted_mem ht
      rw [trim_shortened]
      simp only [keep, Bool.not_eq_true', List.contains_eq_mem, decide_eq_false_iff_not]
      intro hmem
      exact hdis _ (List.mem_map.mpr ⟨p, hp, rfl⟩) _ hmem rfl
    have f2 : (wantedOf compile req₁ gone).filter keep = [] := by
      refine List.filter_eq_nil_iff.mpr fun t ht => ?_
      obtain ⟨p, hp, rfl⟩ := wanted_mem ht
      rw [trim_shortened]
      simp only [keep, Bool.not_eq_true', List.contains_eq_mem, decide_eq_false_iff_not, Decidable.not_not]
      exact List.mem_map.mpr ⟨p, hp, rfl⟩
    rw [f1, f2, List.append_nil]
  have hids : (((wantedOf compile req₁ (r' req₁)).map wireStatic).map (·.id)).Nodup := by
    unfold wantedOf
    rw [List.map_map, List.map_map]
    exact hnd'.sublist (List.filter_sublist.map _)
  have htri := clock_order hids
  obtain ⟨a1, a2⟩ := clock_first hc p3 p1 p5
  obtain ⟨b1, b2⟩ := clock_first hc' p3' p1' p5'
  have q1 : ((data.response.traces.filter keep).map wireStatic ++ (rest.filter keep).map wireStatic).Perm
      ((wantedOf compile req₁ (r' req₁)).map wireStatic) := by
    rw [← List.map_append, ← List.filter_append]
    exact ((p3.filter keep).map _).trans hw
  have q2 : (data'.response.traces.map wireStatic ++ rest'.map wireStatic).Perm ((wantedOf compile req₁ (r' req₁)).map wireStatic) := by
    rw [← List.map_append]; exact p3'.map _
  have hsub : (data.response.traces.filter keep).length ≤ data.response.traces.length := List.length_filter_le ..
  have l1 := q1.length_eq
  have l2 := q2.length_eq
  simp only [List.length_append, List.length_map] at l1 l2
  have hlen : (data.response.traces.filter keep).length ≤ data'.response.traces.length := by
    by_cases h : rest' = []
    · subst h
      simp only [List.length_nil] at l2
      omega
    · have := p4' h
      omega
  have hfirst := first_same htri (List.Nodup.of_map _ hids) q1 q2 (a1.sublist (List.filter_sublist.map _)) b1
    (fun x hx y hy => a2 x ((List.filter_sublist.map _).subset hx) y ((List.filter_sublist.map _).subset hy)) b2 (by simpa using hlen)
  refine ⟨render mime renders q data, data, render mime renders' q data', data', ?_, gives_rendered .., ?_,
    gives_rendered .., ?_, ?_⟩
  · unfold handleSearch
    rw [hreq]
    simp only [d1, Option.map_some]
  · unfold handleSearch
    rw [hreq]
    simp only [d1', Option.map_some]
  · rw [show (data.response.traces.filter fun t => !(gone.map fun g => g.2.id).contains t.id) = data.response.traces.filter keep from rfl,
      hfirst]
    exact List.take_prefix ..
  · intro hlt
    have hrest : rest = [] := by
      refine Classical.byContradiction fun h => ?_
      have := p4 h
      omega
    subst hrest
    simp only [List.filter_nil, List.length_nil] at l1
    rw [show (data.response.traces.filter fun t => !(gone.map fun g => g.2.id).contains t.id) = data.response.traces.filter keep from rfl,
      hfirst]
    exact List.take_of_length_le (by simp only [List.length_map]; omega)

/-- **C163.** In particular, a server asks several searchers, and then one of them is down: the traces of the others are
answered as before, and first.  How the searchers are run, and in which order their answers arrive, may differ. -/
theorem C163_down (hm : mime "application/json".toList = some "application/json") (ahead theirs : Int)
    (before after : List ((String × Searcher) × (SearchRequest → List (Static × Static))))
    (hb : ∀ s ∈ before ++ after, Holding compile mulFrac size mime True ahead false s.1.2 s.2)
    (s : Searcher) (r : SearchRequest → List (Static × Static)) (hs : Holding compile mulFrac size mime True theirs true s r)
    (id : String) (raw : Bytes) (theirRenders : SearchData → Bool) (broken : SearchHTTP → Option HTTPResponse)
    (hbroken : ∀ r, broken r = none ∨ ∃ res, broken r = some res ∧ res.status ≠ 200)
    (srt srt' : List Static → List Static) (hsort : Sorts srt) (hsort' : Sorts srt') (o o' : Orders) (n₁ n₂ n₁' n₂' : Nat) (took took' : Duration)
    (renders renders' : SearchData → Bool) (q : SearchHTTP) (req req₁ : SearchRequest) (invalid : List String)
    (hreq : readRequest mulFrac size q = some req) (h0 : ∀ d ∈ req.bucketing, 0 ≤ d) (hn : req.normalize compile = some (req₁, invalid))
    (hnd : (((before ++ after).flatMap fun s => s.2 req₁).map (fun t => t.2.id) ++ (r req₁).map fun t => t.2.id).Nodup)
    (hsize : size (encRequest req₁) ≤ 1048576) :
    let server := handleSearch compile mulFrac size mime theirRenders s
    let up := multiSearcher compile srt o n₁ n₂ took
      (before.map Prod.fst ++ (id, clientSearcher raw server) :: after.map Prod.fst)
    let down := multiSearcher compile srt' o' n₁' n₂' took'
      (before.map Prod.fst ++ (id, clientSearcher raw broken) :: after.map Prod.fst)
    ∃ resp data resp' data', handleSearch compile mulFrac size mime renders up q = some resp ∧ Gives resp data ∧
      handleSearch compile mulFrac size mime renders' down q = some resp' ∧ Gives resp' data' ∧
      let others := data.response.traces.filter fun t => !((r req₁).map fun g => g.2.id).contains t.id
      others.map wireStatic <+: data'.response.traces.map wireStatic ∧
      ((data.response.traces.length : Int) < req₁.limit → others.map wireStatic = data'.response.traces.map wireStatic) := by
  intro server up down
  have hup : Holding compile mulFrac size mime True ahead true up fun req =>
      (before ++ ((id, clientSearcher raw server), fun req =>
        if size (encRequest req) > 1048576 then [] else (r req).map fun t => (t.1, wireStatic t.2)) :: after).flatMap fun s => s.2 req := by
    have := Holding.multi (compile := compile) (mulFrac := mulFrac) (size := size) (mime := mime) (orderly := True) ahead srt o n₁ n₂ took
      (before ++ ((id, clientSearcher raw server), fun req =>
        if size (encRequest req) > 1048576 then [] else (r req).map fun t => (t.1, wireStatic t.2)) :: after) hsort ?_
    · simpa only [List.map_append, List.map_cons] using this
    · intro x hx
      rcases List.mem_append.mp hx with hx | hx
      · exact hb x (List.mem_append_left _ hx)
      · rcases List.mem_cons.mp hx with rfl | hx
        · exact .there ahead theirs raw theirRenders s r hs
        · exact hb x (List.mem_append_right _ hx)
  have hdown : Holding compile mulFrac size mime True ahead true down fun req =>
      (before ++ ((id, clientSearcher raw broken), fun _ => []) :: after).flatMap fun s => s.2 req := by
    have := Holding.multi (compile := compile) (mulFrac := mulFrac) (size := size) (mime := mime) (orderly := True) ahead srt' o' n₁' n₂' took'
      (before ++ ((id, clientSearcher raw broken), fun _ => []) :: after) hsort' ?_
    · simpa only [List.map_append, List.map_cons] using this
    · intro x hx
      rcases List.mem_append.mp hx with hx | hx
      · exact hb x (List.mem_append_left _ hx)
      · rcases List.mem_cons.mp hx with rfl | hx
        · exact .down ahead raw broken hbroken
        · exact hb x (List.mem_append_right _ hx)
  have hif : (if size (encRequest req₁) > 1048576 then [] else (r req₁).map fun t => (t.1, wireStatic t.2)) =
      (r req₁).map fun t => (t.1, wireStatic t.2) := if_neg (by omega)
  have hperm : ∀ {β : Type} (a b c : List β), (a ++ (b ++ c)).Perm (a ++ c ++ b) := by
    intro β a b c
    rw [List.append_assoc]
    exact List.Perm.append_left _ List.perm_append_comm
  refine C163_missing hm ahead ahead up down _ _ (r req₁) hup hdown renders renders' q req req₁ invalid hreq h0 hn ?_ ?_
  · simp only [List.flatMap_append, List.flatMap_cons, hif, List.map_append, List.map_map, List.nil_append]
    have e : ((fun t : Static × Static => (t.1, wireStatic t.2)) ∘ fun t : Static × Static => (t.1, wireStatic t.2)) =
        fun t : Static × Static => (t.1, wireStatic t.2) := by
      funext t
      simp only [Function.comp_apply, wire_again]
    rw [e]
    exact hperm ..
  · simp only [List.flatMap_append, List.flatMap_cons, hif, List.map_append, List.map_map]
    rw [List.flatMap_append, List.map_append] at hnd
    exact ((hperm _ _ _).nodup_iff).mpr hnd

/-- **C163.** For a multi-searcher, the order in which traces were added does not matter.  It gets answers, and then the same ones
except for some that are gone, in any order.  If the start times can be ordered, and the traces have distinct IDs, then it returns
first those traces that it had returned before and that are not gone, in the same order; and nothing else if there was room for more. -/
theorem C163_answers {srt srt' : List Static → List Static} (hs : Sorts srt) (hs' : Sorts srt') {req : SearchRequest}
    {n₁ n₂ n₁' n₂' : Nat} {ts ts' : List Arrival} {gone : List Response} {res res' : Response}
    (hp : (ts.filterMap (·.res)).Perm (ts'.filterMap (·.res) ++ gone))
    (h : multiSearch compile srt req n₁ n₂ ts = some res) (h' : multiSearch compile srt' req n₁' n₂' ts' = some res')
    (ho : Ordered ((ts.filterMap (·.res)).flatMap (·.traces))) (hnd : (((ts.filterMap (·.res)).flatMap (·.traces)).map (·.id)).Nodup) :
    let kept := res.traces.filter fun t => !((gone.flatMap (·.traces)).map (·.id)).contains t.id
    kept <+: res'.traces ∧ ((res.traces.length : Int) < limitOf req → kept = res'.traces) := by
  have hflat : ((responses ts).flatMap (·.traces)).Perm ((responses ts').flatMap (·.traces) ++ gone.flatMap (·.traces)) := by
    have := hp.flatMap_right (·.traces)
    rwa [List.flatMap_append] at this
  have ho' : Ordered ((responses ts').flatMap (·.traces)) := ho.sub fun a ha => hflat.mem_iff.mpr (List.mem_append_left _ ha)
  obtain ⟨p1, p2, rest, p3, p4, p5⟩ := C45_most_recent hs h ho
  obtain ⟨p1', p2', rest', p3', p4', p5'⟩ := C45_most_recent hs' h' ho'
  have hall := (hflat.map (·.id)).nodup_iff.mp hnd
  rw [List.map_append, List.nodup_append] at hall
  obtain ⟨hnd', -, hdis⟩ := hall
  let keep : Static → Bool := fun t => !((gone.flatMap (·.traces)).map (·.id)).contains t.id
  have hw : (((responses ts).flatMap (·.traces)).filter keep).Perm ((responses ts').flatMap (·.traces)) := by
    refine (hflat.filter keep).trans (List.Perm.of_eq ?_)
    rw [List.filter_append]
    have f1 : ((responses ts').flatMap (·.traces)).filter keep = (responses ts').flatMap (·.traces) := by
      refine List.filter_eq_self.mpr fun t ht => ?_
      simp only [keep, Bool.not_eq_true', List.contains_eq_mem, decide_eq_false_iff_not]
      intro hmem
      exact hdis _ (List.mem_map_of_mem ht) _ hmem rfl
    have f2 : (gone.flatMap (·.traces)).filter keep = [] := by
      refine List.filter_eq_nil_iff.mpr fun t ht => ?_
      simp only [keep, Bool.not_eq_true', List.contains_eq_mem, decide_eq_false_iff_not, Decidable.not_not]
      exact List.mem_map_of_mem ht
    rw [f1, f2, List.append_nil]
  have htri : ∀ x ∈ (responses ts').flatMap (·.traces), ∀ y ∈ (responses ts').flatMap (·.traces), x ≠ y →
      x.less y = true ∨ y.less x = true := by
    intro x hx y hy hne
    cases e1 : x.less y with
    | true => exact .inl rfl
    | false =>
      cases e2 : y.less x with
      | true => exact .inr rfl
      | false => exact absurd (List.inj_on_of_nodup_map hnd' hx hy (tie_same e1 e2).2) hne
  have q1 : (res.traces.filter keep ++ rest.filter keep).Perm ((responses ts').flatMap (·.traces)) := by
    rw [← List.filter_append]
    exact (p3.filter keep).trans hw
  have hlined : ∀ {l : List Static}, NewestFirst l → Lined (fun a b => a.less b = true) l := by
    intro l hl
    unfold Lined
    unfold NewestFirst at hl
    exact hl.imp fun h => by simp [h]
  have hsub : (res.traces.filter keep).length ≤ res.traces.length := List.length_filter_le ..
  have l1 := q1.length_eq
  have l2 := p3'.length_eq
  simp only [List.length_append] at l1 l2
  have hlen : (res.traces.filter keep).length ≤ res'.traces.length := by
    by_cases h : rest' = []
    · subst h
      simp only [List.length_nil] at l2
      omega
    · have := p4' h
      omega
  have hfirst := first_same htri (List.Nodup.of_map _ hnd') q1 p3' ((hlined p1).sublist List.filter_sublist) (hlined p1')
    (fun x hx y hy => by rw [p5 x (List.filter_sublist.subset hx) y (List.filter_sublist.subset hy)]; simp)
    (fun x hx y hy => by rw [p5' x hx y hy]; simp) hlen
  refine ⟨?_, ?_⟩
  · show res.traces.filter keep <+: _
    rw [hfirst]
    exact List.take_prefix ..
  · intro hlt
    have hrest : rest = [] := by
      refine Classical.byContradiction fun h => ?_
      have := p4 h
      omega
    subst hrest
    simp only [List.filter_nil, List.length_nil] at l1
    show res.traces.filter keep = _
    rw [hfirst]
    exact List.take_of_length_le (by omega)

/-- **C163.** The numbers of an answer lose just what the server that is down would have counted: the total and the number of matches are less by
those in its own answer to the same request, the sources are those of the others, and there is one more problem (instead of the
problems that the server itself has). -/
theorem C163_numbers (hm : mime "application/json".toList = some "application/json")
    (before after : List ((String × Searcher) × (SearchRequest → Reach)))
    (hb : ∀ s ∈ before ++ after, Network compile mulFrac size mime false s.1.2 s.2)
    (s : Searcher) (r : SearchRequest → Reach) (hs : Network compile mulFrac size mime true s r)
    (id : String) (raw : Bytes) (theirRenders : SearchData → Bool) (broken : SearchHTTP → Option HTTPResponse)
    (hbroken : ∀ r, broken r = none ∨ ∃ res, broken r = some res ∧ res.status ≠ 200)
    (srt srt' : List Static → List Static) (hsort : SortOK srt) (hsort' : SortOK srt') (o o' : Orders) (n₁ n₂ n₁' n₂' : Nat) (took took' : Duration)
    (renders renders' : SearchData → Bool) (q : SearchHTTP) (req req₁ : SearchRequest) (invalid : List String)
    (hreq : readRequest mulFrac size q = some req) (h0 : ∀ d ∈ req.bucketing, 0 ≤ d) (hn : req.normalize compile = some (req₁, invalid))
    (hsize : size (encRequest req₁) ≤ 1048576) :
    let server := handleSearch compile mulFrac size mime theirRenders s
    let up := multiSearcher compile srt o n₁ n₂ took
      (before.map Prod.fst ++ (id, clientSearcher raw server) :: after.map Prod.fst)
    let down := multiSearcher compile srt' o' n₁' n₂' took'
      (before.map Prod.fst ++ (id, clientSearcher raw broken) :: after.map Prod.fst)
    ∃ resp data resp' data' resp₀ data₀, handleSearch compile mulFrac size mime renders up q = some resp ∧ Gives resp data ∧
      handleSearch compile mulFrac size mime renders' down q = some resp' ∧ Gives resp' data' ∧ server q = some resp₀ ∧ Gives resp₀ data₀ ∧
      data.response.totalCount = data'.response.totalCount + data₀.response.totalCount ∧
      data.response.matchCount = data'.response.matchCount + data₀.response.matchCount ∧
      (∀ source, source ∈ data.response.sources ↔ source ∈ data'.response.sources ∨ source ∈ data₀.response.sources) ∧
      data'.response.problems.length + data₀.response.problems.length = data.response.problems.length + 1 := by
  intro server up down
  have hup : Network compile mulFrac size mime true up fun req =>
      .join ((before ++ ((id, clientSearcher raw server), fun req =>
        if size (encRequest req) > 1048576 then .nothing else r req) :: after).map fun s => s.2 req) := by
    have := Network.multi (compile := compile) (mulFrac := mulFrac) (size := size) (mime := mime) srt o n₁ n₂ took
      (before ++ ((id, clientSearcher raw server), fun req =>
        if size (encRequest req) > 1048576 then .nothing else r req) :: after) hsort ?_
    · simpa only [List.map_append, List.map_cons] using this
    · intro x hx
      rcases List.mem_append.mp hx with hx | hx
      · exact hb x (List.mem_append_left _ hx)
      · rcases List.mem_cons.mp hx with rfl | hx
        · exact .there raw theirRenders s r hs
        · exact hb x (List.mem_append_right _ hx)
  have hdown : Network compile mulFrac size mime true down fun req =>
      .join ((before ++ ((id, clientSearcher raw broken), fun _ => .nothing) :: after).map fun s => s.2 req) := by
    have := Network.multi (compile := compile) (mulFrac := mulFrac) (size := size) (mime := mime) srt' o' n₁' n₂' took'
      (before ++ ((id, clientSearcher raw broken), fun _ => .nothing) :: after) hsort' ?_
    · simpa only [List.map_append, List.map_cons] using this
    · intro x hx
      rcases List.mem_append.mp hx with hx | hx
      · exact hb x (List.mem_append_left _ hx)
      · rcases List.mem_cons.mp hx with rfl | hx
        · exact .down raw broken hbroken
        · exact hb x (List.mem_append_right _ hx)
  have hif : ¬ size (encRequest req₁) > 1048576 := by omega
  obtain ⟨_, _, hn', hrd⟩ := normalize_ready (read_fresh compile hreq) h0
  rw [hn] at hn'
  obtain ⟨rfl, rfl⟩ := Prod.mk.inj (Option.some.inj hn')
  obtain ⟨data, st, d1, -, d3, -⟩ := searchData_fit ((network_fit hm hup).2 rfl) hn hrd
  obtain ⟨data', st', d1', -, d3', -⟩ := searchData_fit ((network_fit hm hdown).2 rfl) hn hrd
  obtain ⟨data₀, st₀, d1₀, -, d3₀, -⟩ := searchData_fit ((network_fit hm hs).2 rfl) hn hrd
  have h := d3.total
  have h' := d3'.total
  have h₀ := d3₀.total
  have g := d3.matched
  have g' := d3'.matched
  have g₀ := d3₀.matched
  have f := d3.problems
  have f' := d3'.problems
  have f₀ := d3₀.problems
  simp only [Reach.join, Reach.matched, Reach.nothing, List.map_append, List.map_cons, List.flatMap_append, List.flatMap_cons, if_neg hif, List.flatten_append,
    List.length_append, List.sum_append, List.sum_cons, List.nil_append] at h h' h₀ g g' g₀ f f' f₀
  refine ⟨render mime renders q data, data, render mime renders' q data', data', render mime theirRenders q data₀, data₀, ?_, gives_rendered .., ?_,
    gives_rendered .., ?_, gives_rendered .., ?_, ?_, ?_, ?_⟩
  · unfold handleSearch
    rw [hreq]
    simp only [d1, Option.map_some]
  · unfold handleSearch
    rw [hreq]
    simp only [d1', Option.map_some]
  · show handleSearch compile mulFrac size mime theirRenders s q = _
    unfold handleSearch
    rw [hreq]
    simp only [d1₀, Option.map_some]
  · rw [h, h', h₀]
    push_cast
    omega
  · rw [g, g', g₀]
    push_cast
    omega
  · intro source
    rw [d3.sources, d3'.sources, d3₀.sources]
    simp only [Reach.join, Reach.nothing, List.map_append, List.map_cons, List.flatMap_append, List.flatMap_cons, if_neg hif, List.mem_append, List.nil_append]
    constructor
    · rintro (h | h | h)
      · exact .inl (.inl h)
      · exact .inr h
      · exact .inl (.inr h)
    · rintro ((h | h) | h)
      · exact .inl h
      · exact .inr (.inr h)
      · exact .inr (.inl h)
  · omega

end

/-! ## Example -/

private def mimes : List Char → Option String := fun l =>
  if l = "application/json".toList then some "application/json" else none

private def noRegexp : Compile := fun _ => .error ""
private def frac : Nat → Nat → Nat → Nat := fun f unit k => f * unit / 10 ^ k

private def begun (id : String) (wall : Int) : Static := { sampleTrace id 0 true false 1 with started := ⟨wall, some (wall - 1000)⟩ }

private def asked (query : String) : SearchHTTP := { neg := { rawQuery := bytesOf query, accept := [] }, isJSON := false, body := none }

private def idsOf : Option HTTPResponse → Option (List String)
  | some ⟨200, .json v⟩ => (decData v).map fun d => d.response.traces.map (·.id)
  | _ => none

private def numbersOf : Option HTTPResponse → Option (List Int × List String)
  | some ⟨200, .json v⟩ => (decData v).map fun d =>
    ([d.response.totalCount, d.response.matchCount, (d.response.problems.length : Int)], d.response.sources)
  | _ => none

private theorem pair_holding (source : String) (a b : String) (x y : Int) (hxy : x < y) (rb : Ring.RB Static) (o : List (List Static))
    (h : Ring.exec 10 [.add (begun a x), .add (begun b y)] = some (rb, o)) :
    Holding noRegexp frac (fun _ => 0) mimes True 1000 true (collectorSearcher noRegexp sortNewest source still [rb] 5)
      fun _ => [(begun b y, begun b y), (begun a x, begun a x)] := by
  have hb : Buffers [rb] [[begun b y, begun a x]] := by
    refine ⟨by cases h; rfl, ?_⟩
    intro rb' hm
    obtain rfl := List.mem_singleton.mp hm
    exact ⟨10, _, _, h⟩
  have hc : Clocked 1000 [begun b y, begun a x] := by
    intro t ht m e
    simp only [List.mem_cons, List.not_mem_nil, or_false] at ht
    rcases ht with rfl | rfl
    · have e' : some (y - 1000) = some m := e
      cases e'
      show y - (y - 1000) = 1000
      omega
    · have e' : some (x - 1000) = some m := e
      cases e'
      show x - (x - 1000) = 1000
      omega
  refine .collector 1000 _ _ _ _ [[begun b y, begun a x]] _ sortNewest_sorts hb (fun _ => hc) ?_
  intro _ items hi
  obtain rfl := List.mem_singleton.mp hi
  refine List.pairwise_pair.mpr (Bool.eq_false_iff.mpr fun h => ?_)
  have h : (begun a x).less (begun b y) = true := h
  rcases (onClock_less hc (by simp) (by simp)).mp h with h | ⟨h, -⟩
  · have h : y < x := h
    omega
  · have h : x = y := h
    omega

private def answered (id : String) (l : List Static) : Arrival := ⟨id, some { traces := l, totalCount := l.length, matchCount := l.length, stats := none }, none, []⟩

/-- Two answers, with a limit of two; then one of them is an error. -/
example :
    let one := answered "1" [sampleTrace "c" 3 true false 1, sampleTrace "a" 1 true false 1]
    let two := answered "2" [sampleTrace "d" 4 true false 1, sampleTrace "b" 2 true false 1]
    let err : Arrival := ⟨"2", none, some "refused", []⟩
    ∃ res res', multiSearch noRegexp sortNewest { limit := 2 } 0 1 [two, one] = some res ∧
      multiSearch noRegexp sortNewest { limit := 2 } 1 0 [one, err] = some res' ∧
      ([two, one].filterMap (·.res)).Perm ([one, err].filterMap (·.res) ++ two.res.toList) ∧
      Ordered (([two, one].filterMap (·.res)).flatMap (·.traces)) ∧
      ((([two, one].filterMap (·.res)).flatMap (·.traces)).map (·.id)).Nodup ∧
      res.traces.map (·.id) = ["d", "c"] ∧ res'.traces.map (·.id) = ["c", "a"] := by
  refine ⟨_, _, rfl, rfl, List.Perm.swap .., ordered_comparable ⟨false, ?_⟩, ?_, rfl, rfl⟩
  · decide
  · decide

/-- Two programs, and a server that asks them, with a limit of three; then the second program is down. -/
example : ∃ (rb rb' : Ring.RB Static) (o o' : List (List Static)),
    Ring.exec 10 [.add (begun "a" 1010), .add (begun "c" 1030)] = some (rb, o) ∧
    Ring.exec 10 [.add (begun "b" 1020), .add (begun "d" 1040)] = some (rb', o') ∧
    let p := collectorSearcher noRegexp sortNewest "p" still [rb] 5
    let p' := collectorSearcher noRegexp sortNewest "p'" still [rb'] 5
    let server := handleSearch noRegexp frac (fun _ => 0) mimes (fun _ => true) p'
    let asks := fun h : SearchHTTP → Option HTTPResponse => handleSearch noRegexp frac (fun _ => 0) mimes (fun _ => true)
      (multiSearcher noRegexp sortNewest listed 0 1 7 [("1", p), ("2", clientSearcher [] h)])
    (∃ r r', Holding noRegexp frac (fun _ => 0) mimes True 1000 true p r ∧ Holding noRegexp frac (fun _ => 0) mimes True 1000 true p' r' ∧
      ∀ req, ((r req).map (fun t => t.2.id) ++ (r' req).map fun t => t.2.id).Nodup) ∧
    (∃ req, readRequest frac (fun _ => 0) (asked "n=3") = some req ∧ (∀ d ∈ req.bucketing, 0 ≤ d)) ∧
    idsOf (asks server (asked "n=3")) = some ["d", "c", "b"] ∧ idsOf (asks (fun _ => none) (asked "n=3")) = some ["c", "a"] ∧
    numbersOf (asks server (asked "n=3")) = some ([4, 4, 0], ["p", "p'"]) ∧ numbersOf (server (asked "n=3")) = some ([2, 2, 0], ["p'"]) ∧
    numbersOf (asks (fun _ => none) (asked "n=3")) = some ([2, 2, 1], ["p"]) := by
  refine ⟨_, _, _, _, rfl, rfl, ⟨_, _, pair_holding "p" "a" "c" 1010 1030 (by decide) _ _ rfl,
    pair_holding "p'" "b" "d" 1020 1040 (by decide) _ _ rfl, ?_⟩, ⟨requestOfURL frac (bytesOf "n=3"), rfl, ?_⟩, ?_, ?_, ?_, ?_, ?_⟩
  · intro req
    show ["c", "a", "d", "b"].Nodup
    decide
  · decide +kernel
  · decide +kernel
  · decide +kernel
  · decide +kernel
  · decide +kernel
  · decide +kernel

end Trc.Web
