import Verif.Props.NetTraces
import Verif.Props.Asking

/-!
# C156: a higher limit shows the same traces first, for any network of programs
-/

namespace Trc

theorem first_same {α : Type} {lt : α → α → Prop} {all a r b s : List α}
    (htri : ∀ x ∈ all, ∀ y ∈ all, x ≠ y → lt x y ∨ lt y x) (hn : all.Nodup)
    (pa : (a ++ r).Perm all) (pb : (b ++ s).Perm all) (ha : Lined lt a) (hb : Lined lt b)
    (har : ∀ x ∈ a, ∀ y ∈ r, ¬ lt y x) (hbs : ∀ x ∈ b, ∀ y ∈ s, ¬ lt y x) (hlen : a.length ≤ b.length) :
    a = b.take a.length := by
  have hna : (a ++ r).Nodup := pa.nodup_iff.mpr hn
  have hnb : (b ++ s).Nodup := pb.nodup_iff.mpr hn
  have hma : ∀ x ∈ a, x ∈ all := fun x hx => pa.mem_iff.mp (by simp [hx])
  have hmb : ∀ x ∈ b, x ∈ all := fun x hx => pb.mem_iff.mp (by simp [hx])
  have hnt : (b.take a.length).Nodup := (List.nodup_append.mp hnb).1.sublist (List.take_sublist _ _)
  have hna' : a.Nodup := (List.nodup_append.mp hna).1
  have hsub : a ⊆ b.take a.length := by
    intro x hx
    apply Classical.byContradiction
    intro hnot
    have hbehind : ∀ y ∈ b.take a.length, ¬ lt x y := by
      have hxb : x ∈ b ++ s := pb.mem_iff.mpr (hma x hx)
      intro y hy
      rcases List.mem_append.mp hxb with h | h
      · have hb' := hb
        unfold Lined at hb'
        rw [← List.take_append_drop a.length b, List.pairwise_append] at hb'
        rw [← List.take_append_drop a.length b] at h
        rcases List.mem_append.mp h with h | h
        · exact absurd h hnot
        · exact hb'.2.2 y hy x h
      · exact hbs y ((List.take_sublist _ _).subset hy) x h
    have hin : b.take a.length ⊆ a := by
      intro y hy
      have hya : y ∈ all := hmb y ((List.take_sublist _ _).subset hy)
      have hyx : y ≠ x := by rintro rfl; exact hnot hy
      have hlt : lt y x := by
        rcases htri y hya x (hma x hx) hyx with h | h
        · exact h
        · exact absurd h (hbehind y hy)
      rcases List.mem_append.mp (pa.mem_iff.mpr hya) with h | h
      · exact h
      · exact absurd hlt (har x hx y h)
    have hp : (b.take a.length).Perm a := by
      refine (List.subperm_of_subset hnt hin).perm_of_length_le ?_
      rw [List.length_take]; omega
    exact hnot (hp.mem_iff.mpr hx)
  have hp : a.Perm (b.take a.length) := by
    refine (List.subperm_of_subset hna' hsub).perm_of_length_le ?_
    rw [List.length_take]; omega
  exact lined_unique htri hma ha (hb.sublist (List.take_sublist _ _)) hp

end Trc

namespace Trc.Web

section
variable {compile : Compile} {mulFrac : Nat → Nat → Nat → Nat} {size : JSON → Nat} {mime : List Char → Option String}

/-- **C156** The same for every server of any network of collectors, multi-searchers and servers, some of which may be down: if no
clock was set and traces were added in the order in which they began, a page or answer with a higher limit shows the same traces
first. -/
theorem C156_network (hm : mime "application/json".toList = some "application/json") (ahead : Int) (s : Searcher)
    (r : SearchRequest → List (Static × Static)) (hs : Holding compile mulFrac size mime True ahead true s r)
    (held : List (Static × Static)) (hr : ∀ req, r req = held) (hnd : (held.map fun t => t.2.id).Nodup)
    (renders : SearchData → Bool) (q q' : SearchHTTP) (req req' : SearchRequest)
    (hreq : readRequest mulFrac size q = some req) (hreq' : readRequest mulFrac size q' = some req')
    (h0 : ∀ d ∈ req.bucketing, 0 ≤ d) (h0' : ∀ d ∈ req'.bucketing, 0 ≤ d)
    (he : req'.filter = req.filter) (hd : req'.stackDepth = req.stackDepth) (hl : limitOf req ≤ limitOf req') :
    ∃ resp data resp' data', handleSearch compile mulFrac size mime renders s q = some resp ∧ Gives resp data ∧
      handleSearch compile mulFrac size mime renders s q' = some resp' ∧ Gives resp' data' ∧
      data.response.traces = data'.response.traces.take (limitOf req).toNat := by
  obtain ⟨req₁, invalid, hn, hrd⟩ := normalize_ready (read_fresh compile hreq) h0
  obtain ⟨req₁', invalid', hn', hrd'⟩ := normalize_ready (read_fresh compile hreq') h0'
  obtain ⟨data, d1, d2, d3⟩ := tells_data ((net_good hm (holding_net hs)).2 rfl) (holding_tells hm hs) hn hrd
  obtain ⟨data', d1', d2', d3'⟩ := tells_data ((net_good hm (holding_net hs)).2 rfl) (holding_tells hm hs) hn' hrd'
  obtain ⟨p1, p2, rest, p3, p4, p5⟩ := d3.recent trivial
  obtain ⟨p1', p2', rest', p3', p4', p5'⟩ := d3'.recent trivial
  have hc := wanted_clocked (compile := compile) (req := req₁) ((holding_tells hm hs req₁ hrd).1 trivial)
  have hparts : ∀ {a b : SearchRequest} {p : List String}, a.normalize compile = some (b, p) →
      b.filter = (a.filter.normalize compile).1 ∧ b.stackDepth = a.stackDepth := by
    intro a b p h
    unfold SearchRequest.normalize at h
    cases hb : normalizeBucketing a.bucketing with
    | none => rw [hb] at h; cases h
    | some bs =>
      rw [hb] at h
      rw [← (Prod.mk.inj (Option.some.inj h)).1]
      exact ⟨rfl, rfl⟩
  have hw : wantedOf compile req₁' (r req₁') = wantedOf compile req₁ (r req₁) := by
    unfold wantedOf
    rw [hr, hr, (hparts hn').1, (hparts hn').2, (hparts hn).1, (hparts hn).2, he, hd]
  rw [hw] at p3'
  have hlim := limitOf_spec hn
  have hlim' := limitOf_spec hn'
  have hpos := limitOf_pos req
  have hids : ((wantedOf compile req₁ (r req₁)).map (·.id)).Nodup := by
    unfold wantedOf
    rw [hr, List.map_map]
    exact hnd.sublist (List.filter_sublist.map _)
  have htri : ∀ x ∈ wantedOf compile req₁ (r req₁), ∀ y ∈ wantedOf compile req₁ (r req₁), x ≠ y → x.less y = true ∨ y.less x = true := by
    have hsub : ∀ a ∈ wantedOf compile req₁ (r req₁), ∀ b ∈ wantedOf compile req₁ (r req₁),
        a.started.sub b.started = a.started.wall - b.started.wall := by
      intro a ha b hb
      unfold Time.sub
      split
      · rename_i m n e1 e2
        have := hc a ha m e1
        have := hc b hb n e2
        show m - n = a.started.wall - b.started.wall
        omega
      · rfl
    intro x hx y hy hne
    rw [less_key (key := (·.wall)) (hsub x hx y hy), less_key (key := (·.wall)) (hsub y hy x hx)]
    rcases Int.lt_trichotomy x.started.wall y.started.wall with h | h | h
    · exact .inr (.inl h)
    · rcases str_trichotomy x.id y.id with h' | h' | h'
      · exact .inr (.inr ⟨h.symm, h'⟩)
      · exact absurd (List.inj_on_of_nodup_map hids hx hy h') hne
      · exact .inl (.inr ⟨h, h'⟩)
    · exact .inl (.inl h)
  have lined : ∀ l : List Static, NewestFirst l → Lined (fun a b : Static => a.less b = true) l := by
    intro l h
    unfold NewestFirst at h
    exact h.imp fun hab => by simp [hab]
  have l1 := p3.length_eq
  have l2 := p3'.length_eq
  rw [List.length_append] at l1 l2
  have hfull : data.response.traces.length = req₁.limit.toNat ∨ rest = [] := by
    by_cases h : rest = []
    · exact .inr h
    · exact .inl (p4 h)
  have hfull' : data'.response.traces.length = req₁'.limit.toNat ∨ rest' = [] := by
    by_cases h : rest' = []
    · exact .inr h
    · exact .inl (p4' h)
  have hlen : data.response.traces.length ≤ data'.response.traces.length := by
    rcases hfull' with h | h
    · omega
    · rw [h] at l2
      simp only [List.length_nil] at l2
      omega
  have hfirst := first_same htri (List.Nodup.of_map _ hids) p3 p3' (lined _ p1) (lined _ p1')
    (fun x hx y hy => by simp [p5 x hx y hy]) (fun x hx y hy => by simp [p5' x hx y hy]) hlen
  have answered : ∀ (q : SearchHTTP) (data : SearchData), Gives (render mime renders q data) data := by
    intro q data
    unfold render Gives
    split
    · exact .inl rfl
    · exact .inr rfl
  refine ⟨render mime renders q data, data, render mime renders q' data', data', ?_, answered _ _, ?_, answered _ _, ?_⟩
  · unfold handleSearch
    rw [hreq]
    simp only [d1, Option.map_some]
  · unfold handleSearch
    rw [hreq']
    simp only [d1', Option.map_some]
  · rw [← hlim]
    rcases hfull with h | h
    · rw [← h]; exact hfirst
    · rw [h] at l1
      simp only [List.length_nil] at l1
      have e1 : data'.response.traces.length ≤ data.response.traces.length := by omega
      rw [List.take_of_length_le (by omega)]
      rw [List.take_of_length_le e1] at hfirst
      exact hfirst

end

/-! ## Example -/

private def mimes : List Char → Option String := fun l =>
  if l = "application/json".toList then some "application/json" else none

private def begun (id : String) (wall mono : Int) : Static := { sampleTrace id 0 true false 1 with started := ⟨wall, some mono⟩ }

private def asked (query : String) : SearchHTTP := { neg := { rawQuery := bytesOf query, accept := [] }, isJSON := false, body := none }

/-- A program, and two requests to its server that differ in the limit. -/
example : ∃ (rb : Ring.RB Static) (o : List (List Static)),
    Ring.exec 10 [.add (begun "a" 1010 10), .add (begun "b" 1030 30)] = some (rb, o) ∧
    (∃ r, Holding (fun _ => .error "") (fun f u k => f * u / 10 ^ k) (fun _ => 0) mimes True 1000 true
        (collectorSearcher (fun _ => .error "") sortNewest "s" still [rb] 5) r ∧
      (∀ req, r req = [(begun "b" 1030 30, begun "b" 1030 30), (begun "a" 1010 10, begun "a" 1010 10)])) ∧
    (([(begun "b" 1030 30, begun "b" 1030 30), (begun "a" 1010 10, begun "a" 1010 10)].map fun t : Static × Static => t.2.id).Nodup) ∧
    ∃ req req', readRequest (fun f u k => f * u / 10 ^ k) (fun _ => 0) (asked "n=1") = some req ∧
      readRequest (fun f u k => f * u / 10 ^ k) (fun _ => 0) (asked "n=2") = some req' ∧
      req'.filter = req.filter ∧ req'.stackDepth = req.stackDepth ∧ limitOf req = 1 ∧ limitOf req' = 2 ∧
      (∀ d ∈ req.bucketing, 0 ≤ d) ∧ ∀ d ∈ req'.bucketing, 0 ≤ d := by
  refine ⟨_, _, rfl, ⟨_, .collector 1000 _ _ _ _ [[begun "b" 1030 30, begun "a" 1010 10]] _ sortNewest_sorts ⟨rfl, ?_⟩ ?_ ?_, ?_⟩,
    by decide +kernel, requestOfURL (fun f u k => f * u / 10 ^ k) (bytesOf "n=1"), requestOfURL (fun f u k => f * u / 10 ^ k) (bytesOf "n=2"), rfl, rfl, ?_⟩
  · intro rb hm
    obtain rfl := List.mem_singleton.mp hm
    exact ⟨10, [.add (begun "a" 1010 10), .add (begun "b" 1030 30)], _, rfl⟩
  · intro _ t ht m e
    simp only [List.flatten_cons, List.flatten_nil, List.append_nil, List.map_cons, List.map_nil, List.mem_cons, List.not_mem_nil,
      or_false] at ht
    rcases ht with rfl | rfl <;> cases e <;> rfl
  · intro _ items hi
    obtain rfl := List.mem_singleton.mp hi
    simp only [List.map_cons, List.map_nil, NewestFirst, List.pairwise_cons, List.mem_cons, List.not_mem_nil, or_false, false_imp_iff,
      implies_true, List.Pairwise.nil, and_true, forall_eq]
    decide +kernel
  · intro req
    rfl
  · refine ⟨rfl, ?_, ?_, ?_, ?_, ?_⟩ <;> decide +kernel

end Trc.Web
