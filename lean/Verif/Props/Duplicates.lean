import Verif.Props.Grouping

/-!
# C162: how often a trace is in an answer
-/

namespace Trc.Web

section
variable {compile : Compile} {mulFrac : Nat → Nat → Nat → Nat} {size : JSON → Nat} {mime : List Char → Option String} {orderly : Prop}

/-- **C162** (partial) If what a server reaches has distinct IDs, then no trace is in an answer twice. Missing: servers that reach a program in
two ways, see `C162_twice_always_violated`. -/
theorem C162_once_partial (hm : mime "application/json".toList = some "application/json") (ahead : Int) (s : Searcher)
    (r : SearchRequest → List (Static × Static)) (hs : Holding compile mulFrac size mime orderly ahead true s r)
    (hnd : ∀ req, ((r req).map fun t => t.2.id).Nodup)
    (renders : SearchData → Bool) (q : SearchHTTP) (req : SearchRequest)
    (hreq : readRequest mulFrac size q = some req) (h0 : ∀ d ∈ req.bucketing, 0 ≤ d) :
    ∃ resp data, handleSearch compile mulFrac size mime renders s q = some resp ∧ Gives resp data ∧
      (data.response.traces.map (·.id)).Nodup := by
  obtain ⟨req₁, invalid, resp, data, rest, -, e1, e2, e3, -⟩ := C129_traces hm ahead s r hs renders q req hreq h0
  refine ⟨resp, data, e1, e2, ?_⟩
  have hw : ((wantedOf compile req₁ (r req₁)).map (·.id)).Nodup := by
    unfold wantedOf
    rw [List.map_map]
    exact (hnd req₁).sublist (List.filter_sublist.map _)
  have := ((e3.map (·.id)).nodup_iff).mpr hw
  rw [List.map_append] at this
  exact (List.nodup_append.mp this).1

/-- **C162**, exactly: if all that satisfy the filter of the request fit in the answer, then each is in it as often as it is reached; so none is in
it twice just if none is reached twice. -/
theorem C162_exact (hm : mime "application/json".toList = some "application/json") (ahead : Int) (s : Searcher)
    (r : SearchRequest → List (Static × Static)) (hs : Holding compile mulFrac size mime orderly ahead true s r)
    (renders : SearchData → Bool) (q : SearchHTTP) (req : SearchRequest)
    (hreq : readRequest mulFrac size q = some req) (h0 : ∀ d ∈ req.bucketing, 0 ≤ d) :
    ∃ req₁ invalid resp data, req.normalize compile = some (req₁, invalid) ∧
      handleSearch compile mulFrac size mime renders s q = some resp ∧ Gives resp data ∧
      let found := (wantedOf compile req₁ (r req₁)).map (·.id)
      ((found.length : Int) ≤ req₁.limit →
        (∀ id, (data.response.traces.map (·.id)).count id = found.count id) ∧ ((data.response.traces.map (·.id)).Nodup ↔ found.Nodup)) ∧
      ∀ id, (data.response.traces.map (·.id)).count id ≤ found.count id := by
  obtain ⟨req₁, invalid, resp, data, rest, e0, e1, e2, e3, e4, -⟩ := C129_traces hm ahead s r hs renders q req hreq h0
  refine ⟨req₁, invalid, resp, data, e0, e1, e2, ?_, ?_⟩
  · intro hl
    rw [List.length_map] at hl
    obtain rfl := e4 hl
    rw [List.append_nil] at e3
    exact ⟨fun id => (e3.map _).count_eq id, (e3.map _).nodup_iff⟩
  · intro id
    rw [← (e3.map (·.id)).count_eq id, List.map_append, List.count_append]
    omega

/-- **C162** fails whenever a server is asked twice by another one, if anything is found and all of it fits in the answer. -/
theorem C162_twice_always_violated (hm : mime "application/json".toList = some "application/json") (ahead theirs : Int) (s : Searcher)
    (r : SearchRequest → List (Static × Static)) (hs : Holding compile mulFrac size mime orderly theirs true s r)
    (srt : List Static → List Static) (hsort : Sorts srt) (o : Orders) (n₁ n₂ : Nat) (took : Duration) (id₁ id₂ : String) (raw₁ raw₂ : Bytes)
    (theirRenders renders : SearchData → Bool) (q : SearchHTTP) (req req₁ : SearchRequest) (invalid : List String)
    (hreq : readRequest mulFrac size q = some req) (h0 : ∀ d ∈ req.bucketing, 0 ≤ d) (hn : req.normalize compile = some (req₁, invalid))
    (hsize : size (encRequest req₁) ≤ 1048576) (t : Static × Static) (ht : t ∈ r req₁) (hsat : req₁.filter.Sat compile t.1)
    (hfit : 2 * ((wantedOf compile req₁ (r req₁)).length : Int) ≤ req₁.limit) :
    let server := handleSearch compile mulFrac size mime theirRenders s
    let twice := multiSearcher compile srt o n₁ n₂ took [(id₁, clientSearcher raw₁ server), (id₂, clientSearcher raw₂ server)]
    ∃ resp data, handleSearch compile mulFrac size mime renders twice q = some resp ∧ Gives resp data ∧
      2 ≤ (data.response.traces.map (·.id)).count t.2.id ∧ ¬ (data.response.traces.map (·.id)).Nodup := by
  intro server twice
  let R : SearchRequest → List (Static × Static) := fun req =>
    if size (encRequest req) > 1048576 then [] else (r req).map fun t => (t.1, wireStatic t.2)
  have hnet : Holding compile mulFrac size mime orderly ahead true twice fun req =>
      [((id₁, clientSearcher raw₁ server), R), ((id₂, clientSearcher raw₂ server), R)].flatMap fun s => s.2 req := by
    refine .multi ahead srt o n₁ n₂ took [((id₁, clientSearcher raw₁ server), R), ((id₂, clientSearcher raw₂ server), R)] hsort ?_
    intro s' hs'
    simp only [List.mem_cons, List.not_mem_nil, or_false] at hs'
    rcases hs' with rfl | rfl
    · exact .there ahead theirs raw₁ theirRenders s r hs
    · exact .there ahead theirs raw₂ theirRenders s r hs
  obtain ⟨req₁', invalid', resp, data, e0, e1, e2, e3, -⟩ := C162_exact hm ahead twice _ hnet renders q req hreq h0
  rw [hn] at e0
  obtain ⟨rfl, rfl⟩ := Prod.mk.inj (Option.some.inj e0)
  have hR : R req₁ = (r req₁).map fun t => (t.1, wireStatic t.2) := if_neg (by omega)
  have hw : wantedOf compile req₁ (R req₁) = (wantedOf compile req₁ (r req₁)).map wireStatic := by rw [hR, wanted_wire]
  have hall : wantedOf compile req₁ ([((id₁, clientSearcher raw₁ server), R), ((id₂, clientSearcher raw₂ server), R)].flatMap fun s => s.2 req₁) =
      (wantedOf compile req₁ (r req₁)).map wireStatic ++ (wantedOf compile req₁ (r req₁)).map wireStatic := by
    rw [← hw]
    unfold wantedOf
    simp only [List.flatMap_cons, List.flatMap_nil, List.append_nil, List.filter_append, List.map_append]
  have hin : t.2.id ∈ ((wantedOf compile req₁ (r req₁)).map wireStatic).map (·.id) := by
    rw [List.map_map]
    refine List.mem_map.mpr ⟨t.2.shortened req₁.stackDepth, ?_, rfl⟩
    unfold wantedOf
    exact List.mem_map.mpr ⟨t, List.mem_filter.mpr ⟨ht, by simpa using hsat⟩, rfl⟩
  simp only [hall, List.map_append, List.length_append, List.length_map] at e3
  obtain ⟨c1, c2⟩ := e3 (by omega)
  have h1 := List.count_pos_iff.mpr hin
  have h2 : 2 ≤ (data.response.traces.map (·.id)).count t.2.id := by
    rw [c1, List.count_append]
    omega
  refine ⟨resp, data, e1, e2, h2, ?_⟩
  intro hnd
  have := List.nodup_iff_count_le_one.mp hnd t.2.id
  omega

end

/-! ## Examples -/

private def mimes : List Char → Option String := fun l =>
  if l = "application/json".toList then some "application/json" else none

private def noRegexp : Compile := fun _ => .error ""
private def frac : Nat → Nat → Nat → Nat := fun f unit k => f * unit / 10 ^ k

private def asked (query : String) : SearchHTTP := { neg := { rawQuery := bytesOf query, accept := [] }, isJSON := false, body := none }

private def idsOf : Option HTTPResponse → Option (List String)
  | some ⟨200, .json v⟩ => (decData v).map fun d => d.response.traces.map (·.id)
  | _ => none

/-- A program with two traces, whose IDs are distinct; a server that asks its server twice has each of them twice in its answer. -/
example : ∃ (rb : Ring.RB Static) (outs : List (List Static)),
    Ring.exec 10 [.add (sampleTrace "a" 1 false false 0), .add (sampleTrace "b" 2 true false 3)] = some (rb, outs) ∧
    let program := collectorSearcher noRegexp sortNewest "s" still [rb] 5
    let server := handleSearch noRegexp frac (fun _ => 0) mimes (fun _ => true) program
    let client := clientSearcher [] server
    (∃ r, Holding noRegexp frac (fun _ => 0) mimes False 0 true program r ∧ (∀ req, ((r req).map fun t => t.2.id).Nodup) ∧
      ∀ req, ∃ t ∈ r req, ∀ compile, ({} : Filter).Sat compile t.1) ∧
    (∃ req, readRequest frac (fun _ => 0) (asked "n=4") = some req ∧ (∀ d ∈ req.bucketing, 0 ≤ d) ∧ req.filter = {}) ∧
    idsOf (server (asked "n=4")) = some ["b", "a"] ∧
    idsOf (handleSearch noRegexp frac (fun _ => 0) mimes (fun _ => true)
      (multiSearcher noRegexp sortNewest listed 0 1 7 [("1", client), ("2", client)]) (asked "n=4")) = some ["b", "b", "a", "a"] := by
  refine ⟨_, _, rfl, ⟨_, .collector 0 _ _ _ _ [[sampleTrace "b" 2 true false 3, sampleTrace "a" 1 false false 0]] _ sortNewest_sorts ⟨rfl, ?_⟩
    (by intro h; cases h) (by intro h; cases h), ?_, ?_⟩, ⟨requestOfURL frac (bytesOf "n=4"), rfl, ?_, rfl⟩, ?_, ?_⟩
  · intro rb hm
    obtain rfl := List.mem_singleton.mp hm
    exact ⟨10, [.add (sampleTrace "a" 1 false false 0), .add (sampleTrace "b" 2 true false 3)], _, rfl⟩
  · intro req
    show ["b", "a"].Nodup
    decide
  · intro req
    refine ⟨(sampleTrace "b" 2 true false 3, sampleTrace "b" 2 true false 3), List.mem_cons_self .., fun compile => ?_⟩
    simp [Filter.Sat, Filter.Basic]
  · decide +kernel
  · decide +kernel
  · decide +kernel

end Trc.Web
