import Verif.Props.NetTraces
import Verif.Props.Page
import Verif.Props.Ulid

/-!
# C144: the link of a trace leads to the trace

A page has a link for each trace, `?id=…` (traces.html:389-393), and one to its JSON. The theorems are about any network of collectors,
multi-searchers and servers as in C129, for IDs as `NewTrace` makes them (C99).
-/

namespace Trc.Web

open Trc Trc.Search

section
variable {compile : Compile} {mulFrac : Nat → Nat → Nat → Nat} {size : JSON → Nat} {mime : List Char → Option String} {orderly : Prop}

/-- An ID as the program makes them, see `C99_format`. -/
def IsID (id : String) : Prop := id.length = 26 ∧ ∀ c ∈ id.toList, c ∈ "0123456789ABCDEFGHJKMNPQRSTVWXYZ".toList

/-- The traces with the ID that the programs of the network hold, each as it is copied. -/
def withID (id : String) (held : List (Static × Static)) : List Static :=
  (held.filter fun t => decide (t.1.id = id)).map (·.2)

theorem id_plain {id : String} (h : IsID id) : Plain (bytesOf id) := by
  have hall : ("0123456789ABCDEFGHJKMNPQRSTVWXYZ".toList).all (fun c => (String.utf8EncodeChar c).all unreserved) = true := by
    decide +kernel
  have e : bytesOf id = id.toList.flatMap String.utf8EncodeChar := by
    rw [← bytesOf_ofList, String.ofList_toList]
  refine ⟨fun h0 => ?_, fun c hc => ?_⟩
  · have h1 : id = "" := bytesOf_inj (h0.trans (by decide +kernel))
    rw [h1] at h
    exact absurd h.1 (by decide +kernel)
  · rw [e] at hc
    obtain ⟨x, hx, hc⟩ := List.mem_flatMap.mp hc
    exact List.all_eq_true.mp (List.all_eq_true.mp hall x (h.2 x hx)) c hc

/-- **C144** Whoever follows the link of a trace, or the link to its JSON, gets the traces with its ID that the programs of the network
hold, with all their events and all of their stacks, if they are no more than ten. -/
theorem C144_link (hm : mime "application/json".toList = some "application/json") (ahead : Int) (s : Searcher)
    (r : SearchRequest → List (Static × Static)) (hs : Holding compile mulFrac size mime orderly ahead true s r)
    (renders : SearchData → Bool) (q : SearchHTTP) (hj : q.isJSON = false) (id : String) (hid : IsID id)
    (hq : q.neg.rawQuery = followed (traceLink id) ∨ q.neg.rawQuery = followed (traceJSONLink id))
    (hfew : ∀ req, (withID id (r req)).length ≤ 10) :
    ∃ req₁ resp data, handleSearch compile mulFrac size mime renders s q = some resp ∧ Gives resp data ∧
      data.response.traces.Perm (withID id (r req₁)) := by
  have hreq : readRequest mulFrac size q = some { filter := { ids := [id] }, limit := 10 } := by
    unfold readRequest
    rw [hj]
    obtain ⟨h1, h2, -⟩ := C89_trace_link mulFrac id (id_plain hid)
    rcases hq with hq | hq <;> rw [hq]
    · rw [h1]; rfl
    · rw [h2]; rfl
  obtain ⟨req₁, invalid, resp, data, rest, e, h1, h2, h3, h4, -⟩ := C129_traces hm ahead s r hs renders q _ hreq (by simp)
  obtain ⟨b, hb⟩ := normalizeBucketing_some ([] : List Duration)
  have e' : req₁ = { bucketing := b, filter := { ids := [id] }, limit := 10 } := by
    unfold SearchRequest.normalize at e
    rw [hb] at e
    simp only [Option.bind_eq_bind, Option.bind_some, Option.pure_def, Option.some.injEq, Prod.mk.injEq] at e
    rw [← e.1]
    rfl
  have hw : wantedOf compile req₁ (r req₁) = withID id (r req₁) := by
    unfold wantedOf withID
    rw [e']
    have hsh : ∀ t : Static, t.shortened 0 = t := by
      intro t
      simp [Static.shortened]
    simp only [hsh]
    congr 1
    refine List.filter_congr fun t _ => ?_
    simp [Filter.Sat, Filter.Basic]
  rw [hw] at h3 h4
  have hl : req₁.limit = 10 := by rw [e']
  have := h4 (by rw [hl]; exact_mod_cast hfew req₁)
  rw [this, List.append_nil] at h3
  exact ⟨req₁, resp, data, h1, h2, h3⟩

/-- **C144** The link to the JSON is answered with JSON, also if it is followed in a browser. -/
theorem C144_json (hm : mime "application/json".toList = some "application/json") (ahead : Int) (s : Searcher)
    (r : SearchRequest → List (Static × Static)) (hs : Holding compile mulFrac size mime orderly ahead true s r)
    (renders : SearchData → Bool) (q : SearchHTTP) (hj : q.isJSON = false) (id : String) (hid : IsID id)
    (hq : q.neg.rawQuery = followed (traceJSONLink id)) (hfew : ∀ req, (withID id (r req)).length ≤ 10) :
    ∃ req₁ data, handleSearch compile mulFrac size mime renders s q = some ⟨200, .json (encData data)⟩ ∧
      data.response.traces.Perm (withID id (r req₁)) := by
  obtain ⟨req₁, resp, data, h1, h2, h3⟩ := C144_link hm ahead s r hs renders q hj id hid (.inr hq) hfew
  have hh := (C89_trace_link mulFrac id (id_plain hid)).2.2
  unfold handleSearch at h1
  cases hr : readRequest mulFrac size q with
  | none =>
    rw [hr] at h1
    obtain rfl := Option.some.inj h1
    rcases h2 with h2 | h2 <;> cases h2
  | some req =>
    rw [hr] at h1
    simp only [Option.map_eq_some_iff] at h1
    obtain ⟨data', hd, rfl⟩ := h1
    have hjson : ∀ d, render mime renders q d = ⟨200, .json (encData d)⟩ := by
      intro d
      have : renderResponse mime q.neg = .json := by
        unfold renderResponse
        rw [hq, hh]
        simp
      unfold render
      rw [this]
    rw [hjson] at h2
    rcases h2 with h2 | h2
    · cases h2
    · refine ⟨req₁, data, ?_, h3⟩
      unfold handleSearch
      rw [hr]
      simp only [hd, Option.map_some, hjson]
      rw [Body.json.inj h2]

end

/-! ## Example -/

private def someMime : List Char → Option String := fun l =>
  if l = "application/json".toList then some "application/json" else if l = "text/html".toList then some "text/html" else none

private def noRegexp : Compile := fun _ => .error ""
private def frac : Nat → Nat → Nat → Nat := fun f unit k => f * unit / 10 ^ k

private def first : Static := sampleTrace "01HF7YAT00000000000000000A" 0 true false 1
private def second : Static := sampleTrace "01HF7YAT00000000000000000H" 1 true false 1

private def shownIDs : Option HTTPResponse → Option (List String)
  | some ⟨200, .json v⟩ => (decData v).map fun d => d.response.traces.map (·.id)
  | some ⟨200, .page d⟩ => some (d.response.traces.map (·.id))
  | _ => none

private def browser (link : Bytes) : SearchHTTP :=
  { neg := { rawQuery := followed link, accept := ["text/html".toList] }, isJSON := false, body := none }

/-- Two traces of a remote program, as found through another one: each link leads to its own, and that of a trace that is gone to none. -/
example : ∃ (rb : Ring.RB Static) (o : List (List Static)), Ring.exec 10 [.add first, .add second] = some (rb, o) ∧
    let c := collectorSearcher noRegexp sortNewest "s" still [rb] 5
    let remote := clientSearcher [] (handleSearch noRegexp frac (fun _ => 0) someMime (fun _ => true) c)
    let net := multiSearcher noRegexp sortNewest listed 0 1 7 [("1", remote)]
    let follow (link : Bytes) := shownIDs (handleSearch noRegexp frac (fun _ => 0) someMime (fun _ => true) net (browser link))
    (∃ r, Holding noRegexp frac (fun _ => 0) someMime False 0 true net r ∧
      ∀ req, withID first.id (r req) = [wireStatic first] ∧ withID "01HF7YAT00000000000000000Z" (r req) = []) ∧ IsID first.id ∧
    follow (traceLink first.id) = some [first.id] ∧ follow (traceJSONLink second.id) = some [second.id] ∧
    follow (traceLink "01HF7YAT00000000000000000Z") = some [] := by
  refine ⟨_, _, rfl, ⟨_, .multi 0 _ _ _ _ _
    [(("1", _), fun req => if 0 > 1048576 then [] else
        ([[second, first]].flatten.map fun c => (still c .filter, still c .copy)).map fun t => (t.1, wireStatic t.2))]
    sortNewest_sorts ?_, ?_⟩, ?_, ?_, ?_, ?_⟩
  · intro s hs
    obtain rfl := List.mem_singleton.mp hs
    refine .there _ 0 _ _ _ (fun _ => [[second, first]].flatten.map fun c => (still c .filter, still c .copy))
      (.collector 0 _ _ _ _ [[second, first]] _ sortNewest_sorts ⟨rfl, ?_⟩ (fun h => h.elim) (fun h => h.elim))
    intro rb hm
    obtain rfl := List.mem_singleton.mp hm
    exact ⟨10, [.add first, .add second], _, rfl⟩
  · intro req
    exact ⟨rfl, rfl⟩
  · exact ⟨by decide +kernel, by decide +kernel⟩
  all_goals decide +kernel

end Trc.Web
