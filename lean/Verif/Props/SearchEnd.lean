import Verif.Props.CmdSearch
import Verif.Props.Easy

/-!
# C103: what a program logs is what `trc search` prints
-/

set_option linter.unusedVariables false
set_option linter.unusedSectionVars false

namespace Trc.Cmd

open Trc.Web

/-! ## What should be printed -/

section
variable {α : Type} [Inhabited α] {compile : Compile} {mulFrac : Nat → Nat → Nat → Nat} {size : JSON → Nat} {mime : List Char → Option String}

open Classical in
/-- The traces that a server holds and that the flags ask for, as they are printed: with the stack frames asked for, and
without monotonic clock readings. -/
noncomputable def Site.wanted (c : SearchFlags) (s : Site compile mulFrac size mime α) : List Static :=
  match s.2 with
  | .inl l => (l.contents.flatten.filter fun x => c.filter.Wants compile (l.view x .filter)).map fun x => wireStatic (copyOf c.request l.view x)
  | .inr _ => []

/-- The number of traces to print, search.go:26, search_types.go:51-58. -/
def SearchFlags.most (c : SearchFlags) : Nat := (if c.limit ≤ 0 then 10 else min c.limit 250).toNat

open Classical in
/-- The server's wall clock ran in step with its monotonic clock, and no category holds more than `n` traces that the
flags ask for, unless they were added to it in the order of their start times and IDs. -/
def Live.InOrder (c : SearchFlags) {s : Remote} (l : Live compile mulFrac size mime α s) : Prop :=
  InStep (l.contents.flatten.map fun x => (l.view x .copy).started) ∧
  ∀ items ∈ l.contents, (items.filter fun x => c.filter.Wants compile (l.view x .filter)).length ≤ c.most ∨
    items.Pairwise fun a b => (l.view b .copy).less (l.view a .copy) = false

/-! ## Answers -/

/-- The traces in the answer of a server. -/
def Remote.answer (req : SearchRequest) (s : Remote) : List Static :=
  match searchClient s.rawQuery s.server req with
  | .ok reply => reply.traces
  | .error _ => []

theorem responses_answer (req : SearchRequest) (remotes : List Remote) :
    (responses (remotes.map (·.arrival req))).flatMap (·.traces) = remotes.flatMap (Remote.answer req) := by
  induction remotes with
  | nil => rfl
  | cons s remotes ih =>
    unfold responses at ih ⊢
    rw [List.map_cons, List.flatMap_cons, List.filterMap_cons]
    unfold Remote.arrival Remote.answer
    cases searchClient s.rawQuery s.server req with
    | ok reply => simp only [List.flatMap_cons]; exact congrArg _ ih
    | error e => simp only [List.nil_append]; exact ih

theorem limit_most (c : SearchFlags) : (limitOf c.request).toNat = c.most := by
  unfold limitOf SearchFlags.request SearchFlags.most
  simp only
  split
  · rfl
  · split
    · rw [Int.min_eq_right (by omega)]
    · rw [Int.min_eq_left (by omega)]

theorem exec_recent {srt : List Static → List Static} (hs : Sorts srt) (c : SearchFlags) (remotes : List Remote)
    {req : SearchRequest} {problems : List String} (hn : c.request.normalize compile = some (req, problems)) {out : Printed}
    (h : searchExec compile srt c remotes = some out) (ho : Ordered (remotes.flatMap (Remote.answer req))) :
    MostRecent c.most out.traces (remotes.flatMap (Remote.answer req)) := by
  unfold searchExec at h
  rw [hn] at h
  simp only [bind, Option.bind_some] at h
  obtain ⟨r, hr, h⟩ := Option.bind_eq_some_iff.mp h
  obtain rfl := Option.some.inj h
  have := C45_most_recent hs hr (by rw [responses_answer]; exact ho)
  rw [responses_answer, limit_most] at this
  exact this

/-- The answer of a server has what the search of its collector returns. -/
theorem live_exact (c : SearchFlags) {req : SearchRequest} {problems : List String} (hn : c.request.normalize compile = some (req, problems))
    (hsize : size (encRequest req) ≤ 1048576) (hm : mime "application/json".toList = some "application/json")
    {s : Remote} (l : Live compile mulFrac size mime α s) :
    ∃ res, search compile l.srt l.source c.request l.view l.rings = some res ∧ s.answer req = res.traces.map wireStatic := by
  obtain ⟨req', problems', hn', hfix, hfresh, hneg, hdepth⟩ := request_normalized (compile := compile) c
  rw [hn] at hn'
  obtain ⟨rfl, rfl⟩ := Prod.mk.inj (Option.some.inj hn')
  obtain ⟨res, hres, -⟩ :=
    C25_response compile l.srt l.sorts l.source c.request (request_fresh c) l.view l.rings l.contents l.holds l.distinct l.comparable
  have hsn := search_normalized compile l.srt l.source c.request req problems hn hfix l.view l.rings
  rw [hres] at hsn
  simp only [Option.map_some] at hsn
  have hlocal : collectorSearcher compile l.srt l.source l.view l.rings l.took req =
      some (req, .ok (some { ({ res with problems := [] } : SearchResponse).toResponse with request := some req, duration := l.took })) := by
    unfold collectorSearcher
    rw [hfix, hsn]
    rfl
  obtain ⟨reply, h1, h2, h3, h4, h5, -⟩ :=
    C71_remote_partial compile mulFrac size mime l.renders l.srt l.source req hfresh hneg hsize hm l.view l.rings l.took l.took s.rawQuery
      req _ hlocal
  refine ⟨res, hres, ?_⟩
  unfold Remote.answer
  rw [l.server, h1]
  exact h5

theorem answer_down (req : SearchRequest) {s : Remote} {e : String} (h : Down s e) : s.answer req = [] := by
  unfold Remote.answer
  rw [h req]

theorem answer_wire (c : SearchFlags) {req : SearchRequest} {problems : List String} (hn : c.request.normalize compile = some (req, problems))
    (hsize : size (encRequest req) ≤ 1048576) (hm : mime "application/json".toList = some "application/json")
    (s : Site compile mulFrac size mime α) : ∀ t ∈ s.1.answer req, ∃ u, t = wireStatic u := by
  obtain ⟨r, k⟩ := s
  cases k with
  | inl l =>
    obtain ⟨res, -, h⟩ := live_exact c hn hsize hm l
    rw [h]
    intro t ht
    obtain ⟨u, -, rfl⟩ := List.mem_map.mp ht
    exact ⟨u, rfl⟩
  | inr e => rw [answer_down req e.2]; intro t ht; cases ht

theorem ordered_wire {l : List Static} (h : ∀ t ∈ l, ∃ u, t = wireStatic u) : Ordered l := by
  refine ordered_comparable ⟨false, fun t ht => ?_⟩
  obtain ⟨x, hx, rfl⟩ := List.mem_map.mp ht
  obtain ⟨u, rfl⟩ := h x hx
  rfl

/-! ## Order -/

theorem less_wire {ts : List Time} (hc : Comparable ts) (hi : InStep ts) {a b : Static} (ha : a.started ∈ ts) (hb : b.started ∈ ts) :
    (wireStatic a).less (wireStatic b) = a.less b := by
  obtain ⟨m, hm⟩ := hc
  have h1 := hm _ ha
  have h2 := hm _ hb
  have hkey : a.started.key m - b.started.key m = a.started.wall - b.started.wall := by
    unfold Time.key
    cases m
    · simp
    · obtain ⟨x, hx⟩ := Option.isSome_iff_exists.mp h1
      obtain ⟨y, hy⟩ := Option.isSome_iff_exists.mp h2
      have := hi _ ha _ hb x y hx hy
      simp only [hx, hy, if_true, Option.getD_some]
      omega
  have hsub : (wireStatic a).started.sub (wireStatic b).started = a.started.sub b.started := by
    rw [sub_key h1 h2, hkey, sub_key (m := false) rfl rfl]
    rfl
  unfold Static.less Time.after Time.before
  rw [hsub]
  rfl

theorem trim_less (d e : Int) (a b : Static) : (a.trimStacks d).less (b.trimStacks e) = a.less b := by
  have h : ∀ (d : Int) (a : Static), (a.trimStacks d).id = a.id := by intro d a; unfold Static.trimStacks; split <;> rfl
  unfold Static.less
  rw [trimStacks_started, trimStacks_started, h, h]

theorem holds_map {n : Nat} {f : Static → Static} {l all : List Static} (h : Holds n l all)
    (hf : ∀ a ∈ all, ∀ b ∈ all, (f a).less (f b) = a.less b) : Holds n (l.map f) (all.map f) := by
  obtain ⟨rest, h1, h2, h3⟩ := h
  refine ⟨rest.map f, by rw [← List.map_append]; exact h1.map f, fun h => ?_, ?_⟩
  · rw [List.length_map]
    exact h2 fun e => h (by rw [e]; rfl)
  · intro t ht u hu
    obtain ⟨t', ht', rfl⟩ := List.mem_map.mp ht
    obtain ⟨u', hu', rfl⟩ := List.mem_map.mp hu
    rw [hf _ (h1.mem_iff.mp (List.mem_append_right _ hu')) _ (h1.mem_iff.mp (List.mem_append_left _ ht'))]
    exact h3 t' ht' u' hu'

/-- The first `n` of a list. -/
theorem holds_take {n : Nat} {l : List Static} (h : l.length ≤ n ∨ l.Pairwise fun a b => b.less a = false) : Holds n (l.take n) l := by
  refine ⟨l.drop n, by rw [List.take_append_drop], fun h => ?_, ?_⟩
  · rw [List.length_take]
    have : n < l.length := by
      rcases Nat.lt_or_ge n l.length with h' | h'
      · exact h'
      · exact absurd (List.drop_eq_nil_of_le h') h
    omega
  · rcases h with h | h
    · rw [List.drop_eq_nil_of_le h]
      intro t _ u hu
      cases hu
    · rw [← List.take_append_drop n l, List.pairwise_append] at h
      exact h.2.2

theorem filter_flatten {β : Type} (p : β → Bool) (l : List (List β)) : l.flatMap (·.filter p) = l.flatten.filter p := by
  induction l with
  | nil => rfl
  | cons a l ih => rw [List.flatMap_cons, List.flatten_cons, List.filter_append, ih]

open Classical in
/-- What a search returns of what matches. -/
theorem search_holds (c : SearchFlags) {s : Remote} (l : Live compile mulFrac size mime α s) {res : SearchResponse}
    (h : search compile l.srt l.source c.request l.view l.rings = some res)
    (hsmall : (l.contents.flatten.filter fun x => c.filter.Wants compile (l.view x .filter)).length ≤ c.most ∨ l.InOrder c) :
    Holds c.most (res.traces.map wireStatic)
      ((l.contents.flatten.filter fun x => c.filter.Wants compile (l.view x .filter)).map fun x => wireStatic (copyOf c.request l.view x)) := by
  obtain ⟨req', problems, res', sel, h1, h2, hl, h3, h4, h5, p1, p2, h6, -⟩ :=
    search_chosen compile l.srt l.sorts l.source c.request (request_fresh c) l.view l.rings l.contents l.holds
  rw [h] at h2
  obtain rfl := Option.some.inj h2
  have hallow : ∀ items : List α, allowed compile req'.filter l.view items =
      items.filter fun x => c.filter.Wants compile (l.view x .filter) := by
    intro items
    unfold allowed
    refine List.filter_congr fun x _ => ?_
    have := selected_sat (view := l.view) (c := x) (request_fresh c) h5
    rw [Bool.eq_iff_iff, this, decide_eq_true_iff, wants_iff]
    rfl
  have hselected : ∀ items : List α, selected compile req' l.view items =
      (items.filter fun x => c.filter.Wants compile (l.view x .filter)).take c.most := by
    intro items
    unfold selected
    rw [hallow, hl, limit_most]
  rw [limit_most] at h6
  rcases hsmall with hsmall | ⟨hstep, hord⟩
  · have hall : l.contents.flatMap (selected compile req' l.view) =
        l.contents.flatten.filter fun x => c.filter.Wants compile (l.view x .filter) := by
      rw [← filter_flatten]
      rw [← filter_flatten] at hsmall
      clear p1 p2 h6 h
      generalize l.contents = contents at hsmall ⊢
      induction contents with
      | nil => rfl
      | cons items contents ih =>
        rw [List.flatMap_cons, List.length_append] at hsmall
        rw [List.flatMap_cons, List.flatMap_cons, hselected, List.take_of_length_le (by omega), ih (by omega)]
    rw [hall] at p1
    refine ⟨[], ?_, by simp, by simp⟩
    rw [h6, List.append_nil, List.map_map, List.take_of_length_le (by rw [p1.length_eq]; exact hsmall)]
    exact p1.map _
  · obtain ⟨m, hcm⟩ := l.comparable
    have hmono : ∀ x ∈ l.contents.flatten, (copyOf c.request l.view x).started.mono.isSome = m := fun x hx => by
      rw [copyOf_started]
      exact hcm _ (List.mem_map_of_mem (f := fun c => (l.view c .copy).started) hx)
    -- categories
    have hsrc := mostRecent_sources (n := c.most)
      (l.contents.map fun items => ((selected compile req' l.view items).map (copyOf c.request l.view),
        (items.filter fun x => c.filter.Wants compile (l.view x .filter)).map (copyOf c.request l.view)))
      (by
        intro p hp
        obtain ⟨items, hi, rfl⟩ := List.mem_map.mp hp
        simp only
        rw [hselected, List.map_take]
        refine holds_take ?_
        rcases hord items hi with h | h
        · exact .inl (by rw [List.length_map]; exact h)
        · right
          rw [List.pairwise_map]
          exact (h.imp fun h => by rw [copyOf_trim, copyOf_trim, trim_less]; exact h).sublist List.filter_sublist)
      (by
        refine ordered_comparable ⟨m, fun t ht => ?_⟩
        obtain ⟨u, hu, rfl⟩ := List.mem_map.mp ht
        rw [List.flatMap_map] at hu
        obtain ⟨items, hi, hu⟩ := List.mem_flatMap.mp hu
        obtain ⟨x, hx, rfl⟩ := List.mem_map.mp hu
        exact hmono x (List.mem_flatten.mpr ⟨items, hi, List.mem_of_mem_filter hx⟩))
      (l := (sel.map (copyOf c.request l.view)).take c.most) (by
        rw [List.flatMap_map]
        have hflat : (l.contents.flatMap fun items => (selected compile req' l.view items).map (copyOf c.request l.view)) =
            (l.contents.flatMap (selected compile req' l.view)).map (copyOf c.request l.view) := by
          rw [List.map_flatMap]
        rw [hflat]
        have hcmp : Comparable (((l.contents.flatMap (selected compile req' l.view)).map (copyOf c.request l.view)).map (·.started)) := by
          refine ⟨m, fun t ht => ?_⟩
          simp only [List.map_map, List.mem_map, Function.comp] at ht
          obtain ⟨x, hx, rfl⟩ := ht
          exact hmono x ((flatMap_selected_sublist compile req' l.view l.contents).subset hx)
        have hsorted := l.sorts.sorted _ hcmp
        have hperm := l.sorts.perm ((l.contents.flatMap (selected compile req' l.view)).map (copyOf c.request l.view))
        rw [p2] at hsorted hperm
        have hh := hsorted
        unfold NewestFirst at hh
        rw [← List.take_append_drop c.most (sel.map (copyOf c.request l.view)), List.pairwise_append] at hh
        refine ⟨hh.1, List.length_take_le .., (sel.map (copyOf c.request l.view)).drop c.most, by rw [List.take_append_drop]; exact hperm, ?_, hh.2.2⟩
        intro hne
        rw [List.length_take]
        have : c.most < (sel.map (copyOf c.request l.view)).length := by
          rcases Nat.lt_or_ge c.most (sel.map (copyOf c.request l.view)).length with h' | h'
          · exact h'
          · exact absurd (List.drop_eq_nil_of_le h') hne
        omega)
    have hall : ((l.contents.map fun items => ((selected compile req' l.view items).map (copyOf c.request l.view),
        (items.filter fun x => c.filter.Wants compile (l.view x .filter)).map (copyOf c.request l.view))).flatMap (·.2)) =
        (l.contents.flatten.filter fun x => c.filter.Wants compile (l.view x .filter)).map (copyOf c.request l.view) := by
      rw [List.flatMap_map, ← filter_flatten, List.map_flatMap]
    rw [hall] at hsrc
    rw [← List.map_take, ← h6] at hsrc
    have := holds_map (f := wireStatic) hsrc.2.2 (by
      intro a ha b hb
      obtain ⟨x, hx, rfl⟩ := List.mem_map.mp ha
      obtain ⟨y, hy, rfl⟩ := List.mem_map.mp hb
      refine less_wire ⟨m, hcm⟩ hstep ?_ ?_
      · rw [copyOf_started]; exact List.mem_map_of_mem (f := fun c => (l.view c .copy).started) (List.mem_of_mem_filter hx)
      · rw [copyOf_started]; exact List.mem_map_of_mem (f := fun c => (l.view c .copy).started) (List.mem_of_mem_filter hy))
    rw [List.map_map] at this
    exact this

/-- What a server answers of what it holds. -/
theorem site_holds (c : SearchFlags) {req : SearchRequest} {problems : List String} (hn : c.request.normalize compile = some (req, problems))
    (hsize : size (encRequest req) ≤ 1048576) (hm : mime "application/json".toList = some "application/json")
    (s : Site compile mulFrac size mime α) (h : (s.wanted c).length ≤ c.most ∨ ∀ l, s.2 = .inl l → l.InOrder c) :
    Holds c.most (s.1.answer req) (s.wanted c) := by
  obtain ⟨r, k⟩ := s
  cases k with
  | inl l =>
    obtain ⟨res, h1, h2⟩ := live_exact c hn hsize hm l
    rw [h2]
    refine search_holds c l h1 ?_
    rcases h with h | h
    · left
      unfold Site.wanted at h
      rw [List.length_map] at h
      exact h
    · exact .inr (h l rfl)
  | inr e =>
    rw [answer_down req e.2]
    exact ⟨[], List.Perm.refl _, by simp, by simp⟩

/-! ## C103 -/

theorem exec_wanted {srt : List Static → List Static} (hs : Sorts srt) (c : SearchFlags)
    (sites : List (Site compile mulFrac size mime α)) (req : SearchRequest) (problems : List String)
    (hn : c.request.normalize compile = some (req, problems))
    (hsize : size (encRequest req) ≤ 1048576) (hm : mime "application/json".toList = some "application/json")
    (out : Printed) (hout : searchExec compile srt c (sites.map (·.1)) = some out)
    (h : ∀ s ∈ sites, (s.wanted c).length ≤ c.most ∨ ∀ l, s.2 = .inl l → l.InOrder c) :
    MostRecent c.most out.traces (sites.flatMap (Site.wanted c)) := by
  have hans : (sites.map (·.1)).flatMap (Remote.answer req) = sites.flatMap fun s => s.1.answer req := by rw [List.flatMap_map]
  have h1 := exec_recent hs c (sites.map (·.1)) hn hout (ordered_wire (by
    intro t ht
    rw [hans] at ht
    obtain ⟨s, hs, ht⟩ := List.mem_flatMap.mp ht
    exact answer_wire c hn hsize hm s t ht))
  rw [hans] at h1
  have e1 : (sites.map fun s => (s.1.answer req, s.wanted c)).flatMap (·.1) = sites.flatMap fun s => s.1.answer req := by rw [List.flatMap_map]
  have e2 : (sites.map fun s => (s.1.answer req, s.wanted c)).flatMap (·.2) = sites.flatMap (Site.wanted c) := by rw [List.flatMap_map]
  rw [← e1] at h1
  rw [← e2]
  refine mostRecent_sources _ ?_ ?_ h1
  · intro p hp
    obtain ⟨s, hs, rfl⟩ := List.mem_map.mp hp
    exact site_holds c hn hsize hm s (h s hs)
  · rw [e2]
    refine ordered_wire fun t ht => ?_
    obtain ⟨⟨r, k⟩, -, ht⟩ := List.mem_flatMap.mp ht
    cases k with
    | inl l =>
      obtain ⟨x, -, rfl⟩ := List.mem_map.mp ht
      exact ⟨_, rfl⟩
    | inr e => cases ht

/-- **C103** If at most `--limit` traces at all the servers satisfy the flags, then exactly these are printed, each once. -/
theorem C103_all {srt : List Static → List Static} (hs : Sorts srt) (c : SearchFlags)
    (sites : List (Site compile mulFrac size mime α)) (req : SearchRequest) (problems : List String)
    (hn : c.request.normalize compile = some (req, problems))
    (hsize : size (encRequest req) ≤ 1048576) (hm : mime "application/json".toList = some "application/json")
    (out : Printed) (hout : searchExec compile srt c (sites.map (·.1)) = some out)
    (h : (sites.flatMap (Site.wanted c)).length ≤ c.most) :
    out.traces.Perm (sites.flatMap (Site.wanted c)) ∧ NewestFirst out.traces := by
  obtain ⟨h1, h2, rest, h3, h4, -⟩ := exec_wanted hs c sites req problems hn hsize hm out hout (by
    intro s hs
    left
    obtain ⟨a, b, rfl⟩ := List.append_of_mem hs
    rw [List.flatMap_append, List.flatMap_cons, List.length_append, List.length_append] at h
    omega)
  cases rest with
  | nil => rw [List.append_nil] at h3; exact ⟨h3, h1⟩
  | cons u rest =>
    have := h3.length_eq
    rw [List.length_append, List.length_cons, h4 (by simp)] at this
    omega

/-- **C103** The most recent of the traces at all the servers that satisfy the flags are printed.  (Partial: servers with more
of them than `--limit` have to have added them in the order of their start times; see `C103_recent_violated`.) -/
theorem C103_recent_partial {srt : List Static → List Static} (hs : Sorts srt) (c : SearchFlags)
    (sites : List (Site compile mulFrac size mime α)) (req : SearchRequest) (problems : List String)
    (hn : c.request.normalize compile = some (req, problems))
    (hsize : size (encRequest req) ≤ 1048576) (hm : mime "application/json".toList = some "application/json")
    (out : Printed) (hout : searchExec compile srt c (sites.map (·.1)) = some out)
    (h : ∀ s ∈ sites, (s.wanted c).length ≤ c.most ∨ ∀ l, s.2 = .inl l → l.InOrder c) :
    ∃ rest, (out.traces ++ rest).Perm (sites.flatMap (Site.wanted c)) ∧ (rest ≠ [] → out.traces.length = c.most) ∧
      ∀ t ∈ out.traces, ∀ u ∈ rest, u.started.after t.started = false := by
  have := exec_wanted hs c sites req problems hn hsize hm out hout h
  exact (C45_start_times this).2.2

end

/-- What is needed of package mime. -/
def acceptsJSON : List Char → Option String := fun l => if l = "application/json".toList then some "application/json" else none

/-- **C103** is violated: of two traces the newer one was added first, and with `--limit 1` the older one is printed. -/
theorem C103_recent_violated :
    ∃ (site : Site (fun _ => .error "") (fun _ _ _ => 0) (fun _ => 0) acceptsJSON Static) (out : Printed),
      searchExec (fun _ => .error "") sortNewest { limit := 1 } [site.1] = some out ∧ out.traces.length = 1 ∧
      ∃ t ∈ out.traces, ∃ u ∈ site.wanted { limit := 1 }, u.started.after t.started = true := by
  obtain ⟨rb, h1, h2⟩ := Ring.rep_exec (α := Static) 10 [.add (sampleTrace "b" 2 false false 0), .add (sampleTrace "a" 1 false false 0)]
  obtain ⟨rb', outs, out, g1, g2, g3⟩ : ∃ (rb : Ring.RB Static) (outs : List (List Static)) (out : Printed),
      Ring.exec 10 [.add (sampleTrace "b" 2 false false 0), .add (sampleTrace "a" 1 false false 0)] = some (rb, outs) ∧
      searchExec (fun _ => .error "") sortNewest { limit := 1 }
        [{ uri := "up", server := handleSearch (fun _ => .error "") (fun _ _ _ => 0) (fun _ => 0) acceptsJSON (fun _ => true)
            (collectorSearcher (fun _ => .error "") sortNewest "s" still [rb] 0) }] = some out ∧
      out.traces = [sampleTrace "a" 1 false false 0] := by
    refine ⟨_, _, _, rfl, rfl, ?_⟩
    decide +kernel
  have hrb : rb' = rb := by
    have := g1.symm.trans h1
    exact (Prod.mk.inj (Option.some.inj this)).1
  subst hrb
  refine ⟨⟨{ uri := "up", server := _ }, .inl
      { source := "s", srt := sortNewest, sorts := sortNewest_ok, view := still, rings := [rb']
        contents := [[sampleTrace "a" 1 false false 0, sampleTrace "b" 2 false false 0]]
        holds := ⟨by simp only [List.map_cons, List.map_nil, Ring.walkAll_spec h2]; rfl, ?_⟩
        distinct := by decide +kernel
        comparable := ⟨false, by decide +kernel⟩, took := 0, renders := fun _ => true, server := rfl }⟩, out, g2, by rw [g3]; rfl,
      sampleTrace "a" 1 false false 0, by rw [g3]; simp, sampleTrace "b" 2 false false 0, ?_, by decide +kernel⟩
  · intro r hr
    simp at hr
    subst hr
    exact ⟨10, _, _, h1⟩
  · unfold Site.wanted
    simp only
    refine List.mem_map.mpr ⟨sampleTrace "b" 2 false false 0, List.mem_filter.mpr ⟨by simp, ?_⟩, by decide +kernel⟩
    exact @decide_eq_true _ (Classical.propDecidable _) (by simp [FilterFlags.Wants])

/-! ## From the program to the output -/

section
open Core Core.Spec Fmt Wrap
variable {W A : Type} [Render W A] [Arg A] [Humanize]

/-- C103 for a trace made by `NewTrace`. -/
theorem printed_new (fin : Bool) (settings : List Setting) (cap : Nat)
    (ctx : Ctx A) (hctx : maybeGet ctx = none) (a : Nat) (id source category : String) (ds : List (Decorator A))
    (hd : ∀ d ∈ ds, d.Tame) (stack : List StdFrame) (ctx' : Ctx A) (tr : Tr A) (acts : List (Act A))
    (hnew : newTrace ctx a id source category ds stack = (ctx', tr, acts))
    (lines : List (Line A)) (hlines : ∀ l ∈ lines, Below ctx' l.ctx l.prefixes ∧ Wrap.Fits l.prefixes)
    (hmax : (lines.length : Int) ≤ (Globals.after settings).traceMaxEvents)
    (ex : List (AEnv W × Act A)) (w : World A)
    (hrun : ({ globals := Globals.after settings, cats := Ring.newRBs (cap : Int) } : World A).run ex = some w)
    (hmine : (ex.map Prod.snd).filter (·.concerns a) = (acts ++ lines.flatMap Line.acts ++ if fin then tr.finishActs else []).filter (·.concerns a))
    (hid : ∀ env, (env, .make a source category) ∈ ex → env.id = id)
    (hrecent : ∀ before env after, ex = before ++ (env, .retain category tr) :: after →
      after.countP (fun p => p.2.retainsIn category) < cap)
    -- the servers
    (compile : Compile) (mulFrac : Nat → Nat → Nat → Nat) (size : JSON → Nat) (mime : List Char → Option String)
    (pre post : List (Site compile mulFrac size mime (Tr A))) (s : Remote) (l : Live compile mulFrac size mime (Tr A) s)
    (hview : ∀ look, ShownIn (W := W) w a (l.view tr look)) (hothers : ∀ v look, v.root ≠ a → (l.view v look).id ≠ id)
    (hrings : l.rings.Perm (w.cats.bufs.map Prod.snd))
    (helsewhere : ∀ s' ∈ pre ++ post, ∀ l', s'.2 = .inl l' → ∀ x ∈ l'.contents.flatten, (l'.view x .filter).id ≠ id)
    -- the command
    (srt : List Static → List Static) (hs : Sorts srt) (c : SearchFlags) (hc : c.filter = { ids := [id] })
    (req : SearchRequest) (problems : List String) (hn : c.request.normalize compile = some (req, problems))
    (hsize : size (encRequest req) ≤ 1048576) (hm : mime "application/json".toList = some "application/json")
    (out : Printed) (hout : searchExec compile srt c ((pre ++ ⟨s, .inl l⟩ :: post).map (·.1)) = some out) :
    ∃ st start calls ended, out.traces = [st] ∧
      st.id = id ∧ st.source = source ∧ st.category = category ∧ st.finished = fin ∧
      (start, Act.make a source category) ∈ ex ∧ callsOn a ex = calls ++ ended ∧ calls.length = lines.length ∧
      ended.map Prod.snd = (if fin then [.finish] else []) ∧ st.started = start.now.onWire ∧ (∀ e ∈ ended, st.duration = e.1.now.sub start.now) ∧
      (st.errored = true ↔ ∃ l ∈ lines, isErr l.kind = true) ∧
      st.events.length = lines.length ∧
      ∀ (i : Nat) ev l c', st.events[i]? = some ev → lines[i]? = some l → calls[i]? = some c' →
        ev.isError = isErr l.kind ∧ ev.when_ = c'.1.now.onWire ∧ ev.stack <+: programFrames l.stack ∧ (ev.stack.length : Int) ≤ max c.stackDepth 0 ∧
        ∃ m : W, ev.what = prefixTexts m l.prefixes ++ sprintf m l.format l.args ∧ (isLazy l.kind = false → m = c'.1.w) := by
  obtain ⟨res, st, start, calls, ended, h1, h2, -, h4, h5, h6, h7, h8, h9, h10, h11, h12, h13, h14, h15, h16⟩ :=
    found_new (W := W) fin settings cap ctx hctx a id source category ds hd stack ctx' tr acts hnew lines hlines hmax ex w hrun hmine hid hrecent
      compile l.srt l.sorts l.source c.request (by unfold SearchFlags.request; rw [hc]; rfl) l.view hview hothers l.rings hrings
  obtain ⟨res', e1, e2⟩ := live_exact c hn hsize hm l
  rw [h1] at e1
  obtain rfl := Option.some.inj e1
  rw [h2] at e2
  -- the other servers have nothing
  have hnone : ∀ s' ∈ pre ++ post, s'.1.answer req = [] := by
    intro ⟨r, k⟩ hmem
    cases k with
    | inr e => exact answer_down req e.2
    | inl l' =>
      obtain ⟨reply, ss, g1, -, -, -, -, g2⟩ := live_answer c hn hsize hm l'
      unfold Remote.answer
      rw [g1]
      simp only
      refine List.eq_nil_iff_forall_not_mem.mpr fun t ht => ?_
      obtain ⟨x, rfl, hx, hsat⟩ := g2 t ht
      have := (wants_iff compile c.filter _).mpr hsat
      rw [hc] at this
      have := this.2.1 (by simp)
      rw [List.mem_singleton] at this
      exact helsewhere _ hmem l' rfl x hx this
  have hflat : ((pre ++ ⟨s, .inl l⟩ :: post).map (·.1)).flatMap (Remote.answer req) = [wireStatic st] := by
    have hz : ∀ ls : List (Site compile mulFrac size mime (Tr A)), (∀ s' ∈ ls, s'.1.answer req = []) → (ls.map (·.1)).flatMap (Remote.answer req) = [] := by
      intro ls h
      rw [List.flatMap_map, List.flatMap_eq_nil_iff]
      exact h
    rw [List.map_append, List.flatMap_append, List.map_cons, List.flatMap_cons, hz pre fun s' h => hnone s' (List.mem_append_left _ h),
      hz post fun s' h => hnone s' (List.mem_append_right _ h), e2]
    rfl
  have hrec := exec_recent hs c _ hn hout (ordered_wire (by rw [hflat]; intro t ht; exact ⟨st, List.mem_singleton.mp ht⟩))
  rw [hflat] at hrec
  obtain ⟨-, -, rest, r1, r2, -⟩ := hrec
  have hmost : 1 ≤ c.most := by rw [← limit_most]; have := (limitOf_pos c.request).1; omega
  have htraces : out.traces = [wireStatic st] := by
    have hlen := r1.length_eq
    rw [List.length_append, List.length_singleton] at hlen
    have hrest : rest = [] := by
      cases rest with
      | nil => rfl
      | cons u rest =>
        have := r2 (by simp)
        rw [List.length_cons] at hlen
        omega
    rw [hrest, List.append_nil] at r1
    exact List.perm_singleton.mp r1
  -- the stack frames
  obtain ⟨res2, k1, -, -, -, -, cs, -, k2, -⟩ :=
    C25_response compile l.srt l.sorts l.source c.request (request_fresh c) l.view l.rings l.contents l.holds l.distinct l.comparable
  rw [h1] at k1
  obtain rfl := Option.some.inj k1
  rw [h2] at k2
  obtain ⟨y, hy⟩ : ∃ y, st = copyOf c.request l.view y := by
    have : st ∈ cs.map (copyOf c.request l.view) := by rw [← k2]; simp
    obtain ⟨y, -, hy⟩ := List.mem_map.mp this
    exact ⟨y, hy.symm⟩
  refine ⟨wireStatic st, start, calls, ended, htraces, h4, h5, h6, h7, h8, h9, h10, h11, ?_, h13, h14, ?_, ?_⟩
  · show st.started.onWire = _
    rw [h12]
  · show (st.events.map wireEvent).length = _
    rw [List.length_map, h15]
  · intro i ev ln c' g1 g2 g3
    have g1 : (st.events.map wireEvent)[i]? = some ev := g1
    rw [List.getElem?_map] at g1
    obtain ⟨ev', g4, rfl⟩ := Option.map_eq_some_iff.mp g1
    obtain ⟨q1, q2, q3, q4⟩ := h16 i ev' ln c' g4 g2 g3
    refine ⟨q1, by show ev'.when_.onWire = _; rw [q2], q3, ?_, q4⟩
    show (ev'.stack.length : Int) ≤ _
    refine C85_stack_depth c (l.view y .copy) ev' ?_
    have := List.mem_of_getElem? g4
    rw [hy, copyOf_trim] at this
    exact this

/-- **C103** A program traces and logs with eztrc, as in `C95_found`, and its server is among those that `trc search` is given; the
others, some of which may be down, have no trace with that ID.  Then `trc search --id` prints that trace and
nothing else: with its source, category, start time, outcome and, if it has finished, its duration, and an event for each line that was
logged, in order, with its text, its time and the frames of the program, at most `--stack-depth` of
them. -/
theorem C103_found (fin : Bool) (settings : List Setting) (cap : Nat)
    (ctx : Ctx A) (hctx : maybeGet ctx = none) (a : Nat) (id source category : String) (ds : List (Decorator A))
    (hd : ∀ d ∈ ds, d.Tame) (stack : List StdFrame) (ctx' : Ctx A) (tr : Tr A) (acts : List (Act A))
    (hnew : ezNew ctx a id source category ds stack = (ctx', tr, acts))
    (lines : List (Line A)) (hlines : ∀ l ∈ lines, Below ctx' l.ctx l.prefixes ∧ Wrap.Fits l.prefixes)
    (hmax : (lines.length : Int) ≤ (Globals.after settings).traceMaxEvents)
    (ex : List (AEnv W × Act A)) (w : World A)
    (hrun : ({ globals := Globals.after settings, cats := Ring.newRBs (cap : Int) } : World A).run ex = some w)
    (hmine : (ex.map Prod.snd).filter (·.concerns a) = (acts ++ lines.flatMap Line.acts ++ if fin then tr.finishActs else []).filter (·.concerns a))
    (hid : ∀ env, (env, .make a source category) ∈ ex → env.id = id)
    (hrecent : ∀ before env after, ex = before ++ (env, .retain category tr) :: after →
      after.countP (fun p => p.2.retainsIn category) < cap)
    -- the servers
    (compile : Compile) (mulFrac : Nat → Nat → Nat → Nat) (size : JSON → Nat) (mime : List Char → Option String)
    (pre post : List (Site compile mulFrac size mime (Tr A))) (s : Remote) (l : Live compile mulFrac size mime (Tr A) s)
    (hview : ∀ look, ShownIn (W := W) w a (l.view tr look)) (hothers : ∀ v look, v.root ≠ a → (l.view v look).id ≠ id)
    (hrings : l.rings.Perm (w.cats.bufs.map Prod.snd))
    (helsewhere : ∀ s' ∈ pre ++ post, ∀ l', s'.2 = .inl l' → ∀ x ∈ l'.contents.flatten, (l'.view x .filter).id ≠ id)
    -- the command
    (srt : List Static → List Static) (hs : Sorts srt) (c : SearchFlags) (hc : c.filter = { ids := [id] })
    (req : SearchRequest) (problems : List String) (hn : c.request.normalize compile = some (req, problems))
    (hsize : size (encRequest req) ≤ 1048576) (hm : mime "application/json".toList = some "application/json")
    (out : Printed) (hout : searchExec compile srt c ((pre ++ ⟨s, .inl l⟩ :: post).map (·.1)) = some out) :
    ∃ st start calls ended, out.traces = [st] ∧
      st.id = id ∧ st.source = source ∧ st.category = category ∧ st.finished = fin ∧
      (start, Act.make a source category) ∈ ex ∧ callsOn a ex = calls ++ ended ∧ calls.length = lines.length ∧
      ended.map Prod.snd = (if fin then [.finish] else []) ∧ st.started = start.now.onWire ∧ (∀ e ∈ ended, st.duration = e.1.now.sub start.now) ∧
      (st.errored = true ↔ ∃ l ∈ lines, isErr l.kind = true) ∧
      st.events.length = lines.length ∧
      ∀ (i : Nat) ev l c', st.events[i]? = some ev → lines[i]? = some l → calls[i]? = some c' →
        ev.isError = isErr l.kind ∧ ev.when_ = c'.1.now.onWire ∧ ev.stack <+: programFrames l.stack ∧ (ev.stack.length : Int) ≤ max c.stackDepth 0 ∧
        ∃ m : W, ev.what = prefixTexts m l.prefixes ++ sprintf m l.format l.args ∧ (isLazy l.kind = false → m = c'.1.w) :=
  printed_new fin settings cap ctx hctx a id source category ds hd _ ctx' tr acts hnew lines hlines hmax ex w hrun hmine hid hrecent
    compile mulFrac size mime pre post s l hview hothers hrings helsewhere srt hs c hc req problems hn hsize hm out hout

end

end Trc.Cmd

/-! ## Examples -/

namespace Trc.Wrap.Witness.Easy

open Cmd Web

/-- The program of the example of C95, a server for it and one that is down; `trc search --id m --stack-depth 1`. -/
example : ∃ (sites : List (Site (fun _ => .error "") (fun _ _ _ => 0) (fun _ => 0) acceptsJSON (Tr String))) (w : World String)
    (s : Remote) (l : Live (fun _ => .error "") (fun _ _ _ => 0) (fun _ => 0) acceptsJSON (Tr String) s), final = some w ∧
    sites.length = 2 ∧ ⟨s, .inl l⟩ ∈ sites ∧ (∀ look, ShownIn (W := Unit) w 0 (l.view mine.2.1 look)) ∧
    l.rings = w.cats.bufs.map Prod.snd ∧ l.contents.flatten.length = 2 := by
  obtain ⟨w, hw⟩ := Option.isSome_iff_exists.mp final_some
  obtain ⟨rb, h1, h2⟩ := Ring.rep_exec (α := Tr String) 10 [.add mine.2.1, .add theirs.2.1]
  have hb : w.cats.bufs.map Prod.snd = [rb] := by
    have e : final.map (fun w => w.cats.bufs.map Prod.snd) = (Ring.exec ((10 : Nat) : Int) [.add mine.2.1, .add theirs.2.1]).map (fun p => [p.1]) := rfl
    rw [hw, h1] at e
    exact Option.some.inj e
  obtain ⟨s, l, l1, l2, l3⟩ : ∃ (s : Remote) (l : Live (fun _ => .error "") (fun _ _ _ => 0) (fun _ => 0) acceptsJSON (Tr String) s),
      l.view = shown ∧ l.rings = w.cats.bufs.map Prod.snd ∧ l.contents = [[theirs.2.1, mine.2.1]] := by
    refine ⟨{ uri := "up", server := _ },
      { source := "s", srt := sortNewest, sorts := sortNewest_ok, view := shown, rings := w.cats.bufs.map Prod.snd
        contents := [[theirs.2.1, mine.2.1]]
        holds := ⟨by rw [hb]; simp only [List.map_cons, List.map_nil, Ring.walkAll_spec h2]; rfl, ?_⟩
        distinct := ?_
        comparable := ⟨false, ?_⟩, took := 0, renders := fun _ => true, server := rfl }, rfl, rfl, rfl⟩
    · intro r hr
      rw [hb, List.mem_singleton] at hr
      subst hr
      exact ⟨10, _, _, h1⟩
    · have hne : theirs.2.1 ≠ mine.2.1 := fun e => absurd (congrArg Tr.root e) (by decide)
      simp [hne]
    · intro t ht
      simp only [List.flatten_cons, List.flatten_nil, List.append_nil, List.map_cons, List.map_nil, List.mem_cons, List.not_mem_nil, or_false] at ht
      have e1 : (shown theirs.2.1 .copy).started.mono.isSome = false := by decide +kernel
      have e2 : (shown mine.2.1 .copy).started.mono.isSome = false := by decide +kernel
      rcases ht with h | h
      · rw [h]; exact e1
      · rw [h]; exact e2
  refine ⟨[⟨s, .inl l⟩, ⟨{ uri := "down", server := fun _ => none }, .inr ⟨"execute HTTP request", fun _ => rfl⟩⟩], w, s, l, hw, rfl,
    List.mem_cons_self .., ?_, l2, by rw [l3]; rfl⟩
  rw [l1]
  exact shown_mine w hw

end Trc.Wrap.Witness.Easy

namespace Trc.Cmd

open Trc.Web

/-- A run of `trc search --finished` over a server and one that is down, within the limit. -/
example : ∃ (site : Site (fun _ => .error "") (fun _ _ _ => 0) (fun _ => 0) acceptsJSON Static) (out : Printed),
    searchExec (fun _ => .error "") sortNewest { filter := { isFinished := true } } [site.1, { uri := "down", server := fun _ => none }] = some out ∧
    out.traces = [sampleTrace "b" 2 true false 3] ∧ (site.wanted { filter := { isFinished := true } }).length ≤ 2 := by
  obtain ⟨rb, h1, h2⟩ := Ring.rep_exec (α := Static) 10 [.add (sampleTrace "a" 1 false false 0), .add (sampleTrace "b" 2 true false 3)]
  obtain ⟨rb', outs, out, g1, g2, g3⟩ : ∃ (rb : Ring.RB Static) (outs : List (List Static)) (out : Printed),
      Ring.exec 10 [.add (sampleTrace "a" 1 false false 0), .add (sampleTrace "b" 2 true false 3)] = some (rb, outs) ∧
      searchExec (fun _ => .error "") sortNewest { filter := { isFinished := true } }
        [{ uri := "up", server := handleSearch (fun _ => .error "") (fun _ _ _ => 0) (fun _ => 0) acceptsJSON (fun _ => true)
            (collectorSearcher (fun _ => .error "") sortNewest "s" still [rb] 0) }, { uri := "down", server := fun _ => none }] = some out ∧
      out.traces = [sampleTrace "b" 2 true false 3] := by
    refine ⟨_, _, _, rfl, rfl, ?_⟩
    decide +kernel
  have hrb : rb' = rb := by
    have := g1.symm.trans h1
    exact (Prod.mk.inj (Option.some.inj this)).1
  subst hrb
  refine ⟨⟨{ uri := "up", server := _ }, .inl
      { source := "s", srt := sortNewest, sorts := sortNewest_ok, view := still, rings := [rb']
        contents := [[sampleTrace "b" 2 true false 3, sampleTrace "a" 1 false false 0]]
        holds := ⟨by simp only [List.map_cons, List.map_nil, Ring.walkAll_spec h2]; rfl, ?_⟩
        distinct := by decide +kernel
        comparable := ⟨false, by decide +kernel⟩, took := 0, renders := fun _ => true, server := rfl }⟩, out, g2, g3, ?_⟩
  · intro r hr
    simp at hr
    subst hr
    exact ⟨10, _, _, h1⟩
  · unfold Site.wanted
    simp only [List.length_map]
    exact List.length_filter_le ..

end Trc.Cmd
