import Verif.Props.Topline
import Verif.Props.SearchEnd

/-!
# C129: the traces on a page are right for any network of programs
-/

namespace Trc

/-- `l` is a part of `all`, of at most `n`, that is full unless it is all. -/
def PartOf (n : Nat) (l all : List Static) : Prop :=
  l.length ≤ n ∧ ∃ rest, (l ++ rest).Perm all ∧ (rest ≠ [] → l.length = n)

theorem part_take {n : Nat} {l all : List Static} (h : l.Perm all) : PartOf n (l.take n) all := by
  refine ⟨List.length_take_le .., l.drop n, by rw [List.take_append_drop]; exact h, fun h => ?_⟩
  rw [List.length_take]
  rcases Nat.lt_or_ge n l.length with h' | h'
  · omega
  · exact absurd (List.drop_eq_nil_of_le h') h

theorem part_map {n : Nat} {l all : List Static} (f : Static → Static) (h : PartOf n l all) : PartOf n (l.map f) (all.map f) := by
  obtain ⟨h1, rest, h2, h3⟩ := h
  refine ⟨by rw [List.length_map]; exact h1, rest.map f, by rw [← List.map_append]; exact h2.map f, fun h => ?_⟩
  rw [List.length_map]
  exact h3 fun e => h (by rw [e]; rfl)

/-- A part of parts. -/
theorem part_sources {n : Nat} (sources : List (List Static × List Static)) (hs : ∀ p ∈ sources, PartOf n p.1 p.2)
    {l : List Static} (hl : PartOf n l (sources.flatMap (·.1))) : PartOf n l (sources.flatMap (·.2)) := by
  have hrest : ∃ held, (sources.flatMap (·.1) ++ held).Perm (sources.flatMap (·.2)) ∧
      (held ≠ [] → n ≤ (sources.flatMap (·.1)).length) := by
    clear hl
    induction sources with
    | nil => exact ⟨[], by simp⟩
    | cons p sources ih =>
      obtain ⟨held, h1, h2⟩ := ih fun p hp => hs p (by simp [hp])
      obtain ⟨g1, rest, g2, g3⟩ := hs p (by simp)
      refine ⟨rest ++ held, ?_, ?_⟩
      · simp only [List.flatMap_cons]
        refine List.Perm.trans ?_ (g2.append h1)
        simp only [List.append_assoc]
        refine List.Perm.append_left _ ?_
        rw [← List.append_assoc, ← List.append_assoc]
        exact List.Perm.append_right _ List.perm_append_comm
      · intro hne
        simp only [List.flatMap_cons, List.length_append]
        by_cases hr : rest = []
        · have := h2 (by intro e; rw [hr, e] at hne; exact hne rfl)
          omega
        · have := g3 hr
          omega
  obtain ⟨held, h1, h2⟩ := hrest
  obtain ⟨l1, rest, l2, l3⟩ := hl
  refine ⟨l1, rest ++ held, ?_, ?_⟩
  · rw [← List.append_assoc]
    exact (List.Perm.append_right _ l2).trans h1
  · intro hne
    by_cases hr : rest = []
    · have := h2 (by intro e; rw [hr, e] at hne; exact hne rfl)
      have hl := l2.length_eq
      rw [hr, List.append_nil] at hl
      omega
    · exact l3 hr

/-- The wall clock of the process was never set: it is ahead of the monotonic clock by the same, for every trace. -/
def Clocked (ahead : Int) (l : List Static) : Prop := ∀ t ∈ l, ∀ m, t.started.mono = some m → t.started.wall - m = ahead

theorem Clocked.ordered {ahead : Int} {l : List Static} (h : Clocked ahead l) : Ordered l := by
  refine C48_order_partial l (.inr ?_)
  intro a ha b hb m n e1 e2
  obtain ⟨x, hx, rfl⟩ := List.mem_map.mp ha
  obtain ⟨y, hy, rfl⟩ := List.mem_map.mp hb
  have := h x hx m e1
  have := h y hy n e2
  omega

theorem Clocked.sub {ahead : Int} {l m : List Static} (h : Clocked ahead l) (hs : ∀ t ∈ m, t ∈ l) : Clocked ahead m :=
  fun t ht => h t (hs t ht)

/-- The traces as the answer of a searcher: a part of what is wanted, and if the clocks were never set and traces were added as they began,
the most recent. -/
structure Told (orderly : Prop) (n : Nat) (l all : List Static) : Prop where
  part : PartOf n l all
  recent : orderly → MostRecent n l all

end Trc

namespace Trc.Web

theorem clocked_wire {ahead : Int} (l : List Static) : Clocked ahead (l.map wireStatic) := by
  intro t ht m e
  obtain ⟨u, -, rfl⟩ := List.mem_map.mp ht
  cases e

theorem clocked_less {ahead : Int} {l : List Static} (h : Clocked ahead l) {a b : Static} (ha : a ∈ l) (hb : b ∈ l) :
    (wireStatic a).less (wireStatic b) = a.less b := by
  have hsub : (wireStatic a).started.sub (wireStatic b).started = a.started.sub b.started := by
    rw [sub_key (m := false) rfl rfl]
    unfold Time.sub
    split
    · rename_i m n e1 e2
      have := h a ha m e1
      have := h b hb n e2
      show a.started.wall - b.started.wall = m - n
      omega
    · rfl
  unfold Static.less Time.after Time.before
  rw [hsub]
  rfl

theorem wire_trimEvent (d : Nat) (e : Core.Event) : wireEvent (trimEvent d e) = trimEvent d (wireEvent e) := by
  unfold trimEvent
  by_cases h : e.stack.length > d
  · rw [if_pos h, if_pos (show (wireEvent e).stack.length > d from h)]
    rfl
  · rw [if_neg h, if_neg (show ¬ (wireEvent e).stack.length > d from h)]

theorem wire_trim (t : Static) (d : Int) : wireStatic (t.trimStacks d) = (wireStatic t).trimStacks d := by
  unfold Static.trimStacks
  split
  · rfl
  · unfold wireStatic
    simp only [List.map_map]
    congr 1
    refine List.map_congr_left fun e _ => ?_
    exact wire_trimEvent ..

theorem recent_map {n : Nat} {f : Static → Static} {l all : List Static} (h : MostRecent n l all)
    (hf : ∀ a ∈ all, ∀ b ∈ all, (f a).less (f b) = a.less b) : MostRecent n (l.map f) (all.map f) := by
  obtain ⟨h1, h2, h3⟩ := h
  refine ⟨?_, by rw [List.length_map]; exact h2, Cmd.holds_map h3 hf⟩
  obtain ⟨rest, p1, -⟩ := h3
  unfold NewestFirst at h1 ⊢
  rw [List.pairwise_map]
  refine h1.imp_of_mem fun ha hb e => ?_
  rw [hf _ (p1.mem_iff.mp (List.mem_append_left _ hb)) _ (p1.mem_iff.mp (List.mem_append_left _ ha))]
  exact e

/-! ## Networks -/

/-- The ways to put searchers together, as in `Net`, with the traces that they hold for a request: each as it is compared with the filter and
as it is copied.  The copies that come from a server have no monotonic time.  A request whose text is longer than a megabyte is refused by a
server.  If `orderly`, the clocks of no program were set, and the traces of each category were added in the order in which they began;
`ahead` is how far the wall clock of the program is ahead of its monotonic clock. -/
inductive Holding (compile : Compile) (mulFrac : Nat → Nat → Nat → Nat) (size : JSON → Nat) (mime : List Char → Option String) (orderly : Prop) :
    Int → Bool → Searcher → (SearchRequest → List (Static × Static)) → Prop
  | collector {α : Type} [Inhabited α] (ahead : Int) (srt : List Static → List Static) (source : String) (view : α → Look → Static)
      (rings : List (Ring.RB α)) (contents : List (List α)) (took : Duration) (hs : Sorts srt) (h : Buffers rings contents)
      (hc : orderly → Clocked ahead (contents.flatten.map (view · .copy)))
      (ho : orderly → ∀ items ∈ contents, NewestFirst (items.map (view · .copy))) :
      Holding compile mulFrac size mime orderly ahead true (collectorSearcher compile srt source view rings took) fun _ =>
        contents.flatten.map fun c => (view c .filter, view c .copy)
  | multi (ahead : Int) (srt : List Static → List Static) (o : Orders) (n₁ n₂ : Nat) (took : Duration)
      (ss : List ((String × Searcher) × (SearchRequest → List (Static × Static)))) (hs : Sorts srt)
      (h : ∀ s ∈ ss, Holding compile mulFrac size mime orderly ahead false s.1.2 s.2) :
      Holding compile mulFrac size mime orderly ahead true (multiSearcher compile srt o n₁ n₂ took (ss.map Prod.fst)) fun req =>
        ss.flatMap fun s => s.2 req
  | here (ahead : Int) (s : Searcher) (r : SearchRequest → List (Static × Static))
      (h : Holding compile mulFrac size mime orderly ahead true s r) :
      Holding compile mulFrac size mime orderly ahead false s r
  | there (ahead theirs : Int) (rawQuery : Bytes) (renders : SearchData → Bool) (s : Searcher) (r : SearchRequest → List (Static × Static))
      (h : Holding compile mulFrac size mime orderly theirs true s r) :
      Holding compile mulFrac size mime orderly ahead false (clientSearcher rawQuery (handleSearch compile mulFrac size mime renders s)) fun req =>
        if size (encRequest req) > 1048576 then [] else (r req).map fun t => (t.1, wireStatic t.2)
  | down (ahead : Int) (rawQuery : Bytes) (server : SearchHTTP → Option HTTPResponse)
      (h : ∀ r, server r = none ∨ ∃ res, server r = some res ∧ res.status ≠ 200) :
      Holding compile mulFrac size mime orderly ahead false (clientSearcher rawQuery server) fun _ => []

/-- Those that satisfy the filter of the request, with stacks as deep as it asks for. -/
noncomputable def wantedOf (compile : Compile) (req : SearchRequest) (held : List (Static × Static)) : List Static :=
  open Classical in (held.filter fun t => req.filter.Sat compile t.1).map fun t => t.2.shortened req.stackDepth

section
variable {compile : Compile} {mulFrac : Nat → Nat → Nat → Nat} {size : JSON → Nat} {mime : List Char → Option String} {orderly : Prop}

theorem holding_net {ahead : Int} {b : Bool} {s : Searcher} {r : SearchRequest → List (Static × Static)}
    (h : Holding compile mulFrac size mime orderly ahead b s r) : Net compile mulFrac size mime b s := by
  induction h with
  | collector ahead srt source view rings contents took hs h hc ho => exact .collector srt source view rings contents took h
  | multi ahead srt o n₁ n₂ took ss hs h ih =>
    refine .multi srt o n₁ n₂ took _ fun s hs => ?_
    obtain ⟨s', hs', rfl⟩ := List.mem_map.mp hs
    exact ih s' hs'
  | here ahead s r h ih => exact .here s ih
  | there ahead theirs rawQuery renders s r h ih => exact .there rawQuery renders s ih
  | down ahead rawQuery server h => exact .down rawQuery server h

theorem wanted_mem {req : SearchRequest} {held : List (Static × Static)} {t : Static} (h : t ∈ wantedOf compile req held) :
    ∃ p ∈ held, t = p.2.trimStacks req.stackDepth := by
  obtain ⟨p, hp, rfl⟩ := List.mem_map.mp h
  exact ⟨p, List.mem_of_mem_filter hp, (trim_shortened ..).symm⟩

theorem wanted_clocked {ahead : Int} {req : SearchRequest} {held : List (Static × Static)} (h : Clocked ahead (held.map Prod.snd)) :
    Clocked ahead (wantedOf compile req held) := by
  intro t ht m e
  obtain ⟨p, hp, rfl⟩ := wanted_mem ht
  rw [trimStacks_started] at e ⊢
  exact h p.2 (List.mem_map_of_mem hp) m e

theorem wanted_wire (req : SearchRequest) (held : List (Static × Static)) :
    wantedOf compile req (held.map fun t => (t.1, wireStatic t.2)) = (wantedOf compile req held).map wireStatic := by
  unfold wantedOf
  simp only [← trim_shortened]
  rw [List.filter_map, List.map_map, List.map_map]
  refine List.map_congr_left fun t _ => ?_
  exact (wire_trim ..).symm

theorem wanted_flatMap {β : Type} (req : SearchRequest) (l : List β) (f : β → List (Static × Static)) :
    wantedOf compile req (l.flatMap f) = l.flatMap fun x => wantedOf compile req (f x) := by
  unfold wantedOf
  simp only [← trim_shortened]
  rw [List.filter_flatMap, List.map_flatMap]

/-- What is asked of a searcher. -/
def Tells (compile : Compile) (orderly : Prop) (ahead : Int) (s : Searcher) (r : SearchRequest → List (Static × Static)) : Prop :=
  ∀ req, Ready compile req → (orderly → Clocked ahead ((r req).map Prod.snd)) ∧
    ((∃ res, s req = some (req, .ok (some res)) ∧ Told orderly req.limit.toNat res.traces (wantedOf compile req (r req))) ∨
     ((∃ e, s req = some (req, .error e)) ∧ r req = []))

theorem ready_limit {req : SearchRequest} (hr : Ready compile req) : 1 ≤ req.limit := by
  obtain ⟨r', p, c1, c2, _⟩ := C35_limit compile req
  rw [hr.fix] at c1
  obtain ⟨rfl, _⟩ := Prod.mk.inj (Option.some.inj c1)
  omega

theorem tells_collector {α : Type} [Inhabited α] (ahead : Int) (srt : List Static → List Static) (source : String) (view : α → Look → Static)
    (rings : List (Ring.RB α)) (contents : List (List α)) (took : Duration) (hs : Sorts srt) (hb : Buffers rings contents)
    (hc : orderly → Clocked ahead (contents.flatten.map (view · .copy)))
    (ho : orderly → ∀ items ∈ contents, NewestFirst (items.map (view · .copy))) :
    Tells compile orderly ahead (collectorSearcher compile srt source view rings took) fun _ =>
      contents.flatten.map fun c => (view c .filter, view c .copy) := by
  intro req hr
  obtain ⟨req', problems, res, h1, h2, _, _, h5, _, _, _, _, _, _, h12⟩ :=
    search_spec compile srt source req hr.fresh view rings contents hb.walk hb.rep
  have h1' := h1
  rw [hr.fix] at h1'
  obtain ⟨rfl, rfl⟩ := Prod.mk.inj (Option.some.inj h1')
  have hclock : orderly → Clocked ahead ((contents.flatten.map fun c => (view c .filter, view c .copy)).map Prod.snd) := by
    intro h
    rw [List.map_map]
    exact hc h
  refine ⟨hclock, .inl ⟨{ res.toResponse with request := some req, duration := took }, ?_, ?_⟩⟩
  · unfold collectorSearcher
    rw [h1, h2]
    rfl
  -- what each category holds
  obtain ⟨copy, hcopy⟩ : ∃ copy : α → Static, copy = fun c => (view c .copy).trimStacks req.stackDepth := ⟨_, rfl⟩
  have hwant : wantedOf compile req (contents.flatten.map fun c => (view c .filter, view c .copy)) =
      (contents.map fun items => ((selected compile req view items).map copy, (allowed compile req.filter view items).map copy)).flatMap (·.2) := by
    rw [List.flatMap_map]
    simp only
    rw [← List.map_flatMap]
    unfold allowed
    rw [Cmd.filter_flatten]
    unfold wantedOf
    simp only [← trim_shortened]
    rw [List.filter_map, List.map_map, hcopy]
    congr 1
    refine List.filter_congr fun c _ => ?_
    have := selected_sat (view := view) (c := c) hr.fresh h5
    rw [Bool.eq_iff_iff, this]
    simp
  have hsel : ((contents.flatMap (selected compile req view)).map fun c => (view c .copy).trimStacks req.stackDepth) =
      (contents.map fun items => ((selected compile req view items).map copy, (allowed compile req.filter view items).map copy)).flatMap (·.1) := by
    rw [List.flatMap_map, List.map_flatMap, hcopy]
  show Told orderly req.limit.toNat res.traces _
  rw [hsel] at h12
  rw [hwant, h12]
  constructor
  · refine part_sources _ ?_ (part_take (hs.perm _))
    intro p hp
    obtain ⟨items, hi, rfl⟩ := List.mem_map.mp hp
    simp only
    unfold selected
    rw [List.map_take]
    exact part_take (List.Perm.refl _)
  · intro h
    have hord : Ordered ((contents.map fun items => ((selected compile req view items).map copy,
        (allowed compile req.filter view items).map copy)).flatMap (·.2)) := by
      rw [← hwant]
      exact (wanted_clocked (hclock h)).ordered
    refine mostRecent_sources _ ?_ hord ?_
    · intro p hp
      obtain ⟨items, hi, rfl⟩ := List.mem_map.mp hp
      simp only
      unfold selected
      rw [List.map_take]
      refine Cmd.holds_take (.inr ?_)
      have := ho h items hi
      unfold NewestFirst at this
      rw [List.pairwise_map] at this ⊢
      refine (this.imp fun e => ?_).sublist List.filter_sublist
      rw [hcopy, Cmd.trim_less]
      exact e
    · rw [← cutTo_eq _ (ready_limit hr)]
      refine mostRecent_cut hs (hord.sub ?_) (ready_limit hr)
      intro t ht
      obtain ⟨p, hp, ht⟩ := List.mem_flatMap.mp ht
      refine List.mem_flatMap.mpr ⟨p, hp, ?_⟩
      obtain ⟨items, hi, rfl⟩ := List.mem_map.mp hp
      obtain ⟨c, hc, rfl⟩ := List.mem_map.mp ht
      exact List.mem_map_of_mem (List.mem_of_mem_take hc)

theorem tells_arrivals {ahead : Int} (o : Orders) {req : SearchRequest} (hr : Ready compile req)
    (ss : List ((String × Searcher) × (SearchRequest → List (Static × Static)))) (hs : ∀ s ∈ ss, Tells compile orderly ahead s.1.2 s.2)
    (as : List Arrival) (h : arrivalsOf o req (ss.map Prod.fst) = some as) :
    ∃ sources : List (List Static × List Static), (∀ p ∈ sources, Told orderly req.limit.toNat p.1 p.2) ∧
      (responses as).flatMap (·.traces) = sources.flatMap (·.1) ∧
      wantedOf compile req (ss.flatMap fun s => s.2 req) = sources.flatMap (·.2) := by
  induction ss generalizing as with
  | nil =>
    cases h
    exact ⟨[], by simp, rfl, rfl⟩
  | cons s ss ih =>
    simp only [List.map_cons, arrivalsOf, Option.bind_eq_bind, Option.bind_eq_some_iff, Option.pure_def, Option.some.injEq] at h
    obtain ⟨a, ha, as', has, rfl⟩ := h
    obtain ⟨sources, h1, h2, h3⟩ := ih (fun s hs' => hs s (by simp [hs'])) as' has
    obtain ⟨-, ⟨res, e1, e2⟩ | ⟨⟨e, e1⟩, e2⟩⟩ := hs s (by simp) req hr
    · refine ⟨(res.traces, wantedOf compile req (s.2 req)) :: sources, ?_, ?_, ?_⟩
      · intro p hp
        rcases List.mem_cons.mp hp with rfl | hp
        · exact e2
        · exact h1 p hp
      · unfold arrivalOf at ha
        rw [e1] at ha
        obtain rfl := Option.some.inj ha
        simp only [responses, List.filterMap_cons, List.flatMap_cons]
        rw [← h2]
        rfl
      · rw [wanted_flatMap, List.flatMap_cons, List.flatMap_cons, ← h3, wanted_flatMap]
    · refine ⟨sources, h1, ?_, ?_⟩
      · unfold arrivalOf at ha
        rw [e1] at ha
        obtain rfl := Option.some.inj ha
        rw [← h2]
        rfl
      · rw [List.flatMap_cons, e2, List.nil_append]
        exact h3

theorem tells_multi (ahead : Int) (srt : List Static → List Static) (o : Orders) (n₁ n₂ : Nat) (took : Duration)
    (ss : List ((String × Searcher) × (SearchRequest → List (Static × Static)))) (hsort : Sorts srt)
    (hs : ∀ s ∈ ss, Tells compile orderly ahead s.1.2 s.2) (hg : ∀ s ∈ ss, GoodOrFails compile s.1.2) :
    Tells compile orderly ahead (multiSearcher compile srt o n₁ n₂ took (ss.map Prod.fst)) fun req => ss.flatMap fun s => s.2 req := by
  intro req hr
  have hclock : orderly → Clocked ahead ((ss.flatMap fun s => s.2 req).map Prod.snd) := by
    intro h t ht
    obtain ⟨p, hp, rfl⟩ := List.mem_map.mp ht
    obtain ⟨s, hs', hp⟩ := List.mem_flatMap.mp hp
    exact (hs s hs' req hr).1 h p.2 (List.mem_map_of_mem hp)
  refine ⟨hclock, .inl ?_⟩
  obtain ⟨as, h1, _, h2⟩ := arrivals_ok o hr (ss.map Prod.fst) (by
    intro s hs'
    obtain ⟨s', hs'', rfl⟩ := List.mem_map.mp hs'
    exact hg s' hs'')
  obtain ⟨sources, p1, p2, p3⟩ := tells_arrivals o hr ss hs as h1
  have hfix := normalizeAgain_fix hr.fix
  obtain ⟨st, m1, m2⟩ := mergeAll_usable (ready_bucketing hr).2 _ h2 (statsOf_new req.bucketing).wf
  unfold multiSearcher multiSearch
  rw [hr.fix]
  simp only [bind, Option.bind_some, h1, hfix, gather_eq, m1, Option.map_some, pure]
  refine ⟨_, rfl, ?_⟩
  show Told orderly req.limit.toNat (cutTo req.limit (srt ([] ++ (responses as).flatMap (·.traces)))) _
  rw [List.nil_append, p2, p3]
  constructor
  · rw [cutTo_eq _ (ready_limit hr)]
    exact part_sources _ (fun p hp => (p1 p hp).part) (part_take (hsort.perm _))
  · intro h
    have hord : Ordered (sources.flatMap (·.2)) := by
      rw [← p3]
      exact (wanted_clocked (hclock h)).ordered
    refine mostRecent_sources _ (fun p hp => ((p1 p hp).recent h).2.2) hord (mostRecent_cut hsort (hord.sub ?_) (ready_limit hr))
    intro t ht
    obtain ⟨p, hp, ht⟩ := List.mem_flatMap.mp ht
    obtain ⟨-, rest, g, -⟩ := (p1 p hp).part
    exact List.mem_flatMap.mpr ⟨p, hp, g.mem_iff.mp (List.mem_append_left _ ht)⟩

theorem tells_data {ahead : Int} {s : Searcher} {r : SearchRequest → List (Static × Static)} (hg : Good compile s)
    (hs : Tells compile orderly ahead s r) {req req₁ : SearchRequest} {problems : List String}
    (h1 : req.normalize compile = some (req₁, problems)) (hr : Ready compile req₁) :
    ∃ data, searchData compile s req = some data ∧ data.request = req₁ ∧
      Told orderly req₁.limit.toNat data.response.traces (wantedOf compile req₁ (r req₁)) := by
  obtain ⟨res, st, e1, e2, -⟩ := hg req₁ hr
  obtain ⟨-, ⟨res', e3, e4⟩ | ⟨⟨e, e3⟩, -⟩⟩ := hs req₁ hr
  · rw [e1] at e3
    cases e3
    unfold searchData
    rw [h1]
    simp only [Option.bind_eq_bind, Option.bind_some, e1, takeResult, responseProblems, checkCategories, e2]
    split
    · exact ⟨_, rfl, rfl, e4⟩
    · exact ⟨_, rfl, rfl, e4⟩
  · rw [e1] at e3
    cases e3

theorem tells_client {ahead theirs : Int} (renders : SearchData → Bool) (hm : mime "application/json".toList = some "application/json")
    {s : Searcher} {r : SearchRequest → List (Static × Static)} (hg : Good compile s) (hs : Tells compile orderly theirs s r)
    (rawQuery : Bytes) :
    Tells compile orderly ahead (clientSearcher rawQuery (handleSearch compile mulFrac size mime renders s)) fun req =>
      if size (encRequest req) > 1048576 then [] else (r req).map fun t => (t.1, wireStatic t.2) := by
  intro req hr
  by_cases hsize : size (encRequest req) > 1048576
  · simp only [if_pos hsize]
    refine ⟨fun _ t ht => (by cases ht), .inr ⟨⟨"read HTTP response", ?_⟩, trivial⟩⟩
    unfold clientSearcher searchClient handleSearch readRequest readBody
    simp [show size (encRequest req) > maxRequestBodySizeBytes from hsize, Except.map]
  · simp only [if_neg hsize]
    refine ⟨fun _ => ?_, .inl ?_⟩
    · rw [List.map_map]
      have := clocked_wire (ahead := ahead) ((r req).map Prod.snd)
      rw [List.map_map] at this
      exact this
    · obtain ⟨data, d1, d2, d3⟩ := tells_data hg hs (req := wireRequest req) (by rw [normalize_wire compile req hr.fresh]; exact hr.fix) hr
      have hread : readRequest mulFrac size
          { neg := { rawQuery, accept := ["application/json".toList] }, isJSON := true, body := some (encRequest req) } =
          some (wireRequest req) := by
        unfold readRequest readBody
        simp only [if_true]
        rw [if_neg (show ¬ size (encRequest req) > maxRequestBodySizeBytes from hsize), request_rt]
      refine ⟨wireReply data.response, ?_, ?_⟩
      · unfold clientSearcher searchClient handleSearch
        rw [hread]
        simp only [d1, Option.map_some]
        unfold render
        rw [(client_json mime hm rawQuery).2]
        simp only [ne_eq, not_true_eq_false, if_false, data_rt]
        rfl
      · rw [wanted_wire]
        show Told orderly req.limit.toNat (data.response.traces.map wireStatic) _
        refine ⟨part_map _ d3.part, fun h => recent_map (d3.recent h) ?_⟩
        have := wanted_clocked (compile := compile) (req := req) ((hs req hr).1 h)
        exact fun a ha b hb => clocked_less this ha hb

theorem holding_tells (hm : mime "application/json".toList = some "application/json") {ahead : Int} {b : Bool} {s : Searcher}
    {r : SearchRequest → List (Static × Static)} (h : Holding compile mulFrac size mime orderly ahead b s r) :
    Tells compile orderly ahead s r := by
  induction h with
  | collector ahead srt source view rings contents took hs h hc ho => exact tells_collector ahead srt source view rings contents took hs h hc ho
  | multi ahead srt o n₁ n₂ took ss hs h ih =>
    exact tells_multi ahead srt o n₁ n₂ took ss hs ih fun s hs => (net_good hm (holding_net (h s hs))).1
  | here ahead s r h ih => exact ih
  | there ahead theirs rawQuery renders s r h ih => exact tells_client renders hm ((net_good hm (holding_net h)).2 rfl) ih rawQuery
  | down ahead rawQuery server h =>
    intro req hr
    refine ⟨fun _ t ht => (by cases ht), .inr ⟨?_, rfl⟩⟩
    unfold clientSearcher searchClient
    rcases h { neg := { rawQuery, accept := ["application/json".toList] }, isJSON := true, body := some (encRequest req) } with h | ⟨res, h, hst⟩
    · rw [h]; exact ⟨_, rfl⟩
    · rw [h]; simp only [if_pos hst]; exact ⟨_, rfl⟩

/-! ## C129 -/

/-- The data of an answer, as a page or as JSON. -/
def Gives (resp : HTTPResponse) (data : SearchData) : Prop := resp.body = .page data ∨ resp.body = .json (encData data)

/-- **C129** Every request that a server of any network of collectors, multi-searchers and servers can read, some of which may be down, is
answered, on a page or as JSON, with traces that are held by the programs that are reached and that satisfy the filter, each as it was and with
stacks as deep as asked for, and none more often than it is held; with all of them, if they are no more than the limit, else with as many
as the limit. -/
theorem C129_traces (hm : mime "application/json".toList = some "application/json") (ahead : Int) (s : Searcher)
    (r : SearchRequest → List (Static × Static)) (hs : Holding compile mulFrac size mime orderly ahead true s r)
    (renders : SearchData → Bool) (q : SearchHTTP) (req : SearchRequest)
    (hreq : readRequest mulFrac size q = some req) (h0 : ∀ d ∈ req.bucketing, 0 ≤ d) :
    ∃ req₁ invalid resp data rest, req.normalize compile = some (req₁, invalid) ∧
      handleSearch compile mulFrac size mime renders s q = some resp ∧ Gives resp data ∧
      (data.response.traces ++ rest).Perm (wantedOf compile req₁ (r req₁)) ∧
      (((wantedOf compile req₁ (r req₁)).length : Int) ≤ req₁.limit → rest = []) ∧
      (req₁.limit ≤ (wantedOf compile req₁ (r req₁)).length → (data.response.traces.length : Int) = req₁.limit) := by
  obtain ⟨req₁, invalid, hn, hr⟩ := normalize_ready (read_fresh compile hreq) h0
  obtain ⟨data, d1, d2, d3⟩ := tells_data ((net_good hm (holding_net hs)).2 rfl) (holding_tells hm hs) hn hr
  obtain ⟨p1, rest, p2, p3⟩ := d3.part
  have hl := ready_limit hr
  have hlen := p2.length_eq
  rw [List.length_append] at hlen
  refine ⟨req₁, invalid, render mime renders q data, data, rest, hn, ?_, ?_, p2, ?_, ?_⟩
  · unfold handleSearch
    rw [hreq]
    simp only [d1, Option.map_some]
  · unfold render Gives
    split
    · exact .inl rfl
    · exact .inr rfl
  · intro h
    cases rest with
    | nil => rfl
    | cons t rest =>
      have := p3 (by simp)
      simp only [List.length_cons] at hlen
      omega
  · intro h
    by_cases hne : rest = []
    · rw [hne, List.length_nil] at hlen
      omega
    · have := p3 hne
      omega

/-- **C129** If no clock was set and traces were added in the order in which they began, the traces are the most recent of all that match in
the whole network, newest first: each began no later than the one before it, and no other matching trace began after one of them. -/
theorem C129_recent (hm : mime "application/json".toList = some "application/json") (ahead : Int) (s : Searcher)
    (r : SearchRequest → List (Static × Static)) (hs : Holding compile mulFrac size mime True ahead true s r)
    (renders : SearchData → Bool) (q : SearchHTTP) (req : SearchRequest)
    (hreq : readRequest mulFrac size q = some req) (h0 : ∀ d ∈ req.bucketing, 0 ≤ d) :
    ∃ req₁ invalid resp data rest, req.normalize compile = some (req₁, invalid) ∧
      handleSearch compile mulFrac size mime renders s q = some resp ∧ Gives resp data ∧
      (data.response.traces ++ rest).Perm (wantedOf compile req₁ (r req₁)) ∧
      (rest ≠ [] → (data.response.traces.length : Int) = req₁.limit) ∧ (data.response.traces.length : Int) ≤ req₁.limit ∧
      data.response.traces.Pairwise (fun a b => b.started.wall ≤ a.started.wall) ∧
      ∀ t ∈ data.response.traces, ∀ u ∈ rest, u.started.wall ≤ t.started.wall := by
  obtain ⟨req₁, invalid, hn, hr⟩ := normalize_ready (read_fresh compile hreq) h0
  obtain ⟨data, d1, d2, d3⟩ := tells_data ((net_good hm (holding_net hs)).2 rfl) (holding_tells hm hs) hn hr
  obtain ⟨p1, p2, rest, p3, p4, p5⟩ := d3.recent trivial
  have hl := ready_limit hr
  have hc := wanted_clocked (compile := compile) (req := req₁) ((holding_tells hm hs req₁ hr).1 trivial)
  have hwall : ∀ a ∈ wantedOf compile req₁ (r req₁), ∀ b ∈ wantedOf compile req₁ (r req₁), b.less a = false → b.started.wall ≤ a.started.wall := by
    intro a ha b hb e
    have hsub : b.started.sub a.started = b.started.wall - a.started.wall := by
      unfold Time.sub
      split
      · rename_i m n e1 e2
        have := hc b hb m e1
        have := hc a ha n e2
        show m - n = b.started.wall - a.started.wall
        omega
      · rfl
    have := (less_key (key := (·.wall)) hsub).not.mp (by rw [e]; simp)
    exact Int.not_lt.mp fun h => this (.inl h)
  refine ⟨req₁, invalid, render mime renders q data, data, rest, hn, ?_, ?_, p3, ?_, ?_, ?_, ?_⟩
  · unfold handleSearch
    rw [hreq]
    simp only [d1, Option.map_some]
  · unfold render Gives
    split
    · exact .inl rfl
    · exact .inr rfl
  · intro h
    have := p4 h
    omega
  · omega
  · unfold NewestFirst at p1
    exact p1.imp_of_mem fun ha hb e =>
      hwall _ (p3.mem_iff.mp (List.mem_append_left _ ha)) _ (p3.mem_iff.mp (List.mem_append_left _ hb)) e
  · intro t ht u hu
    exact hwall _ (p3.mem_iff.mp (List.mem_append_left _ ht)) _ (p3.mem_iff.mp (List.mem_append_right _ hu)) (p5 t ht u hu)

end

/-! ## Example -/

private def someMimes : List Char → Option String := fun l =>
  if l = "application/json".toList then some "application/json" else none

private def noRegexps : Compile := fun _ => .error ""
private def fracs : Nat → Nat → Nat → Nat := fun f unit k => f * unit / 10 ^ k

private def begun (id : String) (wall mono : Int) : Static := { sampleTrace id 0 true false 1 with started := ⟨wall, some mono⟩ }

private def idsOf : Option HTTPResponse → Option (List String)
  | some ⟨200, .json v⟩ => (decData v).map fun d => d.response.traces.map (·.id)
  | _ => none

private def asked (query : String) : SearchHTTP := { neg := { rawQuery := bytesOf query, accept := [] }, isJSON := false, body := none }

/-- Two programs, whose clocks differ, and a server that is down: at a limit of two, the most recent of both are shown, and those of one trace on
request. -/
example : ∃ (rb₁ rb₂ : Ring.RB Static) (o₁ o₂ : List (List Static)),
    Ring.exec 10 [.add (begun "a" 1010 10), .add (begun "b" 1030 30)] = some (rb₁, o₁) ∧
    Ring.exec 10 [.add (begun "d" 1005 505), .add (begun "e" 1020 520)] = some (rb₂, o₂) ∧
    let c₁ := collectorSearcher noRegexps sortNewest "s" still [rb₁] 5
    let c₂ := collectorSearcher noRegexps sortNewest "t" still [rb₂] 5
    let remote := clientSearcher [] (handleSearch noRegexps fracs (fun _ => 0) someMimes (fun _ => true) c₂)
    let net := multiSearcher noRegexps sortNewest listed 0 1 7 [("2", remote), ("3", clientSearcher [] fun _ => none), ("1", c₁)]
    (∃ r, Holding noRegexps fracs (fun _ => 0) someMimes True 1000 true net r) ∧
    (∀ d ∈ (requestOfURL fracs (bytesOf "n=2&q=x")).bucketing, 0 ≤ d) ∧
    idsOf (handleSearch noRegexps fracs (fun _ => 0) someMimes (fun _ => true) net (asked "n=2")) = some ["b", "e"] ∧
    idsOf (handleSearch noRegexps fracs (fun _ => 0) someMimes (fun _ => true) net (asked "id=d")) = some ["d"] := by
  refine ⟨_, _, _, _, rfl, rfl, ⟨_, .multi 1000 _ _ _ _ _
    [(("2", _), fun req => if 0 > 1048576 then [] else
        ([[begun "e" 1020 520, begun "d" 1005 505]].flatten.map fun c => (still c .filter, still c .copy)).map fun t => (t.1, wireStatic t.2)),
      (("3", _), fun _ => []),
      (("1", _), fun _ => [[begun "b" 1030 30, begun "a" 1010 10]].flatten.map fun c => (still c .filter, still c .copy))]
    sortNewest_sorts ?_⟩, ?_, ?_, ?_⟩
  · intro s hs
    simp only [List.mem_cons, List.not_mem_nil, or_false] at hs
    rcases hs with rfl | rfl | rfl
    · refine .there _ 500 _ _ _ (fun _ => [[begun "e" 1020 520, begun "d" 1005 505]].flatten.map fun c => (still c .filter, still c .copy)) (.collector 500 _ _ _ _ [[begun "e" 1020 520, begun "d" 1005 505]] _ sortNewest_sorts ⟨rfl, ?_⟩ ?_ ?_)
      · intro rb hm
        obtain rfl := List.mem_singleton.mp hm
        exact ⟨10, [.add (begun "d" 1005 505), .add (begun "e" 1020 520)], _, rfl⟩
      · intro _ t ht m e
        simp only [List.flatten_cons, List.flatten_nil, List.append_nil, List.map_cons, List.map_nil, List.mem_cons, List.not_mem_nil,
          or_false] at ht
        rcases ht with rfl | rfl <;> cases e <;> rfl
      · intro _ items hi
        obtain rfl := List.mem_singleton.mp hi
        simp only [List.map_cons, List.map_nil, NewestFirst, List.pairwise_cons, List.mem_cons, List.not_mem_nil, or_false, false_imp_iff,
          implies_true, List.Pairwise.nil, and_true, forall_eq]
        decide +kernel
    · exact .down _ _ _ fun _ => .inl rfl
    · refine .here _ _ _ (.collector 1000 _ _ _ _ [[begun "b" 1030 30, begun "a" 1010 10]] _ sortNewest_sorts ⟨rfl, ?_⟩ ?_ ?_)
      · intro rb hm
        obtain rfl := List.mem_singleton.mp hm
        exact ⟨10, [.add (begun "a" 1010 10), .add (begun "b" 1030 30)], _, rfl⟩
      · intro _ t ht m e
        simp only [List.flatten_cons, List.flatten_nil, List.append_nil, List.map_cons, List.map_nil, List.mem_cons, List.not_mem_nil,
          or_false] at ht
        rcases ht with rfl | rfl <;> cases e <;> rfl
      · intro _ items hi
        obtain rfl := List.mem_singleton.mp hi
        simp only [List.map_cons, List.map_nil, NewestFirst, List.pairwise_cons, List.mem_cons, List.not_mem_nil, or_false, false_imp_iff,
          implies_true, List.Pairwise.nil, and_true, forall_eq]
        decide +kernel
  all_goals decide +kernel

end Trc.Web
