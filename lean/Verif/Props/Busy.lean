import Verif.Props.Easy

/-!
# C157: a search in a category finds the same, however busy the others are
-/

set_option linter.unusedVariables false

namespace Trc.Search

open Ring StatsSpec

variable {α : Type} [Inhabited α]

omit [Inhabited α] in
/-- All that comes of the parts comes of one of them. -/
theorem flatMap_part {β : Type} (g : List α → List β) (hnil : g [] = []) (at_ : String → List α) {l : List String} (hl : l.Nodup)
    (k : String) (hout : k ∉ l → at_ k = []) (hother : ∀ j ∈ l, j ≠ k → g (at_ j) = []) :
    (l.map at_).flatMap g = g (at_ k) := by
  induction l with
  | nil => rw [hout (by simp), hnil]; rfl
  | cons j l ih =>
    obtain ⟨h1, h2⟩ := List.nodup_cons.mp hl
    rw [List.map_cons, List.flatMap_cons]
    by_cases e : j = k
    · subst e
      have : (l.map at_).flatMap g = [] := by
        rw [List.flatMap_map, List.flatMap_eq_nil_iff]
        intro i hi
        exact hother i (by simp [hi]) (by rintro rfl; exact h1 hi)
      rw [this, List.append_nil]
    · rw [hother j (by simp) e, List.nil_append]
      refine ih h2 (fun h => hout ?_) (fun i hi hne => hother i (by simp [hi]) hne)
      simp only [List.mem_cons, not_or]
      exact ⟨Ne.symm e, h⟩

omit [Inhabited α] in
theorem mem_addsTo {k : String} {hist : List (MOp α)} {x : α} (h : x ∈ addsTo k hist) : MOp.add k x ∈ hist := by
  unfold addsTo addsOf at h
  rw [List.mem_reverse, List.mem_map] at h
  obtain ⟨p, hp, rfl⟩ := h
  rw [List.mem_filter, List.mem_filterMap] at hp
  obtain ⟨⟨op, h1, h2⟩, h3⟩ := hp
  cases op <;> simp at h2
  subst h2
  obtain rfl : _ = k := by simpa using h3
  exact h1

/-- The answer to a search in a category, from the traces of that category alone. -/
theorem answer_category (compile : Compile) (srt : List Static → List Static) (source : String) (req : SearchRequest)
    (hf : req.filter.Fresh compile) (hneg : ∀ d ∈ req.bucketing, 0 ≤ d) (hk : req.filter.category ≠ "")
    (view : α → Look → Static) {hist : List (MOp α)} {s : RBs α} (hA : After hist s)
    (hview : ∀ k x look, MOp.add k x ∈ hist → (view x look).category = k)
    (rings : List (RB α)) (hr : rings.Perm (s.bufs.map Prod.snd)) :
    ∃ req' problems res items, req.normalize compile = some (req', problems) ∧ search compile srt source req view rings = some res ∧
      s.contents req.filter.category = some items ∧
      res.matchCount = (selected compile req' view items).length ∧
      res.traces = (srt ((selected compile req' view items).map fun c => (view c .copy).trimStacks req'.stackDepth)).take req'.limit.toNat ∧
      (∀ cs, res.stats.categories.find req.filter.category = some cs →
        items ≠ [] ∧ CatOf req'.bucketing req.filter.category (items.map (view · .observe)) cs) ∧
      (res.stats.categories.find req.filter.category = none → items = []) := by
  obtain ⟨f, hfr, -⟩ := hA.frep
  obtain ⟨m, hm, rfl⟩ := perm_map_inv Prod.snd hr
  have hfind : ∀ p ∈ m, s.bufs.find p.1 = some p.2 := fun p hp => find_pair hfr.hnd (hm.mem_iff.mp hp)
  have hwalk : ∀ p ∈ m, walkAll p.2 = some (((s.contents p.1).getD [])) := by
    intro p hp
    have h1 : s.contents p.1 = walkAll p.2 := by
      unfold RBs.contents RBs.buf
      rw [hfind p hp]
    rw [← h1]
    obtain ⟨items, h2, -⟩ := hA.shows p.1
    rw [h2]; rfl
  have hb : Buffers (m.map Prod.snd) ((m.map Prod.fst).map fun j => (s.contents j).getD []) := by
    refine ⟨?_, ?_⟩
    · rw [List.map_map, List.map_map, List.map_map]
      exact List.map_congr_left hwalk
    · intro rb hrb
      obtain ⟨p, hp, rfl⟩ := List.mem_map.mp hrb
      exact hA.made _ _ (hfind p hp)
  have hkeys : (m.map Prod.fst).Perm s.bufs.keys := hm.map Prod.fst
  have hnd : (m.map Prod.fst).Nodup := hkeys.nodup_iff.mpr hfr.hnd
  have hcat : ∀ j x look, x ∈ (s.contents j).getD [] → (view x look).category = j := by
    intro j x look hx
    obtain ⟨items, e, hsub⟩ := hA.shows j
    rw [e] at hx
    exact hview j x look (mem_addsTo (hsub.subset hx))
  have hout : req.filter.category ∉ m.map Prod.fst → (s.contents req.filter.category).getD [] = [] := by
    intro h
    cases hfd : s.bufs.find req.filter.category with
    | none =>
      unfold RBs.contents RBs.buf
      rw [hfd]; rfl
    | some rb =>
      refine absurd (hkeys.mem_iff.mpr ?_) h
      unfold Assoc.find at hfd
      obtain ⟨p, hp, -⟩ := Option.map_eq_some_iff.mp hfd
      have := List.find?_some hp
      rw [← eq_of_beq this]
      exact List.mem_map_of_mem (List.mem_of_find?_eq_some hp)
  obtain ⟨req', problems, res, h1, h2, _, _, h5, _, _, _, _, h10, h11, h12⟩ :=
    search_spec compile srt source req hf view _ _ hb.walk hb.rep
  have hsel := flatMap_part (selected compile req' view) (by simp [selected, allowed]) (fun j => (s.contents j).getD []) hnd
    req.filter.category hout (by
      intro j _ hj
      unfold selected allowed
      rw [List.filter_eq_nil_iff.mpr]
      · simp
      · intro x hx hall
        rw [selected_sat hf h5] at hall
        rcases hall.1.2.2.1 with h | h
        · exact hk h
        · rw [hcat j x .filter hx] at h
          exact hj h)
  have hobs := flatMap_part (fun items => ofCat req.filter.category (items.map (view · .observe))) rfl (fun j => (s.contents j).getD []) hnd
    req.filter.category hout (by
      intro j _ hj
      unfold ofCat
      rw [List.filter_eq_nil_iff]
      intro t ht
      obtain ⟨x, hx, rfl⟩ := List.mem_map.mp ht
      rw [hcat j x .observe hx]
      simpa using hj)
  obtain ⟨items, e, -⟩ := hA.shows req.filter.category
  simp only [e, Option.getD_some] at hsel hobs
  rw [hsel] at h10 h12
  have hflat : ofCat req.filter.category ((((m.map Prod.fst).map fun j => (s.contents j).getD []).flatten).map (view · .observe)) =
      ofCat req.filter.category (items.map (view · .observe)) := by
    rw [← hobs]
    unfold ofCat
    rw [List.map_flatten, List.filter_flatten, List.flatMap_def, List.map_map]
    rfl
  obtain ⟨r, p, c1, c2, c3, c4, _⟩ := C35_buckets compile req hneg
  rw [h1] at c1
  obtain ⟨rfl, _⟩ := Prod.mk.inj (Option.some.inj c1)
  obtain ⟨ss, o1, o2⟩ := observeAll_spec c2 _ (statsOf_new _)
  rw [h11] at o1
  obtain rfl := Option.some.inj o1
  rw [List.nil_append] at o2
  have hself : ofCat req.filter.category (items.map (view · .observe)) = items.map (view · .observe) := by
    unfold ofCat
    rw [List.filter_eq_self]
    intro t ht
    obtain ⟨x, hx, rfl⟩ := List.mem_map.mp ht
    rw [hcat req.filter.category x .observe (by rw [e]; exact hx)]
    simp
  refine ⟨req', problems, res, items, h1, h2, e, h10, h12, ?_, ?_⟩
  · intro cs hcs
    obtain ⟨g1, g2⟩ := o2.present _ cs hcs
    rw [hflat] at g1
    refine ⟨?_, g2.category, ?_, ?_, ?_, ?_, ?_, ?_⟩
    · rintro rfl; exact g1 rfl
    · rw [← hflat]; exact g2.event
    · rw [← hflat]; exact g2.active
    · rw [← hflat]; exact g2.errored
    · rw [← hflat]; exact g2.bucket
    · rw [← hflat]; exact g2.oldest
    · rw [← hflat]; exact g2.newest
  · intro hnone
    have := o2.absent _ hnone
    rw [hflat, hself] at this
    exact List.map_eq_nil_iff.mp this

omit [Inhabited α] in
theorem selected_congr (compile : Compile) (req : SearchRequest) (view view' : α → Look → Static) (items : List α)
    (h : ∀ x ∈ items, view' x = view x) : selected compile req view' items = selected compile req view items := by
  unfold selected allowed
  congr 1
  exact List.filter_congr fun x hx => by rw [h x hx]

theorem catOf_unique {b : List Duration} {k : String} {l : List Static} {c c' : CategoryStats} (h : CatOf b k l c) (h' : CatOf b k l c') :
    c = c' := by
  obtain ⟨a1, a2, a3, a4, a5, a6, a7⟩ := h
  obtain ⟨b1, b2, b3, b4, b5, b6, b7⟩ := h'
  cases c; cases c'
  simp_all

/-- **C157.** `before` and then `after` happen to the categories of a collector, `after` only to other categories than
`category`: traces are added to them, any number, and buffers are made. `view` and `view'` are what a search before
and a search after `after` sees of the traces; those in the category have not changed. A request for the category has the same
traces, in the same order, the same number of matches and the same statistics of the category in both answers. -/
theorem C157_busy (cap : Nat) (before after : List (MOp α)) (category : String) (hne : category ≠ "")
    (hafter : ∀ op ∈ after, op.elsewhere category)
    (view view' : α → Look → Static)
    (hview : ∀ k x look, MOp.add k x ∈ before ++ after → (view x look).category = k ∧ (view' x look).category = k)
    (hsame : ∀ x, MOp.add category x ∈ before → view' x = view x)
    (compile : Compile) (srt : List Static → List Static) (source : String) (req : SearchRequest)
    (hf : req.filter.Fresh compile) (hneg : ∀ d ∈ req.bucketing, 0 ≤ d) (hcat : req.filter.category = category) :
    ∃ s s' ds ds', (newRBs (cap : Int)).run before = some (s, ds) ∧ s.run after = some (s', ds') ∧
      ∀ rings rings', rings.Perm (s.bufs.map Prod.snd) → rings'.Perm (s'.bufs.map Prod.snd) →
        ∃ res res', search compile srt source req view rings = some res ∧ search compile srt source req view' rings' = some res' ∧
          res'.traces = res.traces ∧ res'.matchCount = res.matchCount ∧
          res'.stats.categories.find category = res.stats.categories.find category := by
  subst hcat
  obtain ⟨s, s', ds, ds', e, e', hiso⟩ := C07_isolated cap before after req.filter.category hafter
  refine ⟨s, s', ds, ds', e, e', fun rings rings' hr hr' => ?_⟩
  obtain ⟨s1, d1, g1, hA, -⟩ := (reached_new (α := α) cap).run before
  rw [e] at g1
  obtain ⟨rfl, _⟩ := Prod.mk.inj (Option.some.inj g1)
  obtain ⟨s2, d2, g2, hA', -⟩ := hA.run after
  rw [e'] at g2
  obtain ⟨rfl, _⟩ := Prod.mk.inj (Option.some.inj g2)
  simp only [List.nil_append] at hA hA'
  obtain ⟨q, ps, res, items, a1, a2, a3, a4, a5, a6, a7⟩ := answer_category compile srt source req hf hneg hne view hA
    (fun k x look h => (hview k x look (by simp [h])).1) rings hr
  obtain ⟨q', ps', res', items', b1, b2, b3, b4, b5, b6, b7⟩ := answer_category compile srt source req hf hneg hne view' hA'
    (fun k x look h => (hview k x look h).2) rings' hr'
  rw [a1] at b1
  obtain ⟨rfl, _⟩ := Prod.mk.inj (Option.some.inj b1)
  rw [hiso, a3] at b3
  obtain rfl := Option.some.inj b3
  have hv : ∀ x ∈ items, view' x = view x := by
    intro x hx
    obtain ⟨i, h1, h2⟩ := hA.shows req.filter.category
    rw [a3] at h1
    obtain rfl := Option.some.inj h1
    exact hsame x (mem_addsTo (h2.subset hx))
  have hsel := selected_congr compile q view view' items hv
  have hobs : items.map (view' · .observe) = items.map (view · .observe) :=
    List.map_congr_left fun x hx => by rw [hv x hx]
  rw [hsel] at b4 b5
  rw [hobs] at b6
  refine ⟨res, res', a2, b2, ?_, by rw [a4, b4], ?_⟩
  · rw [a5, b5]
    congr 2
    refine List.map_congr_left fun x hx => ?_
    rw [hv x]
    unfold selected allowed at hx
    exact List.mem_of_mem_filter (List.mem_of_mem_take hx)
  · cases ha : res.stats.categories.find req.filter.category <;> cases hb : res'.stats.categories.find req.filter.category
    · rfl
    · exact absurd (a7 ha) (b6 _ hb).1
    · exact absurd (b7 hb) (a6 _ ha).1
    · rw [catOf_unique (b6 _ hb).2 (a6 _ ha).2]

/-! ## A quiet category and a busy one -/

/-- Two traces of the category `quiet`. -/
def quiet : List (MOp Static) :=
  [.getOrCreate "quiet", .add "quiet" { sampleTrace "q" 1 false false 0 with category := "quiet" },
    .add "quiet" { sampleTrace "r" 2 true true 3 with category := "quiet" }]

/-- Then many of the category `busy`, in buffers of three. -/
def busy : List (MOp Static) :=
  .getOrCreate "busy" :: ["1", "2", "3", "4", "5", "6", "7", "8"].map fun id =>
    .add "busy" { sampleTrace id 9 true false 0 with category := "busy" }

instance : Inhabited Static := ⟨sampleTrace "" 0 false false 0⟩

/-- The hypotheses of `C157_busy`: the busy traces change in the meantime. -/
example :
    let still : Static → Look → Static := fun x _ => x
    let later : Static → Look → Static := fun x _ => if x.category = "busy" then { x with errored := true } else x
    (∀ op ∈ busy, op.elsewhere "quiet") ∧
    (∀ k x look, MOp.add k x ∈ quiet ++ busy → (still x look).category = k ∧ (later x look).category = k) ∧
    (∀ x, MOp.add "quiet" x ∈ quiet → later x = still x) ∧
    ({ category := "quiet" } : Filter).Fresh (fun _ => .error "") := by
  refine ⟨?_, ?_, ?_, (by intro re h; cases h)⟩
  · intro op h
    simp only [busy, List.map_cons, List.map_nil, List.mem_cons, List.not_mem_nil, or_false] at h
    rcases h with rfl | rfl | rfl | rfl | rfl | rfl | rfl | rfl | rfl <;> simp [MOp.elsewhere]
  · intro k x look h
    simp only [quiet, busy, List.map_cons, List.map_nil, List.mem_cons, List.cons_append, List.nil_append, List.not_mem_nil, or_false,
      MOp.add.injEq, reduceCtorEq, false_or] at h
    rcases h with ⟨rfl, rfl⟩ | ⟨rfl, rfl⟩ | ⟨rfl, rfl⟩ | ⟨rfl, rfl⟩ | ⟨rfl, rfl⟩ | ⟨rfl, rfl⟩ | ⟨rfl, rfl⟩ | ⟨rfl, rfl⟩ | ⟨rfl, rfl⟩ | ⟨rfl, rfl⟩ <;>
      exact ⟨by rfl, by rfl⟩
  · intro x h
    simp only [quiet, List.mem_cons, List.not_mem_nil, or_false, MOp.add.injEq, reduceCtorEq, false_or, true_and] at h
    rcases h with rfl | rfl <;> rfl

/-- What a search finds in the buffers after the given operations, in the order of the map. -/
private def foundBy (ops : List (MOp Static)) (req : SearchRequest) : Option (List String) := do
  let (s, _) ← (newRBs 3).run ops
  let res ← search (fun _ => .error "") sortNewest "s" req (fun x _ => x)
    (s.bufs.map Prod.snd)
  return res.traces.map (·.id)

/-- The category is found as before, while a search that does not name it has no room for it anymore. -/
example : foundBy quiet { filter := { category := "quiet" }, limit := 2 } = some ["r", "q"] ∧
    foundBy (quiet ++ busy) { filter := { category := "quiet" }, limit := 2 } = some ["r", "q"] ∧
    foundBy quiet { limit := 2 } = some ["r", "q"] ∧ foundBy (quiet ++ busy) { limit := 2 } = some ["8", "7"] := by
  decide +kernel

end Trc.Search
