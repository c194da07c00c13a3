import Verif.Props.Search

/-!
# C156: each part of a request changes its own part of the answer

Two searches of one collector in the same state, with different requests.
-/

set_option linter.unusedVariables false

namespace Trc

open StatsSpec

variable {α : Type}

/-! ## Lists in a strict order -/

section Order

variable (lt : α → α → Prop)

/-- Nothing comes before something that it is behind of. -/
abbrev Lined (l : List α) : Prop := l.Pairwise fun a b => ¬ lt b a

variable {lt}

theorem lined_unique {all l₁ l₂ : List α} (htri : ∀ a ∈ all, ∀ b ∈ all, a ≠ b → lt a b ∨ lt b a)
    (hsub : ∀ a ∈ l₁, a ∈ all) (h₁ : Lined lt l₁) (h₂ : Lined lt l₂) (hp : l₁.Perm l₂) : l₁ = l₂ := by
  refine List.Perm.eq_of_pairwise (le := fun a b => ¬ lt b a) ?_ h₁ h₂ hp
  intro a b ha hb hab hba
  apply Classical.byContradiction
  intro hne
  rcases htri a (hsub a ha) b (hsub b (hp.mem_iff.mpr hb)) hne with h | h
  · exact hba h
  · exact hab h

theorem take_eq_of_sublist {s m : List α} (hs : s.Sublist m) (hn : m.Nodup) (n : Nat) (h : ∀ x ∈ m.take n, x ∈ s) :
    s.take n = m.take n := by
  induction hs generalizing n with
  | slnil => rfl
  | @cons s m x hs ih =>
    cases n with
    | zero => rfl
    | succ n =>
      exact absurd (hs.subset (h x (by simp))) (List.nodup_cons.mp hn).1
  | @cons_cons s m x hs ih =>
    cases n with
    | zero => rfl
    | succ n =>
      simp only [List.take_succ_cons, List.cons.injEq, true_and]
      refine ih (List.nodup_cons.mp hn).2 n ?_
      intro y hy
      rcases List.mem_cons.mp (h y (by simp [hy])) with rfl | h'
      · exact absurd ((List.take_sublist _ _).subset hy) (List.nodup_cons.mp hn).1
      · exact h'

/-- The first of all, and the first of the first of each part. -/
theorem take_parts {parts : List (List α)} {m s : List α} (n : Nat)
    (htri : ∀ a ∈ parts.flatten, ∀ b ∈ parts.flatten, a ≠ b → lt a b ∨ lt b a)
    (hn : parts.flatten.Nodup) (hparts : ∀ l ∈ parts, Lined lt l) (hm : Lined lt m) (hs : Lined lt s)
    (pm : m.Perm parts.flatten) (ps : s.Perm (parts.flatMap (List.take n))) : s.take n = m.take n := by
  classical
  have hsubl : (parts.flatMap (List.take n)).Sublist parts.flatten := by
    have := flatMap_sublist (List.take n) _root_.id (fun l => List.take_sublist n l) parts
    simpa [List.flatMap_id] using this
  have hnm : m.Nodup := pm.nodup_iff.mpr hn
  have hns : s.Nodup := ps.nodup_iff.mpr (hn.sublist hsubl)
  have hsm : ∀ x ∈ s, x ∈ m := fun x hx => pm.mem_iff.mpr (hsubl.subset (ps.mem_iff.mp hx))
  have hfil : (m.filter (· ∈ s)) = s := by
    refine lined_unique htri (fun a ha => pm.mem_iff.mp (List.mem_filter.mp ha).1) (hm.sublist List.filter_sublist) hs ?_
    rw [List.perm_ext_iff_of_nodup (hnm.sublist List.filter_sublist) hns]
    intro a
    simp only [List.mem_filter, decide_eq_true_eq]
    exact ⟨fun h => h.2, fun h => ⟨hsm a h, h⟩⟩
  have hsl : s.Sublist m := by
    have : (m.filter (· ∈ s)).Sublist m := List.filter_sublist
    rwa [hfil] at this
  refine take_eq_of_sublist hsl hnm n ?_
  intro x hx
  have hxm : x ∈ m := (List.take_sublist _ _).subset hx
  obtain ⟨l, hl, hxl⟩ := List.mem_flatten.mp (pm.mem_iff.mp hxm)
  refine ps.mem_iff.mpr (List.mem_flatMap.mpr ⟨l, hl, ?_⟩)
  apply Classical.byContradiction
  intro hnot
  have hdrop : x ∈ l.drop n := by
    have : x ∈ l.take n ++ l.drop n := by rw [List.take_append_drop]; exact hxl
    rcases List.mem_append.mp this with h | h
    · exact absurd h hnot
    · exact h
  have hlen : (l.take n).length = n := by
    rw [List.length_take]
    have := List.length_pos_of_mem hdrop
    rw [List.length_drop] at this
    omega
  have hfirst : ∀ y ∈ l.take n, ¬ lt x y := by
    have hp := hparts l hl
    rw [← List.take_append_drop n l] at hp
    unfold Lined at hp
    rw [List.pairwise_append] at hp
    exact fun y hy => hp.2.2 y hy x hdrop
  -- where it is among all
  obtain ⟨i, hi, hget⟩ := List.mem_iff_getElem.mp hx
  rw [List.length_take] at hi
  rw [List.getElem_take] at hget
  have hsplit : m = m.take i ++ x :: m.drop (i + 1) := by
    rw [← hget, List.getElem_cons_drop, List.take_append_drop]
  have hsub : l.take n ⊆ m.take i := by
    intro y hy
    have hyl : y ∈ parts.flatten := List.mem_flatten.mpr ⟨l, hl, (List.take_sublist _ _).subset hy⟩
    have hyx : y ≠ x := by rintro rfl; exact hnot hy
    have hlt : lt y x := by
      rcases htri y hyl x (pm.mem_iff.mp hxm) hyx with h | h
      · exact h
      · exact absurd h (hfirst y hy)
    have hym : y ∈ m := pm.mem_iff.mpr hyl
    have hm' := hm
    rw [hsplit] at hym hm'
    unfold Lined at hm'
    rw [List.pairwise_append, List.pairwise_cons] at hm'
    rcases List.mem_append.mp hym with h | h
    · exact h
    · rcases List.mem_cons.mp h with h | h
      · exact absurd h hyx
      · exact absurd hlt (hm'.2.1.1 y h)
  have hnl : (l.take n).Nodup := (hn.sublist (List.sublist_flatten_of_mem hl)).sublist (List.take_sublist _ _)
  have := (List.subperm_of_subset hnl hsub).length_le
  rw [hlen, List.length_take] at this
  omega

end Order

/-! ## Statement -/

/-- One trace is shown before the other: it started later, or it started at the same time and has the greater ID. -/
def Before (a b : Static) : Prop :=
  a.started.after b.started = true ∨ (a.started.equal b.started = true ∧ b.id < a.id)

/-- In each category, traces were added in the order in which they started. -/
def AddedInOrder (view : α → Look → Static) (contents : List (List α)) : Prop :=
  ∀ items ∈ contents, items.Pairwise fun a b => Before (view a .copy) (view b .copy)

theorem before_iff_less {m : Bool} {a b : Static} (ha : a.started.mono.isSome = m) (hb : b.started.mono.isSome = m) :
    Before a b ↔ a.less b = true := by
  rw [less_iff ha hb]
  unfold Before
  rw [after_iff ha hb]
  rw [equal_iff ha hb]

theorem copyOf_less (req : SearchRequest) (view : α → Look → Static) (a b : α) :
    (copyOf req view a).less (copyOf req view b) = (view a .copy).less (view b .copy) := rfl

theorem distinct_order {view : α → Look → Static} {all : List α}
    (hc : Comparable (all.map fun c => (view c .copy).started)) (hnd : (all.map fun c => (view c .copy).id).Nodup) :
    ∀ a ∈ all, ∀ b ∈ all, a ≠ b → (view a .copy).less (view b .copy) = true ∨ (view b .copy).less (view a .copy) = true := by
  obtain ⟨k, hk⟩ := hc
  have hmono : ∀ c ∈ all, (view c .copy).started.mono.isSome = k :=
    fun c hc => hk _ (List.mem_map_of_mem (f := fun c => (view c .copy).started) hc)
  intro a ha b hb hne
  cases q1 : (view a .copy).less (view b .copy) with
  | true => exact .inl rfl
  | false =>
    cases q2 : (view b .copy).less (view a .copy) with
    | true => exact .inr rfl
    | false => exact absurd (List.inj_on_of_nodup_map hnd ha hb (less_eq_of_neither (hmono a ha) (hmono b hb) q1 q2).2) hne

/-- The retained traces that satisfy the filter, in the order in which they are shown, and the answer. -/
theorem answer_first [Inhabited α] (compile : Compile) (srt : List Static → List Static) (hs : SortOK srt)
    (source : String) (req : SearchRequest) (hf : req.filter.Fresh compile) (view : α → Look → Static)
    (rings : List (Ring.RB α)) (contents : List (List α)) (hb : Buffers rings contents)
    (hc : Comparable (contents.flatten.map fun c => (view c .copy).started))
    (hnd : (contents.flatten.map fun c => (view c .copy).id).Nodup) (hord : AddedInOrder view contents) :
    ∃ (res : SearchResponse) (m : List α), search compile srt source req view rings = some res ∧
      m.Nodup ∧ (∀ c, c ∈ m ↔ c ∈ contents.flatten ∧ req.filter.Sat compile (view c .filter)) ∧
      Lined (fun a b => (view a .copy).less (view b .copy) = true) m ∧
      res.traces = (m.take (limitOf req).toNat).map (copyOf req view) := by
  obtain ⟨req', problems, res, sel, h1, h2, hl, h3, h4, h5, p1, p2, h6, _⟩ :=
    search_chosen compile srt hs source req hf view rings contents hb
  have hsub := flatMap_selected_sublist compile req' view contents
  obtain ⟨k, hk⟩ := hc
  have hmono : ∀ c ∈ contents.flatten, (view c .copy).started.mono.isSome = k :=
    fun c hc => hk _ (List.mem_map_of_mem (f := fun c => (view c .copy).started) hc)
  have hall : (contents.map (allowed compile req'.filter view)).flatten.Sublist contents.flatten := by
    have := flatMap_sublist (allowed compile req'.filter view) _root_.id (fun l => List.filter_sublist) contents
    simpa [List.flatMap_id, List.flatMap_def] using this
  have hcmp : ∀ l : List α, (∀ c ∈ l, c ∈ contents.flatten) → Comparable ((l.map (copyOf req view)).map (·.started)) := by
    intro l hl'
    refine ⟨k, ?_⟩
    intro t ht
    simp only [List.map_map, List.mem_map, Function.comp] at ht
    obtain ⟨c, hc, rfl⟩ := ht
    exact hmono c (hl' c hc)
  obtain ⟨m, q1, q2⟩ := perm_map_inv (copyOf req view) (hs.perm ((contents.map (allowed compile req'.filter view)).flatten.map (copyOf req view)))
  have s1 := hs.sorted _ (hcmp (contents.flatMap (selected compile req' view)) (fun c hc => hsub.subset hc))
  have s2 := hs.sorted _ (hcmp (contents.map (allowed compile req'.filter view)).flatten (fun c hc => hall.subset hc))
  rw [p2] at s1
  rw [q2] at s2
  have lined : ∀ l : List α, NewestFirst (l.map (copyOf req view)) → Lined (fun a b => (view a .copy).less (view b .copy) = true) l := by
    intro l h
    unfold NewestFirst at h
    rw [List.pairwise_map] at h
    refine h.imp ?_
    intro a b hab
    rw [copyOf_less] at hab
    simp [hab]
  have hnodup : contents.flatten.Nodup := List.Nodup.of_map _ hnd
  have hinj : ∀ c ∈ contents.flatten, ∀ d ∈ contents.flatten, (view c .copy).id = (view d .copy).id → c = d :=
    fun c hc d hd e => List.inj_on_of_nodup_map hnd hc hd e
  have htri : ∀ a ∈ contents.flatten, ∀ b ∈ contents.flatten, a ≠ b →
      (view a .copy).less (view b .copy) = true ∨ (view b .copy).less (view a .copy) = true := by
    intro a ha b hb hne
    cases e1 : (view a .copy).less (view b .copy) with
    | true => exact .inl rfl
    | false =>
      cases e2 : (view b .copy).less (view a .copy) with
      | true => exact .inr rfl
      | false => exact absurd (hinj a ha b hb (less_eq_of_neither (hmono a ha) (hmono b hb) e1 e2).2) hne
  refine ⟨res, m, h2, ?_, ?_, lined m s2, ?_⟩
  · exact q1.nodup_iff.mpr (hnodup.sublist hall)
  · intro c
    rw [q1.mem_iff]
    constructor
    · intro h
      refine ⟨hall.subset h, ?_⟩
      obtain ⟨l, hl', hcl⟩ := List.mem_flatten.mp h
      obtain ⟨items, -, rfl⟩ := List.mem_map.mp hl'
      exact (selected_sat hf h5).mp (List.mem_filter.mp hcl).2
    · rintro ⟨h, hsat⟩
      obtain ⟨items, hi, hci⟩ := List.mem_flatten.mp h
      exact List.mem_flatten.mpr ⟨_, List.mem_map_of_mem hi, List.mem_filter.mpr ⟨hci, (selected_sat hf h5).mpr hsat⟩⟩
  · rw [h6]
    congr 1
    refine take_parts (lt := fun a b => (view a .copy).less (view b .copy) = true) (parts := contents.map (allowed compile req'.filter view))
      (limitOf req).toNat ?_ (hnodup.sublist hall) ?_ (lined m s2) (lined sel s1) q1 ?_
    · exact fun a ha b hb => htri a (hall.subset ha) b (hall.subset hb)
    · intro l hl'
      obtain ⟨items, hi, rfl⟩ := List.mem_map.mp hl'
      have hp : items.Pairwise fun a b => ¬ (view b .copy).less (view a .copy) = true := by
        have hmem : ∀ c ∈ items, c ∈ contents.flatten := fun c hc => List.mem_flatten.mpr ⟨items, hi, hc⟩
        refine List.Pairwise.imp_of_mem ?_ (hord items hi)
        intro a b ha hb hab
        rw [before_iff_less (hmono a (hmem a ha)) (hmono b (hmem b hb))] at hab
        simp [less_asymm (hmono a (hmem a ha)) (hmono b (hmem b hb)) hab]
      exact hp.sublist List.filter_sublist
    · rw [List.flatMap_map]
      have : (fun a => List.take (limitOf req).toNat (allowed compile req'.filter view a)) = selected compile req' view := by
        funext items
        unfold selected
        rw [hl]
      rw [this]
      exact p1

theorem normalize_buckets {compile : Compile} {req req' r r' : SearchRequest} {p p' : List String}
    (h : req.normalize compile = some (r, p)) (h' : req'.normalize compile = some (r', p')) (he : req.bucketing = req'.bucketing) :
    r.bucketing = r'.bucketing := by
  unfold SearchRequest.normalize at h h'
  rw [he] at h
  cases hb : normalizeBucketing req'.bucketing with
  | none => rw [hb] at h; cases h
  | some b =>
    rw [hb] at h h'
    rw [← (Prod.mk.inj (Option.some.inj h)).1, ← (Prod.mk.inj (Option.some.inj h')).1]

/-! ## The theorems -/

/-- **C156** The statistics and the total depend on the buckets that are asked for only: neither on the filter, nor on the
limit, nor on the depth of stacks. -/
theorem C156_statistics [Inhabited α] (compile : Compile) (srt : List Static → List Static) (hs : SortOK srt)
    (source : String) (req req' : SearchRequest) (hf : req.filter.Fresh compile) (hf' : req'.filter.Fresh compile)
    (he : req.bucketing = req'.bucketing) (view : α → Look → Static)
    (rings : List (Ring.RB α)) (contents : List (List α)) (hb : Buffers rings contents) :
    ∃ res res', search compile srt source req view rings = some res ∧ search compile srt source req' view rings = some res' ∧
      res.stats = res'.stats ∧ res.totalCount = res'.totalCount ∧ res.sources = res'.sources := by
  obtain ⟨r, p, res, h1, h2, _, _, _, _, h7, _, h9, _, h11, _⟩ :=
    search_spec compile srt source req hf view rings contents hb.walk hb.rep
  obtain ⟨r', p', res', h1', h2', _, _, _, _, h7', _, h9', _, h11', _⟩ :=
    search_spec compile srt source req' hf' view rings contents hb.walk hb.rep
  rw [normalize_buckets h1 h1' he, h11'] at h11
  exact ⟨res, res', h2, h2', (Option.some.inj h11).symm, by rw [h9, h9'], by rw [h7, h7']⟩

/-- **C156** The buckets that are asked for change nothing but the statistics. -/
theorem C156_buckets [Inhabited α] (compile : Compile) (srt : List Static → List Static)
    (source : String) (req : SearchRequest) (buckets : List Duration) (hf : req.filter.Fresh compile) (view : α → Look → Static)
    (rings : List (Ring.RB α)) (contents : List (List α)) (hb : Buffers rings contents) :
    ∃ res res', search compile srt source req view rings = some res ∧
      search compile srt source { req with bucketing := buckets } view rings = some res' ∧
      res' = { res with stats := res'.stats } := by
  obtain ⟨r, p, res, h1, h2, _, _, h5, h6, h7, h8, h9, h10, _, h12⟩ :=
    search_spec compile srt source req hf view rings contents hb.walk hb.rep
  obtain ⟨r', p', res', h1', h2', _, _, h5', h6', h7', h8', h9', h10', _, h12'⟩ :=
    search_spec compile srt source { req with bucketing := buckets } hf view rings contents hb.walk hb.rep
  have hl := limitOf_spec h1
  have hl' := limitOf_spec h1'
  have e1 : r'.limit = r.limit := by rw [hl, hl']; rfl
  have e2 : r'.filter = r.filter := by rw [h5, h5']
  have e3 : r'.stackDepth = r.stackDepth := by rw [h6, h6']
  have e4 : (selected compile r' view) = selected compile r view := by
    funext items
    unfold selected
    rw [e1, e2]
  have e5 : p' = p := by
    unfold SearchRequest.normalize at h1 h1'
    cases hb1 : normalizeBucketing req.bucketing with
    | none => rw [hb1] at h1; cases h1
    | some b =>
      cases hb2 : normalizeBucketing buckets with
      | none => simp only [hb2] at h1'; cases h1'
      | some b' =>
        simp only [hb1] at h1
        simp only [hb2] at h1'
        rw [← (Prod.mk.inj (Option.some.inj h1)).2, ← (Prod.mk.inj (Option.some.inj h1')).2]
  refine ⟨res, res', h2, h2', ?_⟩
  have t1 : res'.sources = res.sources := by rw [h7, h7']
  have t2 : res'.totalCount = res.totalCount := by rw [h9, h9']
  have t3 : res'.matchCount = res.matchCount := by rw [h10, h10', e4]
  have t4 : res'.traces = res.traces := by rw [h12, h12', e4, e1, e3]
  have t5 : res'.problems = res.problems := by rw [h8, h8', e5]
  rw [← t1, ← t2, ← t3, ← t4, ← t5]

/-- **C156** The depth of stacks changes nothing but the stacks: the same traces are found, in the same order. -/
theorem C156_depth [Inhabited α] (compile : Compile) (srt : List Static → List Static) (hs : SortOK srt)
    (source : String) (req : SearchRequest) (depth : Int) (hf : req.filter.Fresh compile) (view : α → Look → Static)
    (rings : List (Ring.RB α)) (contents : List (List α)) (hb : Buffers rings contents)
    (hc : Comparable (contents.flatten.map fun c => (view c .copy).started))
    (hnd : (contents.flatten.map fun c => (view c .copy).id).Nodup) :
    ∃ res res', search compile srt source req view rings = some res ∧
      search compile srt source { req with stackDepth := depth } view rings = some res' ∧
      res' = { res with traces := res'.traces } ∧
      ∃ cs : List α, res.traces = cs.map (fun c => (view c .copy).shortened req.stackDepth) ∧
        res'.traces = cs.map (fun c => (view c .copy).shortened depth) := by
  obtain ⟨r, p, res, sel, h1, h2, hl, h3, h4, h5, p1, p2, h6, h7, h8, h9⟩ :=
    search_chosen compile srt hs source req hf view rings contents hb
  obtain ⟨r', p', res', sel', h1', h2', hl', h3', h4', h5', p1', p2', h6', h7', h8', h9'⟩ :=
    search_chosen compile srt hs source { req with stackDepth := depth } hf view rings contents hb
  obtain ⟨_, _, _, g1, g2, _, _, _, _, g7, g8, _⟩ := search_spec compile srt source req hf view rings contents hb.walk hb.rep
  obtain ⟨_, _, _, g1', g2', _, _, _, _, g7', g8', _⟩ :=
    search_spec compile srt source { req with stackDepth := depth } hf view rings contents hb.walk hb.rep
  rw [h1] at g1
  rw [h1'] at g1'
  rw [h2] at g2
  rw [h2'] at g2'
  cases g1; cases g1'; cases g2; cases g2'
  have e1 : r'.limit = r.limit := by rw [hl, hl']; rfl
  have e2 : r'.filter = r.filter := by rw [h5, h5']
  have e4 : (selected compile r' view) = selected compile r view := by
    funext items
    unfold selected
    rw [e1, e2]
  have e5 : p' = p := by
    unfold SearchRequest.normalize at h1 h1'
    cases hb1 : normalizeBucketing req.bucketing with
    | none => rw [hb1] at h1; cases h1
    | some b =>
      simp only [hb1] at h1 h1'
      rw [← (Prod.mk.inj (Option.some.inj h1)).2, ← (Prod.mk.inj (Option.some.inj h1')).2]
  obtain ⟨k, hk⟩ := hc
  have hmono : ∀ c ∈ contents.flatten, (view c .copy).started.mono.isSome = k :=
    fun c hc => hk _ (List.mem_map_of_mem (f := fun c => (view c .copy).started) hc)
  have hsub := flatMap_selected_sublist compile r view contents
  have hcmp : ∀ q : SearchRequest, Comparable (((contents.flatMap (selected compile r view)).map (copyOf q view)).map (·.started)) := by
    intro q
    refine ⟨k, ?_⟩
    intro t ht
    simp only [List.map_map, List.mem_map, Function.comp] at ht
    obtain ⟨c, hc, rfl⟩ := ht
    exact hmono c (hsub.subset hc)
  rw [e4] at p1' p2' h8'
  have s1 := hs.sorted _ (hcmp req)
  have s2 := hs.sorted _ (hcmp { req with stackDepth := depth })
  rw [p2] at s1
  rw [p2'] at s2
  have lined : ∀ (q : SearchRequest) (l : List α), NewestFirst (l.map (copyOf q view)) →
      Lined (fun a b => (view a .copy).less (view b .copy) = true) l := by
    intro q l h
    unfold NewestFirst at h
    rw [List.pairwise_map] at h
    refine h.imp ?_
    intro a b hab
    rw [copyOf_less] at hab
    simp [hab]
  have htri : ∀ a ∈ contents.flatten, ∀ b ∈ contents.flatten, a ≠ b →
      (view a .copy).less (view b .copy) = true ∨ (view b .copy).less (view a .copy) = true := by
    intro a ha b hb hne
    cases q1 : (view a .copy).less (view b .copy) with
    | true => exact .inl rfl
    | false =>
      cases q2 : (view b .copy).less (view a .copy) with
      | true => exact .inr rfl
      | false => exact absurd (List.inj_on_of_nodup_map hnd ha hb (less_eq_of_neither (hmono a ha) (hmono b hb) q1 q2).2) hne
  have hsel : sel = sel' := lined_unique htri (fun a ha => hsub.subset (p1.mem_iff.mp ha)) (lined _ _ s1) (lined _ _ s2) (p1.trans p1'.symm)
  have t1 : res'.sources = res.sources := by rw [g7, g7']
  have t2 : res'.totalCount = res.totalCount := by rw [h7, h7']
  have t3 : res'.matchCount = res.matchCount := by rw [h8, h8']
  have t4 : res'.stats = res.stats := by
    rw [normalize_buckets h1' h1 rfl, h9] at h9'
    exact (Option.some.inj h9').symm
  have t5 : res'.problems = res.problems := by rw [g8, g8', e5]
  refine ⟨res, res', h2, h2', ?_, sel.take (limitOf req).toNat, h6, ?_⟩
  · rw [← t1, ← t2, ← t3, ← t4, ← t5]
  · rw [h6', ← hsel]
    rfl

/-- **C156** A higher limit shows the same traces first, if in each category traces were added in the order in which they
started.
Missing: that assumption; see `C156_limit_violated` and `C156_limit_exact`. -/
theorem C156_limit_partial [Inhabited α] (compile : Compile) (srt : List Static → List Static) (hs : SortOK srt)
    (source : String) (req req' : SearchRequest) (hf : req.filter.Fresh compile) (he : req'.filter = req.filter)
    (hd : req'.stackDepth = req.stackDepth) (hl : limitOf req ≤ limitOf req') (view : α → Look → Static)
    (rings : List (Ring.RB α)) (contents : List (List α)) (hb : Buffers rings contents)
    (hc : Comparable (contents.flatten.map fun c => (view c .copy).started))
    (hnd : (contents.flatten.map fun c => (view c .copy).id).Nodup) (hord : AddedInOrder view contents) :
    ∃ res res', search compile srt source req view rings = some res ∧ search compile srt source req' view rings = some res' ∧
      res.traces = res'.traces.take (limitOf req).toNat := by
  obtain ⟨res, m, h1, h2, h3, h4, h5⟩ := answer_first compile srt hs source req hf view rings contents hb hc hnd hord
  obtain ⟨res', m', h1', h2', h3', h4', h5'⟩ := answer_first compile srt hs source req' (he ▸ hf) view rings contents hb hc hnd hord
  have hm : m = m' := by
    refine lined_unique (distinct_order hc hnd) (fun a ha => ((h3 a).mp ha).1) h4 h4' ?_
    rw [List.perm_ext_iff_of_nodup h2 h2']
    intro a
    rw [h3, h3', he]
  refine ⟨res, res', h1, h1', ?_⟩
  have hcopy : copyOf req' view = copyOf req view := by
    unfold copyOf
    rw [hd]
  rw [h5, h5', hm, hcopy, ← List.map_take, List.take_take, Nat.min_eq_left (by omega)]

/-- **C156** A narrower filter shows, first, those of the traces shown before that satisfy it; and nothing else if there was
room for more, so that all that satisfied the wider filter was shown.  If in each category traces were added in the order in
which they started.
Missing: that assumption; see `C156_narrower_violated`. -/
theorem C156_narrower_partial [Inhabited α] (compile : Compile) (srt : List Static → List Static) (hs : SortOK srt)
    (source : String) (req req' : SearchRequest) (hf : req.filter.Fresh compile) (hf' : req'.filter.Fresh compile)
    (hl : limitOf req ≤ limitOf req') (view : α → Look → Static)
    (rings : List (Ring.RB α)) (contents : List (List α)) (hb : Buffers rings contents)
    (hc : Comparable (contents.flatten.map fun c => (view c .copy).started))
    (hnd : (contents.flatten.map fun c => (view c .copy).id).Nodup) (hord : AddedInOrder view contents)
    (hn : ∀ c ∈ contents.flatten, req'.filter.Sat compile (view c .filter) → req.filter.Sat compile (view c .filter)) :
    ∃ res res', search compile srt source req view rings = some res ∧ search compile srt source req' view rings = some res' ∧
      ∃ cs cs' : List α, res.traces = cs.map (fun c => (view c .copy).shortened req.stackDepth) ∧
        res'.traces = cs'.map (fun c => (view c .copy).shortened req'.stackDepth) ∧
        (open Classical in cs.filter fun c => req'.filter.Sat compile (view c .filter)) <+: cs' ∧
        ((res.traces.length : Int) < limitOf req → cs' = open Classical in cs.filter fun c => req'.filter.Sat compile (view c .filter)) := by
  classical
  obtain ⟨res, m, h1, h2, h3, h4, h5⟩ := answer_first compile srt hs source req hf view rings contents hb hc hnd hord
  obtain ⟨res', m', h1', h2', h3', h4', h5'⟩ := answer_first compile srt hs source req' hf' view rings contents hb hc hnd hord
  have hm : (m.filter fun c => req'.filter.Sat compile (view c .filter)) = m' := by
    refine lined_unique (distinct_order hc hnd) (fun a ha => ((h3 a).mp (List.mem_filter.mp ha).1).1)
      (h4.sublist List.filter_sublist) h4' ?_
    rw [List.perm_ext_iff_of_nodup (h2.sublist List.filter_sublist) h2']
    intro a
    rw [List.mem_filter, h3, h3']
    simp only [decide_eq_true_eq]
    exact ⟨fun h => ⟨h.1.1, h.2⟩, fun h => ⟨⟨h.1, hn a h.1 h.2⟩, h.2⟩⟩
  refine ⟨res, res', h1, h1', m.take (limitOf req).toNat, m'.take (limitOf req').toNat, h5, h5', ?_, ?_⟩
  · rw [List.prefix_take_iff, ← hm]
    constructor
    · exact (List.take_prefix _ _).filter _
    · have := List.length_filter_le (fun c => decide (req'.filter.Sat compile (view c .filter))) (m.take (limitOf req).toNat)
      rw [List.length_take] at this
      omega
  · intro hlt
    rw [h5, List.length_map, List.length_take] at hlt
    have hlen : m.length ≤ (limitOf req).toNat := by omega
    have hlen' : m'.length ≤ m.length := by rw [← hm]; exact List.length_filter_le ..
    rw [List.take_of_length_le hlen, List.take_of_length_le (by omega), hm]

/-- A filter for two traces of one category selects these two, as far as the limit allows. -/
theorem pair_selected {compile : Compile} {r : SearchRequest} {view : α → Look → Static} {contents : List (List α)} {items : List α}
    (hnodup : contents.flatten.Nodup) (hi : items ∈ contents) {a b : α} (hab : [a, b].Sublist items)
    (hsat : ∀ c ∈ contents.flatten, (r.filter.allow compile (view c .filter)).1 = true ↔ c = a ∨ c = b) :
    contents.flatMap (selected compile r view) = [a, b].take r.limit.toNat := by
  have hsub : items.Sublist contents.flatten := List.sublist_flatten_of_mem hi
  have hai : a ∈ items := hab.subset (by simp)
  have hbi : b ∈ items := hab.subset (by simp)
  have hal : allowed compile r.filter view items = [a, b] := by
    have e1 : [a, b].Sublist (allowed compile r.filter view items) := by
      have := hab.filter fun c => (r.filter.allow compile (view c .filter)).1
      rw [List.filter_eq_self.mpr] at this
      · exact this
      · intro c hcab
        refine (hsat c (hsub.subset (hab.subset hcab))).mpr ?_
        simpa using hcab
    refine (e1.eq_of_length_le ?_).symm
    have hn2 : (allowed compile r.filter view items).Nodup := (hnodup.sublist hsub).sublist List.filter_sublist
    have hss : (allowed compile r.filter view items) ⊆ [a, b] := by
      intro c hcs
      have := List.mem_filter.mp hcs
      simpa using (hsat c (hsub.subset this.1)).mp this.2
    exact (List.subperm_of_subset hn2 hss).length_le
  obtain ⟨l₁, l₂, rfl⟩ := List.append_of_mem hi
  simp only [List.flatten_append, List.flatten_cons] at hnodup hsat
  rw [List.nodup_append, List.nodup_append] at hnodup
  obtain ⟨-, ⟨-, -, n3⟩, n4⟩ := hnodup
  have other : ∀ l : List (List α), (∀ x ∈ l.flatten, x ∈ l₁.flatten ++ (items ++ l₂.flatten)) → (∀ x ∈ l.flatten, x ∉ items) →
      l.flatMap (selected compile r view) = [] := by
    intro l h1 h2
    rw [List.flatMap_eq_nil_iff]
    intro items' hi'
    unfold selected allowed
    rw [List.filter_eq_nil_iff.mpr]
    · simp
    · intro c hc hall
      have hcl : c ∈ l.flatten := List.mem_flatten.mpr ⟨items', hi', hc⟩
      rcases (hsat c (h1 c hcl)).mp hall with rfl | rfl
      · exact h2 _ hcl hai
      · exact h2 _ hcl hbi
  rw [List.flatMap_append, List.flatMap_cons, other l₁, other l₂]
  · unfold selected
    rw [hal]
    simp
  · intro x hx; simp only [List.mem_append]; exact .inr (.inr hx)
  · intro x hx hxi; exact n3 x hxi x hx rfl
  · intro x hx; simp only [List.mem_append]; exact .inl hx
  · intro x hx hxi; exact n4 x hx x (by simp [hxi]) rfl

/-- **C156** Exactly: for traces with distinct IDs, a higher limit always shows the same traces first if and only if in each
category traces were added in the order in which they started. -/
theorem C156_limit_exact [Inhabited α] (compile : Compile) (srt : List Static → List Static) (hs : SortOK srt)
    (source : String) (view : α → Look → Static) (rings : List (Ring.RB α)) (contents : List (List α)) (hb : Buffers rings contents)
    (hc : Comparable (contents.flatten.map fun c => (view c .copy).started))
    (hid : ∀ c look, (view c look).id = (view c .copy).id) (hnd : (contents.flatten.map fun c => (view c .copy).id).Nodup) :
    (∀ req req' : SearchRequest, req.filter.Fresh compile → req'.filter = req.filter → req'.stackDepth = req.stackDepth →
      limitOf req ≤ limitOf req' →
      ∃ res res', search compile srt source req view rings = some res ∧ search compile srt source req' view rings = some res' ∧
        res.traces = res'.traces.take (limitOf req).toNat) ↔
    AddedInOrder view contents := by
  constructor
  · intro hall items hi
    rw [List.pairwise_iff_forall_sublist]
    intro a b hab
    have hsub : items.Sublist contents.flatten := List.sublist_flatten_of_mem hi
    have ham : a ∈ contents.flatten := hsub.subset (hab.subset (by simp))
    have hbm : b ∈ contents.flatten := hsub.subset (hab.subset (by simp))
    have hnodup : contents.flatten.Nodup := List.Nodup.of_map _ hnd
    have hne : a ≠ b := by
      have := hnodup.sublist (hab.trans hsub)
      simpa using this
    obtain ⟨k, hk⟩ := id hc
    have hmono : ∀ c ∈ contents.flatten, (view c .copy).started.mono.isSome = k :=
      fun c hc => hk _ (List.mem_map_of_mem (f := fun c => (view c .copy).started) hc)
    rw [before_iff_less (hmono a ham) (hmono b hbm)]
    rcases distinct_order hc hnd a ham b hbm hne with h | hba
    · exact h
    exfalso
    let req : SearchRequest := { limit := 1, filter := { ids := [(view a .copy).id, (view b .copy).id] } }
    let req' : SearchRequest := { limit := 2, filter := { ids := [(view a .copy).id, (view b .copy).id] } }
    have hfr : req.filter.Fresh compile := by intro re h; cases h
    have hsat : ∀ c, req.filter.Sat compile (view c .filter) ↔ (view c .copy).id = (view a .copy).id ∨ (view c .copy).id = (view b .copy).id := by
      intro c
      unfold Filter.Sat Filter.Basic
      simp [req, hid c .filter]
    have hinj : ∀ c ∈ contents.flatten, ∀ d ∈ contents.flatten, (view c .copy).id = (view d .copy).id → c = d :=
      fun c hc d hd e => List.inj_on_of_nodup_map hnd hc hd e
    have hpair : ∀ r : SearchRequest, r.filter = (req.filter.normalize compile).1 → ∀ c ∈ contents.flatten,
        ((r.filter.allow compile (view c .filter)).1 = true ↔ c = a ∨ c = b) := by
      intro r hr c hcm
      rw [selected_sat hfr hr, hsat]
      constructor
      · rintro (h | h)
        · exact .inl (hinj c hcm a ham h)
        · exact .inr (hinj c hcm b hbm h)
      · rintro (rfl | rfl)
        · exact .inl rfl
        · exact .inr rfl
    obtain ⟨r, _, res, sel, _, h2, hl, _, _, h5, p1, _, h6, _⟩ := search_chosen compile srt hs source req hfr view rings contents hb
    obtain ⟨r', _, res', sel', _, h2', hl', _, _, h5', p1', p2', h6', _⟩ :=
      search_chosen compile srt hs source req' hfr view rings contents hb
    have lim : limitOf req = 1 := rfl
    have lim' : limitOf req' = 2 := rfl
    rw [pair_selected hnodup hi hab (hpair r h5), hl, lim] at p1
    rw [pair_selected hnodup hi hab (hpair r' h5'), hl', lim'] at p1' p2'
    have e1 : sel = [a] := List.perm_singleton.mp p1
    have hsorted := hs.sorted (([a, b].take (2 : Int).toNat).map (copyOf req' view)) ⟨k, by
      intro t ht
      simp only [List.map_map, List.mem_map, Function.comp] at ht
      obtain ⟨c, hcc, rfl⟩ := ht
      have : c = a ∨ c = b := by simpa using hcc
      rcases this with rfl | rfl
      · exact hmono _ ham
      · exact hmono _ hbm⟩
    rw [p2'] at hsorted
    have p1'' : sel'.Perm [a, b] := p1'
    obtain ⟨res₁, res₁', g1, g2, g3⟩ := hall req req' hfr rfl rfl (by rw [lim, lim']; decide)
    rw [h2] at g1
    rw [h2'] at g2
    cases g1; cases g2
    rw [h6, h6', e1, lim, lim'] at g3
    -- the first of the longer answer is the one that was added last
    match sel', p1'', hsorted, g3 with
    | [x, y], p, hsorted, g3 =>
      have hx : x ∈ contents.flatten ∧ y ∈ contents.flatten := by
        constructor
        · have : x ∈ [a, b] := p.mem_iff.mp (by simp)
          rcases (by simpa using this : x = a ∨ x = b) with rfl | rfl
          · exact ham
          · exact hbm
        · have : y ∈ [a, b] := p.mem_iff.mp (by simp)
          rcases (by simpa using this : y = a ∨ y = b) with rfl | rfl
          · exact ham
          · exact hbm
      have hxa : x = a := by
        have h := congrArg (List.map Static.id) g3
        refine hinj x hx.1 a ham ?_
        simpa [copyOf, Static.shortened] using h.symm
      subst hxa
      have hyb : y = b := by
        have := List.perm_cons x |>.mp p
        simpa using this
      subst hyb
      unfold NewestFirst at hsorted
      simp only [List.map_cons, List.map_nil, List.pairwise_cons, List.mem_singleton, forall_eq] at hsorted
      have := hsorted.1
      rw [copyOf_less, hba] at this
      cases this
    | [], p, _, _ => have := p.length_eq; simp at this
    | [_], p, _, _ => have := p.length_eq; simp at this
    | _ :: _ :: _ :: _, p, _, _ => have := p.length_eq; simp at this
  · intro hord req req' hf he hd hl
    exact C156_limit_partial compile srt hs source req req' hf he hd hl view rings contents hb hc hnd hord

/-- **C156** is false for limits when traces are created concurrently: with a limit of 1 the trace "c" is shown, with a limit
of 2 it is not.  In two other categories, a trace that had started earlier was added last. -/
theorem C156_limit_violated :
    ∃ (rb₁ rb₂ rb₃ : Ring.RB Static) (o₁ o₂ o₃ : List (List Static)) (res res' : SearchResponse),
      Ring.exec 10 [.add (sampleTrace "b" 5 false false 0), .add (sampleTrace "a" 1 false false 0)] = some (rb₁, o₁) ∧
      Ring.exec 10 [.add (sampleTrace "f" 6 false false 0), .add (sampleTrace "e" 1 false false 0)] = some (rb₂, o₂) ∧
      Ring.exec 10 [.add (sampleTrace "c" 3 false false 0)] = some (rb₃, o₃) ∧
      search (fun _ => .error "") sortNewest "s" { limit := 1 } still [rb₁, rb₂, rb₃] = some res ∧
      search (fun _ => .error "") sortNewest "s" { limit := 2 } still [rb₁, rb₂, rb₃] = some res' ∧
      res.traces.map (·.id) = ["c"] ∧ res'.traces.map (·.id) = ["f", "b"] := by
  refine ⟨_, _, _, _, _, _, _, _, rfl, rfl, rfl, rfl, rfl, ?_, ?_⟩
  · rfl
  · rfl

/-- **C156** Nor is it true for filters then: the trace "c" is shown without a filter, and it satisfies the filter, but it is not
shown with the filter. -/
theorem C156_narrower_violated :
    ∃ (rb₁ rb₂ : Ring.RB Static) (o₁ o₂ : List (List Static)) (res res' : SearchResponse),
      Ring.exec 10 [.add (sampleTrace "b" 5 false false 0), .add (sampleTrace "a" 1 false false 0)] = some (rb₁, o₁) ∧
      Ring.exec 10 [.add (sampleTrace "c" 3 false false 0)] = some (rb₂, o₂) ∧
      search (fun _ => .error "") sortNewest "s" { limit := 1 } still [rb₁, rb₂] = some res ∧
      search (fun _ => .error "") sortNewest "s" { limit := 1, filter := { ids := ["b", "c"] } } still [rb₁, rb₂] = some res' ∧
      res.traces.map (·.id) = ["c"] ∧ res'.traces.map (·.id) = ["b"] ∧
      ({ ids := ["b", "c"] } : Filter).Sat (fun _ => .error "") (sampleTrace "c" 3 false false 0) := by
  refine ⟨_, _, _, _, _, _, rfl, rfl, rfl, rfl, rfl, rfl, ?_⟩
  unfold Filter.Sat Filter.Basic
  simp [sampleTrace]

/-- Contents meeting the premises: two categories, in each of which traces were added in order. -/
example :
    let contents := [[sampleTrace "b" 2 true false 3, sampleTrace "a" 1 false false 0], [{ sampleTrace "d" 5 false false 0 with category := "e" }]]
    Comparable (contents.flatten.map fun c => (still c .copy).started) ∧ (contents.flatten.map fun c => (still c .copy).id).Nodup ∧
    AddedInOrder still contents ∧ (∀ c look, (still c look).id = (still c .copy).id) := by
  refine ⟨⟨false, by decide⟩, by decide, ?_, fun _ _ => rfl⟩
  unfold AddedInOrder Before
  decide

/-- A narrower filter. -/
example : ({} : Filter).Fresh (fun _ => .error "") ∧ ({ isErrored := true } : Filter).Fresh (fun _ => .error "") ∧
    ∀ t, ({ isErrored := true } : Filter).Sat (fun _ => .error "") t → ({} : Filter).Sat (fun _ => .error "") t := by
  refine ⟨(by intro re h; cases h), (by intro re h; cases h), ?_⟩
  intro t _
  exact ⟨⟨Or.inl rfl, Or.inl rfl, Or.inl rfl, by simp, by simp, by simp, by simp, by simp⟩, Or.inl rfl⟩

end Trc
