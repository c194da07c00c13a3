import Verif.Search.StatsSpec

/-!
# Properties of search statistics: C37–C41, C43

C42 (memory shared by merged statistics) is in `Verif/Props/StatsHeap.lean`.

A trace is given to `Observe` as its getters read (`Static`).  `StatsSpec` defines what is to be
counted directly on the list of traces, without reference to the code.
-/

set_option linter.unusedVariables false

namespace Trc

open Ring (Assoc)
open StatsSpec

/-! ## C37, C38, C39: Observe -/

theorem three_kinds (l : List Static) : actives l + failed l + succeeded l = l.length := by
  induction l with
  | nil => rfl
  | cons t l ih =>
    have e : t :: l = [t] ++ l := rfl
    rw [e, actives_append, failed_append, succeeded_append, List.length_append]
    have : actives [t] + failed [t] + succeeded [t] = 1 := by
      cases hf : t.finished <;> cases he : t.errored <;> simp [actives, failed, succeeded, hf, he]
    simp only [List.length_singleton]
    omega

theorem tookAtLeast_zero (l : List Static) (h : ∀ t ∈ l, t.finished = true → t.errored = false → 0 ≤ t.duration) :
    tookAtLeast 0 l = succeeded l := by
  unfold tookAtLeast succeeded
  congr 2
  apply List.filter_congr
  intro t ht
  cases hf : t.finished <;> cases he : t.errored <;> simp
  exact h t ht hf he

/-- C37.  Any traces, any ascending bucketing starting at 0 (C35: that is what a request has):
every category is present exactly if it was observed, and its counts are the numbers of its
active, failed and successful traces and of their events; the total counts each trace once. -/
theorem C37_counts (b : List Duration) (h0 : b.head? = some 0) (hb : b.Pairwise (· ≤ ·)) (l : List Static)
    (hd : ∀ t ∈ l, t.finished = true → t.errored = false → 0 ≤ t.duration) :
    ∃ ss, (newSearchStats b).observeAll l = some ss ∧
      (∀ k, (∀ t ∈ l, t.category ≠ k) → ss.categories.find k = none) ∧
      ∀ k, (∃ t ∈ l, t.category = k) → ∃ cs, ss.categories.find k = some cs ∧ cs.category = k ∧
        cs.activeCount = actives (ofCat k l) ∧ cs.erroredCount = failed (ofCat k l) ∧
        cs.bucketCounts.head? = some (succeeded (ofCat k l)) ∧
        cs.eventCount = events (ofCat k l) ∧ cs.totalCount = (ofCat k l).length := by
  obtain ⟨ss, h1, h2⟩ := observeAll_spec hb l (statsOf_new b)
  refine ⟨ss, h1, ?_, ?_⟩
  · intro k hk
    cases hf : ss.categories.find k with
    | none => rfl
    | some cs =>
      exfalso
      apply (h2.present k cs hf).1
      simpa [ofCat] using hk
  · rintro k ⟨t, ht, rfl⟩
    cases hf : ss.categories.find t.category with
    | none =>
      have := h2.absent _ hf
      simp only [List.nil_append] at this
      have hm : t ∈ ofCat t.category l := by simp [ofCat, ht]
      rw [this] at hm; cases hm
    | some cs =>
      obtain ⟨_, hc⟩ := h2.present _ cs hf
      rw [List.nil_append] at hc
      have hz : tookAtLeast 0 (ofCat t.category l) = succeeded (ofCat t.category l) :=
        tookAtLeast_zero _ (fun u hu => hd u (List.mem_filter.mp hu).1)
      have hbk : cs.bucketCounts.head? = some (succeeded (ofCat t.category l)) := by
        rw [hc.bucket, List.head?_map, h0, ← hz]; rfl
      refine ⟨cs, rfl, hc.category, hc.active, hc.errored, hbk, hc.event, ?_⟩
      have h3 := three_kinds (ofCat t.category l)
      unfold CategoryStats.totalCount
      simp only
      cases hbc : cs.bucketCounts with
      | nil => rw [hbc] at hbk; cases hbk
      | cons c cs' =>
        rw [hbc] at hbk
        have : c = succeeded (ofCat t.category l) := by simpa using hbk
        simp only
        rw [this, hc.active, hc.errored]
        omega

theorem filter_length_mono {α : Type} {p q : α → Bool} (h : ∀ a, p a = true → q a = true) (l : List α) :
    (l.filter p).length ≤ (l.filter q).length := by
  induction l with
  | nil => simp
  | cons a l ih =>
    simp only [List.filter_cons]
    cases hp : p a with
    | true => rw [h a hp]; simpa using ih
    | false => cases q a <;> simp <;> omega

/-- C38.  The `i`-th bucket counts the successful traces that took at least the `i`-th boundary,
so the counts do not increase along the buckets. -/
theorem C38_cumulative (b : List Duration) (hb : b.Pairwise (· ≤ ·)) (l : List Static) :
    ∃ ss, (newSearchStats b).observeAll l = some ss ∧
      ∀ k cs, ss.categories.find k = some cs →
        cs.bucketCounts.length = b.length ∧
        (∀ (i : Nat) d, b[i]? = some d → cs.bucketCounts[i]? = some (tookAtLeast d (ofCat k l))) ∧
        cs.bucketCounts.Pairwise (· ≥ ·) := by
  obtain ⟨ss, h1, h2⟩ := observeAll_spec hb l (statsOf_new b)
  refine ⟨ss, h1, ?_⟩
  intro k cs hf
  obtain ⟨_, hc⟩ := h2.present _ cs hf
  rw [List.nil_append] at hc
  refine ⟨by rw [hc.bucket, List.length_map], ?_, ?_⟩
  · intro i d hi
    rw [hc.bucket, List.getElem?_map, hi]; rfl
  · rw [hc.bucket, List.pairwise_map]
    apply hb.imp
    intro d e hde
    unfold tookAtLeast
    have := filter_length_mono (p := fun t : Static => t.finished && !t.errored && decide (e ≤ t.duration))
      (q := fun t : Static => t.finished && !t.errored && decide (d ≤ t.duration)) (by
        intro t ht
        simp only [Bool.and_eq_true, decide_eq_true_eq] at ht ⊢
        exact ⟨ht.1, Int.le_trans hde ht.2⟩) (ofCat k l)
    show (_ : Int) ≥ _
    omega

theorem foldl_oldest (ts : List Time) (hc : Clocks ts) : IsOldest (ts.foldl olderOf Time.zero) ts := by
  have : ∀ (us : List Time) o (vs : List Time), Clocks (vs ++ us) → IsOldest o vs →
      IsOldest (us.foldl olderOf o) (vs ++ us) := by
    intro us
    induction us with
    | nil => intro o vs _ h; simpa using h
    | cons u us ih =>
      intro o vs hc h
      have e : vs ++ u :: us = (vs ++ [u]) ++ us := by simp
      rw [e] at hc ⊢
      exact ih _ _ hc (isOldest_snoc (hc.sub (fun x hx => List.mem_append_left _ hx)) h)
  simpa using this ts Time.zero [] (by simpa using hc) isOldest_nil

theorem foldl_newest (ts : List Time) (hc : Clocks ts) : IsNewest (ts.foldl newerOf Time.zero) ts := by
  have : ∀ (us : List Time) o (vs : List Time), Clocks (vs ++ us) → IsNewest o vs →
      IsNewest (us.foldl newerOf o) (vs ++ us) := by
    intro us
    induction us with
    | nil => intro o vs _ h; simpa using h
    | cons u us ih =>
      intro o vs hc h
      have e : vs ++ u :: us = (vs ++ [u]) ++ us := by simp
      rw [e] at hc ⊢
      exact ih _ _ hc (isNewest_snoc (hc.sub (fun x hx => List.mem_append_left _ hx)) h)
  simpa using this ts Time.zero [] (by simpa using hc) isNewest_nil

/-- C39.  Oldest and newest are the earliest and the latest of the start times of the category's
traces. -/
theorem C39_extremes (b : List Duration) (hb : b.Pairwise (· ≤ ·)) (l : List Static)
    (hc : Clocks (l.map (·.started))) :
    ∃ ss, (newSearchStats b).observeAll l = some ss ∧
      ∀ k cs, ss.categories.find k = some cs →
        IsOldest cs.oldest ((ofCat k l).map (·.started)) ∧ IsNewest cs.newest ((ofCat k l).map (·.started)) := by
  obtain ⟨ss, h1, h2⟩ := observeAll_spec hb l (statsOf_new b)
  refine ⟨ss, h1, ?_⟩
  intro k cs hf
  obtain ⟨_, hcs⟩ := h2.present _ cs hf
  rw [List.nil_append] at hcs
  have hck : Clocks ((ofCat k l).map (·.started)) := by
    apply hc.sub
    intro u hu
    obtain ⟨t, ht, rfl⟩ := List.mem_map.mp hu
    exact List.mem_map_of_mem (List.mem_filter.mp ht).1
  exact ⟨by rw [hcs.oldest]; exact foldl_oldest _ hck, by rw [hcs.newest]; exact foldl_newest _ hck⟩

/-! ## C40: Merge is Observe of the union -/

theorem foldl_olderOf_canon (ts : List Time) (o : Time) (ho : o.isZero = true → o = Time.zero) :
    (ts.foldl olderOf o).isZero = true → ts.foldl olderOf o = Time.zero := by
  induction ts generalizing o with
  | nil => exact ho
  | cons t ts ih => exact ih _ (olderOf_canon _ _)

theorem foldl_newerOf_canon (ts : List Time) (o : Time) (ho : o.isZero = true → o = Time.zero) :
    (ts.foldl newerOf o).isZero = true → ts.foldl newerOf o = Time.zero := by
  induction ts generalizing o with
  | nil => exact ho
  | cons t ts ih => exact ih _ (newerOf_canon _ _)

theorem StatsOf.wf {b : List Duration} {l : List Static} {ss : SearchStats} (h : StatsOf b l ss) : ss.WF b.length := by
  constructor
  · rw [h.bucketing]
  · exact h.nodup
  · intro k cs hf
    obtain ⟨_, hc⟩ := h.present k cs hf
    refine ⟨hc.category, by rw [hc.bucket, List.length_map], ?_, ?_, ?_, ?_, ?_⟩
    · rw [hc.active]; unfold actives; omega
    · rw [hc.errored]; unfold failed; omega
    · rw [hc.bucket]
      intro c hm
      obtain ⟨d, _, rfl⟩ := List.mem_map.mp hm
      unfold tookAtLeast; omega
    · rw [hc.oldest]; exact foldl_olderOf_canon _ _ (fun _ => rfl)
    · rw [hc.newest]; exact foldl_newerOf_canon _ _ (fun _ => rfl)

theorem StatsOf.get {b : List Duration} {l : List Static} {ss : SearchStats} (h : StatsOf b l ss) (k : String) :
    CatOf b k l (ss.get k) := by
  unfold SearchStats.get
  cases hf : ss.categories.find k with
  | none => rw [h.bucketing]; exact catOf_new b k l (h.absent k hf)
  | some cs => exact (h.present k cs hf).2

theorem StatsOf.has_iff {b : List Duration} {l : List Static} {ss : SearchStats} (h : StatsOf b l ss) (k : String) :
    ss.has k = true ↔ ofCat k l ≠ [] := by
  unfold SearchStats.has
  cases hf : ss.categories.find k with
  | none => simp [h.absent k hf]
  | some cs => simp [(h.present k cs hf).1]

/-- The statistics `a` and `b` agree in everything except event counts: same buckets, same
categories, same active, errored and bucket counts, and oldest and newest are the same instants. -/
structure SameButEvents (a b : SearchStats) : Prop where
  bucketing : a.bucketing = b.bucketing
  has : ∀ k, (a.categories.find k).isSome = (b.categories.find k).isSome
  cat : ∀ k ca cb, a.categories.find k = some ca → b.categories.find k = some cb →
    ca.category = cb.category ∧ ca.activeCount = cb.activeCount ∧ ca.erroredCount = cb.erroredCount ∧
    ca.bucketCounts = cb.bucketCounts ∧ ca.totalCount = cb.totalCount ∧
    ca.oldest.isZero = cb.oldest.isZero ∧ ca.oldest.equal cb.oldest = true ∧
    ca.newest.isZero = cb.newest.isZero ∧ ca.newest.equal cb.newest = true

theorem bucket_ext {a b : CategoryStats} (hl : a.bucketCounts.length = b.bucketCounts.length)
    (h : ∀ i, a.bucket i = b.bucket i) : a.bucketCounts = b.bucketCounts := by
  apply List.ext_getElem hl
  intro i h1 h2
  have := h i
  unfold CategoryStats.bucket at this
  simpa [List.getD_eq_getElem?_getD, List.getElem?_eq_getElem h1, List.getElem?_eq_getElem h2] using this

theorem totalCount_congr {a b : CategoryStats} (h1 : a.activeCount = b.activeCount) (h2 : a.erroredCount = b.erroredCount)
    (h3 : a.bucketCounts = b.bucketCounts) : a.totalCount = b.totalCount := by
  unfold CategoryStats.totalCount; rw [h1, h2, h3]

theorem SearchStats.find_get {ss : SearchStats} {k : String} {cs : CategoryStats} (h : ss.categories.find k = some cs) :
    ss.get k = cs := by unfold SearchStats.get; rw [h]; rfl

/-- C40, the true part.  Merging the statistics of `l₂` into those of `l₁` gives the statistics
of all of them together, except for the event counts; for every iteration order of the map.
Missing: event counts, see `C40_eventCount_violated`. -/
theorem C40_merge_partial (b : List Duration) (hne : b ≠ []) (hb : b.Pairwise (· ≤ ·)) (l₁ l₂ : List Static)
    (hc : Clocks ((l₁ ++ l₂).map (·.started))) :
    ∃ s₁ s₂ s, (newSearchStats b).observeAll l₁ = some s₁ ∧ (newSearchStats b).observeAll l₂ = some s₂ ∧
      (newSearchStats b).observeAll (l₁ ++ l₂) = some s ∧
      ∀ order, order.Perm s₂.categories → ∃ r, s₁.merge s₂ order = some r ∧ SameButEvents r s := by
  obtain ⟨s₁, a1, a2⟩ := observeAll_spec hb l₁ (statsOf_new b)
  obtain ⟨s₂, b1, b2⟩ := observeAll_spec hb l₂ (statsOf_new b)
  obtain ⟨s, c1, c2⟩ := observeAll_spec hb (l₁ ++ l₂) (statsOf_new b)
  rw [List.nil_append] at a2 b2 c2
  refine ⟨s₁, s₂, s, a1, b1, c1, ?_⟩
  intro order hp
  obtain ⟨r, r1, r2⟩ := merge_spec (List.length_pos_iff.mpr hne) a2.wf b2.wf order hp
  refine ⟨r, r1, ?_, ?_, ?_⟩
  · rw [r2.bucketing, a2.bucketing, c2.bucketing]
  · intro k
    show r.has k = s.has k
    rw [r2.has k, Bool.eq_iff_iff, Bool.or_eq_true, a2.has_iff, b2.has_iff, c2.has_iff, ofCat_append]
    by_cases h1 : ofCat k l₁ = [] <;> by_cases h2 : ofCat k l₂ = [] <;> simp [h1, h2]
  · intro k cr cs hr hs
    have er := SearchStats.find_get hr
    have es := SearchStats.find_get hs
    have hsum := r2.sum k
    have ha := a2.get k
    have hb' := b2.get k
    have hcs := c2.get k
    rw [es] at hcs
    rw [er] at hsum
    have hact : cr.activeCount = cs.activeCount := by
      rw [hsum.active, ha.active, hb'.active, hcs.active, ofCat_append, actives_append]
    have herr : cr.erroredCount = cs.erroredCount := by
      rw [hsum.errored, ha.errored, hb'.errored, hcs.errored, ofCat_append, failed_append]
    have hbk : cr.bucketCounts = cs.bucketCounts := by
      apply bucket_ext
      · rw [hsum.len, hcs.bucket, List.length_map]
      · intro i
        rw [hsum.bucket]
        unfold CategoryStats.bucket
        rw [ha.bucket, hb'.bucket, hcs.bucket]
        simp only [List.getD_eq_getElem?_getD, List.getElem?_map]
        cases b[i]? with
        | none => rfl
        | some d => simp [ofCat_append, tookAtLeast_append]
    have hk : Clocks ((ofCat k (l₁ ++ l₂)).map (·.started)) := by
      apply hc.sub
      intro u hu
      obtain ⟨t, ht, rfl⟩ := List.mem_map.mp hu
      exact List.mem_map_of_mem (List.mem_filter.mp ht).1
    have hk' := hk
    rw [ofCat_append, List.map_append] at hk'
    have hk1 := hk'.sub (fun u (hu : u ∈ (ofCat k l₁).map (·.started)) => List.mem_append_left _ hu)
    have hk2 := hk'.sub (fun u (hu : u ∈ (ofCat k l₂).map (·.started)) => List.mem_append_right _ hu)
    have ho : IsOldest cr.oldest ((ofCat k (l₁ ++ l₂)).map (·.started)) := by
      rw [hsum.oldest, ha.oldest, hb'.oldest, ofCat_append, List.map_append]
      exact isOldest_olderOf hk' (foldl_oldest _ hk1) (foldl_oldest _ hk2)
    have hn : IsNewest cr.newest ((ofCat k (l₁ ++ l₂)).map (·.started)) := by
      rw [hsum.newest, ha.newest, hb'.newest, ofCat_append, List.map_append]
      exact isNewest_newerOf hk' (foldl_newest _ hk1) (foldl_newest _ hk2)
    have ho' : IsOldest cs.oldest ((ofCat k (l₁ ++ l₂)).map (·.started)) := by
      rw [hcs.oldest]; exact foldl_oldest _ hk
    have hn' : IsNewest cs.newest ((ofCat k (l₁ ++ l₂)).map (·.started)) := by
      rw [hcs.newest]; exact foldl_newest _ hk
    obtain ⟨o1, o2⟩ := ho.unique hk ho'
    obtain ⟨n1, n2⟩ := hn.unique hk hn'
    refine ⟨?_, hact, herr, hbk, totalCount_congr hact herr hbk, o1, o2, n1, n2⟩
    rw [(r2.wf.cat k cr hr).1, hcs.category]

/-- Two traces of category "c" with one event each, for the examples. -/
def sampleTrace (id : String) (start : Int) (finished errored : Bool) (d : Duration) : Static :=
  { source := "s", id, category := "c", started := ⟨start, none⟩, duration := d, finished, errored,
    events := [{ when_ := ⟨start, none⟩, what := "hello", stack := [], isError := false }] }

/-- C40 is false for event counts: merging keeps those of the first. -/
theorem C40_eventCount_violated :
    ∃ (l₁ l₂ : List Static) (s₁ s₂ s r : SearchStats),
      (newSearchStats [0]).observeAll l₁ = some s₁ ∧ (newSearchStats [0]).observeAll l₂ = some s₂ ∧
      (newSearchStats [0]).observeAll (l₁ ++ l₂) = some s ∧ s₁.merge s₂ s₂.categories = some r ∧
      (s.categories.find "c").map (·.eventCount) = some 2 ∧
      (r.categories.find "c").map (·.eventCount) = some 1 := by
  refine ⟨[sampleTrace "a" 1 true false 5], [sampleTrace "b" 2 true false 5], _, _, _, _, rfl, rfl, rfl, rfl, ?_, ?_⟩ <;> rfl

/-- For a category with a name, merging keeps the event count of the first that has the category. -/
theorem Merged.kept {n : Nat} {r ss other : SearchStats} (h : Merged n r ss other) (hw : ss.WF n) (hw' : other.WF n)
    {k : String} (hk : k ≠ "") :
    (r.get k).eventCount = if ss.has k then (ss.get k).eventCount else
      if other.has k then (other.get k).eventCount else (ss.get k).eventCount := by
  have nz : ∀ {t : SearchStats}, t.WF n → (t.get k).isZero = false := by
    intro t ht
    have : (t.get k).category = k := (ht.get_ok k).2
    unfold CategoryStats.isZero
    simp [this, hk]
  rw [h.events k]
  unfold keptEvents
  rw [nz hw, nz hw']
  cases ss.has k <;> cases other.has k <;> simp

/-- C40, exactly what becomes of the event counts: of each category with a name, merging keeps those of the traces
observed first, if there are any. So merged statistics count all events of such a category if and only if it is in
only one of the two, or the traces of the second have no events. -/
theorem C40_events_exact (b : List Duration) (hne : b ≠ []) (hb : b.Pairwise (· ≤ ·)) (l₁ l₂ : List Static) :
    ∃ s₁ s₂ s, (newSearchStats b).observeAll l₁ = some s₁ ∧ (newSearchStats b).observeAll l₂ = some s₂ ∧
      (newSearchStats b).observeAll (l₁ ++ l₂) = some s ∧
      ∀ order, order.Perm s₂.categories → ∃ r, s₁.merge s₂ order = some r ∧
        ∀ k, k ≠ "" → (r.get k).eventCount = events (if ofCat k l₁ = [] then ofCat k l₂ else ofCat k l₁) ∧
          ((r.get k).eventCount = (s.get k).eventCount ↔ ofCat k l₁ = [] ∨ ∀ t ∈ ofCat k l₂, t.events = []) := by
  obtain ⟨s₁, a1, a2⟩ := observeAll_spec hb l₁ (statsOf_new b)
  obtain ⟨s₂, b1, b2⟩ := observeAll_spec hb l₂ (statsOf_new b)
  obtain ⟨s, c1, c2⟩ := observeAll_spec hb (l₁ ++ l₂) (statsOf_new b)
  rw [List.nil_append] at a2 b2 c2
  refine ⟨s₁, s₂, s, a1, b1, c1, ?_⟩
  intro order hp
  obtain ⟨r, r1, r2⟩ := merge_spec (List.length_pos_iff.mpr hne) a2.wf b2.wf order hp
  refine ⟨r, r1, fun k hk => ?_⟩
  have h0 : (r.get k).eventCount = events (if ofCat k l₁ = [] then ofCat k l₂ else ofCat k l₁) := by
    rw [r2.kept a2.wf b2.wf hk, (a2.get k).event, (b2.get k).event]
    by_cases h1 : ofCat k l₁ = []
    · have : ¬ s₁.has k = true := by rw [a2.has_iff]; simp [h1]
      rw [if_neg this, if_pos h1]
      by_cases h2 : ofCat k l₂ = []
      · rw [h1, h2]; simp
      · rw [if_pos ((b2.has_iff k).mpr h2)]
    · rw [if_pos ((a2.has_iff k).mpr h1), if_neg h1]
  refine ⟨h0, ?_⟩
  rw [h0, (c2.get k).event, ofCat_append, events_append]
  have hpos : ∀ l : List Static, 0 ≤ events l := by
    intro l
    induction l with
    | nil => simp [events]
    | cons t l ih => simp only [events]; omega
  have hzero : ∀ l : List Static, events l = 0 ↔ ∀ t ∈ l, t.events = [] := by
    intro l
    induction l with
    | nil => simp [events]
    | cons t l ih =>
      simp only [events, List.mem_cons, forall_eq_or_imp]
      rw [← ih, ← List.length_eq_zero_iff]
      have := hpos l
      omega
  rw [← hzero]
  by_cases h1 : ofCat k l₁ = []
  · simp [h1, events]
  · simp only [h1, if_false, false_or]
    have := hpos (ofCat k l₂)
    omega

/-! ## C41: the order of merging -/

/-- Merging a list of statistics one after the other, as `MultiSearcher` does
(search_types.go:169-195), each with some iteration order of its map. -/
def mergeAll (ss : SearchStats) : List (SearchStats × List (String × CategoryStats)) → Option SearchStats
  | [] => some ss
  | (other, order) :: rest => do
    let ss' ← ss.merge other order
    mergeAll ss' rest

/-- Sums over a list. -/
def sumBy {α : Type} (f : α → Int) : List α → Int
  | [] => 0
  | a :: l => f a + sumBy f l

theorem sumBy_perm {α : Type} (f : α → Int) {l l' : List α} (h : l.Perm l') : sumBy f l = sumBy f l' := by
  induction h with
  | nil => rfl
  | cons x _ ih => simp [sumBy, ih]
  | swap x y l => simp only [sumBy]; omega
  | trans _ _ ih1 ih2 => exact ih1.trans ih2

theorem wf_canon {n : Nat} {ss : SearchStats} (h : ss.WF n) (k : String) :
    IsOldest (ss.get k).oldest [(ss.get k).oldest] ∧ IsNewest (ss.get k).newest [(ss.get k).newest] :=
  ⟨isOldest_singleton _ (h.get_ok k).1.oldest, isNewest_singleton _ (h.get_ok k).1.newest⟩

/-- What merging adds up to. -/
theorem mergeAll_spec {n : Nat} (hn : 0 < n) (l : List (SearchStats × List (String × CategoryStats)))
    (hl : ∀ p ∈ l, p.1.WF n ∧ p.2.Perm p.1.categories) {ss : SearchStats} (h : ss.WF n) :
    ∃ r, mergeAll ss l = some r ∧ r.WF n ∧ r.bucketing = ss.bucketing ∧
      (∀ k, r.has k = (ss.has k || l.any fun p => p.1.has k)) ∧
      ∀ k, (r.get k).activeCount = (ss.get k).activeCount + sumBy (fun p => (p.1.get k).activeCount) l ∧
        (r.get k).erroredCount = (ss.get k).erroredCount + sumBy (fun p => (p.1.get k).erroredCount) l ∧
        (∀ i, (r.get k).bucket i = (ss.get k).bucket i + sumBy (fun p => (p.1.get k).bucket i) l) ∧
        (Clocks (((ss.get k).oldest :: l.map fun p => (p.1.get k).oldest)) →
          IsOldest (r.get k).oldest ((ss.get k).oldest :: l.map fun p => (p.1.get k).oldest)) ∧
        (Clocks (((ss.get k).newest :: l.map fun p => (p.1.get k).newest)) →
          IsNewest (r.get k).newest ((ss.get k).newest :: l.map fun p => (p.1.get k).newest)) := by
  induction l generalizing ss with
  | nil =>
    refine ⟨ss, rfl, h, rfl, by simp, ?_⟩
    intro k
    refine ⟨by simp [sumBy], by simp [sumBy], by simp [sumBy], ?_, ?_⟩
    · intro _; exact (wf_canon h k).1
    · intro _; exact (wf_canon h k).2
  | cons p l ih =>
    obtain ⟨other, order⟩ := p
    obtain ⟨w1, w2⟩ := hl (other, order) (by simp)
    obtain ⟨s₁, m1, m2⟩ := merge_spec hn h w1 order w2
    obtain ⟨r, r1, r2, r3, r4, r5⟩ := ih (fun p hp => hl p (by simp [hp])) m2.wf
    refine ⟨r, by simp [mergeAll, m1, r1], r2, r3.trans m2.bucketing, ?_, ?_⟩
    · intro k; rw [r4, m2.has]; simp [Bool.or_assoc]
    · intro k
      obtain ⟨q1, q2, q3, q4, q5⟩ := r5 k
      have hs := m2.sum k
      refine ⟨?_, ?_, ?_, ?_, ?_⟩
      · rw [q1, hs.active]; simp only [sumBy]; omega
      · rw [q2, hs.errored]; simp only [sumBy]; omega
      · intro i; rw [q3, hs.bucket]; simp only [sumBy]; omega
      · intro hc
        simp only [List.map_cons] at hc ⊢
        have hpair : IsOldest (s₁.get k).oldest ([(ss.get k).oldest] ++ [(other.get k).oldest]) := by
          rw [hs.oldest]
          apply isOldest_olderOf
          · apply hc.sub; intro u hu
            simp only [List.cons_append, List.nil_append, List.mem_cons, List.not_mem_nil, or_false] at hu
            rcases hu with rfl | rfl <;> simp
          · exact (wf_canon h k).1
          · exact (wf_canon w1 k).1
        have hmem : (s₁.get k).oldest.isZero = true ∨ (s₁.get k).oldest = (ss.get k).oldest ∨
            (s₁.get k).oldest = (other.get k).oldest := by
          rcases hpair with ⟨_, e⟩ | ⟨e, _⟩
          · left; rw [e]; rfl
          · right; simpa using e
        have hc' : Clocks ((s₁.get k).oldest :: l.map fun p => (p.1.get k).oldest) := by
          rcases hc with hc | hc
          · left
            intro t ht hz
            rcases List.mem_cons.mp ht with rfl | ht
            · rcases hmem with e | e | e
              · rw [e] at hz; cases hz
              · rw [e] at hz ⊢; exact hc _ (by simp) hz
              · rw [e] at hz ⊢; exact hc _ (by simp) hz
            · exact hc t (by simp only [List.mem_cons]; exact Or.inr (Or.inr ht)) hz
          · right
            intro t ht hz
            rcases List.mem_cons.mp ht with rfl | ht
            · rcases hmem with e | e | e
              · rw [e] at hz; cases hz
              · rw [e] at hz ⊢; exact hc _ (by simp) hz
              · rw [e] at hz ⊢; exact hc _ (by simp) hz
            · exact hc t (by simp only [List.mem_cons]; exact Or.inr (Or.inr ht)) hz
        rcases q4 hc' with ⟨z1, z2⟩ | ⟨z1, z2, z3⟩
        · left
          refine ⟨?_, z2⟩
          have z0 := z1 _ (List.mem_cons_self ..)
          rcases hpair with ⟨y1, _⟩ | ⟨_, y2, _⟩
          · intro t ht
            rcases List.mem_cons.mp ht with rfl | ht
            · exact y1 _ (by simp)
            rcases List.mem_cons.mp ht with rfl | ht
            · exact y1 _ (by simp)
            · exact z1 t (List.mem_cons_of_mem _ ht)
          · rw [z0] at y2; cases y2
        · right
          obtain ⟨m, hm⟩ := hc.key
          obtain ⟨m', hm'⟩ := hc'.key
          refine ⟨?_, z2, ?_⟩
          · rcases List.mem_cons.mp z1 with e | e
            · rcases hmem with e' | e' | e'
              · rw [e, e'] at z2; cases z2
              · rw [e, e']; simp
              · rw [e, e']; simp
            · simp only [List.mem_cons]; exact Or.inr (Or.inr e)
          · have key : ∀ t, t = (ss.get k).oldest ∨ t = (other.get k).oldest → t.isZero = false → t.before (r.get k).oldest = false := by
              intro t ht hz
              rcases hpair with ⟨y1, _⟩ | ⟨y1, y2, y3⟩
              · rcases ht with rfl | rfl
                · rw [y1 _ (by simp)] at hz; cases hz
                · rw [y1 _ (by simp)] at hz; cases hz
              · have b1 := y3 t (by rcases ht with rfl | rfl <;> simp) hz
                have b2 := z3 _ (List.mem_cons_self ..) y2
                have k1 : t.mono.isSome = m := hm t (by rcases ht with rfl | rfl <;> simp) hz
                have k2 : (s₁.get k).oldest.mono.isSome = m := by
                  rcases hmem with e | e | e
                  · rw [e] at y2; cases y2
                  · rw [e]; apply hm _ (by simp); rw [← e]; exact y2
                  · rw [e]; apply hm _ (by simp); rw [← e]; exact y2
                have k3 : (r.get k).oldest.mono.isSome = m := by
                  have e1 := hm' _ (List.mem_cons_self ..) y2
                  have e2 := hm' _ z1 z2
                  rw [e2, ← e1, k2]
                rw [← Bool.not_eq_true, before_iff k1 k2] at b1
                rw [← Bool.not_eq_true, before_iff k2 k3] at b2
                rw [← Bool.not_eq_true, before_iff k1 k3]
                omega
            intro t ht hz
            rcases List.mem_cons.mp ht with rfl | ht
            · exact key _ (Or.inl rfl) hz
            rcases List.mem_cons.mp ht with rfl | ht
            · exact key _ (Or.inr rfl) hz
            · exact z3 t (List.mem_cons_of_mem _ ht) hz
      · intro hc
        simp only [List.map_cons] at hc ⊢
        have hpair : IsNewest (s₁.get k).newest ([(ss.get k).newest] ++ [(other.get k).newest]) := by
          rw [hs.newest]
          apply isNewest_newerOf
          · apply hc.sub; intro u hu
            simp only [List.cons_append, List.nil_append, List.mem_cons, List.not_mem_nil, or_false] at hu
            rcases hu with rfl | rfl <;> simp
          · exact (wf_canon h k).2
          · exact (wf_canon w1 k).2
        have hmem : (s₁.get k).newest.isZero = true ∨ (s₁.get k).newest = (ss.get k).newest ∨
            (s₁.get k).newest = (other.get k).newest := by
          rcases hpair with ⟨_, e⟩ | ⟨e, _⟩
          · left; rw [e]; rfl
          · right; simpa using e
        have hc' : Clocks ((s₁.get k).newest :: l.map fun p => (p.1.get k).newest) := by
          rcases hc with hc | hc
          · left
            intro t ht hz
            rcases List.mem_cons.mp ht with rfl | ht
            · rcases hmem with e | e | e
              · rw [e] at hz; cases hz
              · rw [e] at hz ⊢; exact hc _ (by simp) hz
              · rw [e] at hz ⊢; exact hc _ (by simp) hz
            · exact hc t (by simp only [List.mem_cons]; exact Or.inr (Or.inr ht)) hz
          · right
            intro t ht hz
            rcases List.mem_cons.mp ht with rfl | ht
            · rcases hmem with e | e | e
              · rw [e] at hz; cases hz
              · rw [e] at hz ⊢; exact hc _ (by simp) hz
              · rw [e] at hz ⊢; exact hc _ (by simp) hz
            · exact hc t (by simp only [List.mem_cons]; exact Or.inr (Or.inr ht)) hz
        rcases q5 hc' with ⟨z1, z2⟩ | ⟨z1, z2, z3⟩
        · left
          refine ⟨?_, z2⟩
          have z0 := z1 _ (List.mem_cons_self ..)
          rcases hpair with ⟨y1, _⟩ | ⟨_, y2, _⟩
          · intro t ht
            rcases List.mem_cons.mp ht with rfl | ht
            · exact y1 _ (by simp)
            rcases List.mem_cons.mp ht with rfl | ht
            · exact y1 _ (by simp)
            · exact z1 t (List.mem_cons_of_mem _ ht)
          · rw [z0] at y2; cases y2
        · right
          obtain ⟨m, hm⟩ := hc.key
          obtain ⟨m', hm'⟩ := hc'.key
          refine ⟨?_, z2, ?_⟩
          · rcases List.mem_cons.mp z1 with e | e
            · rcases hmem with e' | e' | e'
              · rw [e, e'] at z2; cases z2
              · rw [e, e']; simp
              · rw [e, e']; simp
            · simp only [List.mem_cons]; exact Or.inr (Or.inr e)
          · have key : ∀ t, t = (ss.get k).newest ∨ t = (other.get k).newest → t.isZero = false → t.after (r.get k).newest = false := by
              intro t ht hz
              rcases hpair with ⟨y1, _⟩ | ⟨y1, y2, y3⟩
              · rcases ht with rfl | rfl
                · rw [y1 _ (by simp)] at hz; cases hz
                · rw [y1 _ (by simp)] at hz; cases hz
              · have b1 := y3 t (by rcases ht with rfl | rfl <;> simp) hz
                have b2 := z3 _ (List.mem_cons_self ..) y2
                have k1 : t.mono.isSome = m := hm t (by rcases ht with rfl | rfl <;> simp) hz
                have k2 : (s₁.get k).newest.mono.isSome = m := by
                  rcases hmem with e | e | e
                  · rw [e] at y2; cases y2
                  · rw [e]; apply hm _ (by simp); rw [← e]; exact y2
                  · rw [e]; apply hm _ (by simp); rw [← e]; exact y2
                have k3 : (r.get k).newest.mono.isSome = m := by
                  have e1 := hm' _ (List.mem_cons_self ..) y2
                  have e2 := hm' _ z1 z2
                  rw [e2, ← e1, k2]
                rw [← Bool.not_eq_true, after_iff k1 k2] at b1
                rw [← Bool.not_eq_true, after_iff k2 k3] at b2
                rw [← Bool.not_eq_true, after_iff k1 k3]
                omega
            intro t ht hz
            rcases List.mem_cons.mp ht with rfl | ht
            · exact key _ (Or.inl rfl) hz
            rcases List.mem_cons.mp ht with rfl | ht
            · exact key _ (Or.inr rfl) hz
            · exact z3 t (List.mem_cons_of_mem _ ht) hz

/-- C41, the true part.  Merging any statistics into a new aggregate in two different orders, with
any iteration orders of the maps, gives the same statistics except for the event counts.
Missing: event counts, see `C41_eventCount_violated`. -/
theorem C41_order_partial (b : List Duration) (hne : b ≠ [])
    (l l' : List (SearchStats × List (String × CategoryStats))) (hperm : (l.map Prod.fst).Perm (l'.map Prod.fst))
    (hl : ∀ p ∈ l, p.1.WF b.length ∧ p.2.Perm p.1.categories)
    (hl' : ∀ p ∈ l', p.2.Perm p.1.categories)
    (hc : ∀ k, Clocks (l.map fun p => (p.1.get k).oldest) ∧ Clocks (l.map fun p => (p.1.get k).newest)) :
    ∃ r r', mergeAll (newSearchStats b) l = some r ∧ mergeAll (newSearchStats b) l' = some r' ∧ SameButEvents r r' := by
  have hpos : 0 < b.length := List.length_pos_iff.mpr hne
  have hl2 : ∀ p ∈ l', p.1.WF b.length ∧ p.2.Perm p.1.categories := by
    intro p hp
    refine ⟨?_, hl' p hp⟩
    have : p.1 ∈ l.map Prod.fst := hperm.mem_iff.mpr (List.mem_map_of_mem hp)
    obtain ⟨q, hq, e⟩ := List.mem_map.mp this
    rw [← e]; exact (hl q hq).1
  have hw : (newSearchStats b).WF b.length := (statsOf_new b).wf
  obtain ⟨r, r1, r2, r3, r4, r5⟩ := mergeAll_spec hpos l hl hw
  obtain ⟨r', r1', r2', r3', r4', r5'⟩ := mergeAll_spec hpos l' hl2 hw
  have hz : ∀ k, ((newSearchStats b).get k).oldest = Time.zero ∧ ((newSearchStats b).get k).newest = Time.zero :=
    fun k => ⟨rfl, rfl⟩
  have sum_eq : ∀ f : SearchStats → Int, sumBy (fun p => f p.1) l = sumBy (fun p => f p.1) l' := by
    intro f
    have e : ∀ m : List (SearchStats × List (String × CategoryStats)), sumBy (fun p => f p.1) m = sumBy f (m.map Prod.fst) := by
      intro m; induction m with
      | nil => rfl
      | cons p m ih => simp [sumBy, ih]
    rw [e, e, sumBy_perm f hperm]
  have mem_eq : ∀ (f : SearchStats → Time) t, t ∈ (l.map fun p => f p.1) ↔ t ∈ (l'.map fun p => f p.1) := by
    intro f t
    have e : ∀ m : List (SearchStats × List (String × CategoryStats)), (m.map fun p => f p.1) = (m.map Prod.fst).map f := by
      intro m; simp
    rw [e, e]
    exact (hperm.map f).mem_iff
  have hcz : ∀ ts, Clocks ts → Clocks (Time.zero :: ts) := by
    intro ts h
    rcases h with h | h
    · left; intro t ht hz'
      rcases List.mem_cons.mp ht with rfl | ht
      · cases hz'
      · exact h t ht hz'
    · right; intro t ht hz'
      rcases List.mem_cons.mp ht with rfl | ht
      · cases hz'
      · exact h t ht hz'
  refine ⟨r, r', r1, r1', r3.trans r3'.symm, ?_, ?_⟩
  · intro k
    show r.has k = r'.has k
    rw [r4, r4']
    congr 1
    rw [Bool.eq_iff_iff, List.any_eq_true, List.any_eq_true]
    constructor
    · rintro ⟨p, hp, h⟩
      have : p.1 ∈ l'.map Prod.fst := hperm.mem_iff.mp (List.mem_map_of_mem hp)
      obtain ⟨q, hq, e⟩ := List.mem_map.mp this
      exact ⟨q, hq, by rw [e]; exact h⟩
    · rintro ⟨p, hp, h⟩
      have : p.1 ∈ l.map Prod.fst := hperm.mem_iff.mpr (List.mem_map_of_mem hp)
      obtain ⟨q, hq, e⟩ := List.mem_map.mp this
      exact ⟨q, hq, by rw [e]; exact h⟩
  · intro k ca cb ha hb
    have ea := SearchStats.find_get ha
    have eb := SearchStats.find_get hb
    obtain ⟨q1, q2, q3, q4, q5⟩ := r5 k
    obtain ⟨p1, p2, p3, p4, p5⟩ := r5' k
    have ka := r2.get_ok k
    have kb := r2'.get_ok k
    rw [ea] at q1 q2 q3 q4 q5 ka
    rw [eb] at p1 p2 p3 p4 p5 kb
    have h1 : ca.activeCount = cb.activeCount := by rw [q1, p1, sum_eq fun s => (s.get k).activeCount]
    have h2 : ca.erroredCount = cb.erroredCount := by rw [q2, p2, sum_eq fun s => (s.get k).erroredCount]
    have h3 : ca.bucketCounts = cb.bucketCounts := by
      apply bucket_ext
      · rw [ka.1.len, kb.1.len]
      · intro i; rw [q3, p3, sum_eq fun s => (s.get k).bucket i]
    have c1 := hcz _ (hc k).1
    have c2 := hcz _ (hc k).2
    have hmo : ∀ t, t ∈ Time.zero :: (l'.map fun p => (p.1.get k).oldest) ↔ t ∈ Time.zero :: (l.map fun p => (p.1.get k).oldest) := by
      intro t; rw [List.mem_cons, List.mem_cons, mem_eq fun s => (s.get k).oldest]
    have hmn : ∀ t, t ∈ Time.zero :: (l'.map fun p => (p.1.get k).newest) ↔ t ∈ Time.zero :: (l.map fun p => (p.1.get k).newest) := by
      intro t; rw [List.mem_cons, List.mem_cons, mem_eq fun s => (s.get k).newest]
    rw [(hz k).1] at q4 p4
    rw [(hz k).2] at q5 p5
    obtain ⟨o1, o2⟩ := (q4 c1).unique c1 ((p4 (c1.sub fun t ht => (hmo t).mp ht)).congr hmo)
    obtain ⟨n1, n2⟩ := (q5 c2).unique c2 ((p5 (c2.sub fun t ht => (hmn t).mp ht)).congr hmn)
    exact ⟨by rw [ka.2, kb.2], h1, h2, h3, totalCount_congr h1 h2 h3, o1, o2, n1, n2⟩

/-- C41 is false for event counts: the statistics merged first decide. -/
theorem C41_eventCount_violated :
    ∃ (s₁ s₂ r r' : SearchStats), (newSearchStats [0]).observeAll [sampleTrace "a" 1 true false 5] = some s₁ ∧
      (newSearchStats [0]).observeAll [sampleTrace "b" 2 true false 5, sampleTrace "d" 3 true false 5] = some s₂ ∧
      mergeAll (newSearchStats [0]) [(s₁, s₁.categories), (s₂, s₂.categories)] = some r ∧
      mergeAll (newSearchStats [0]) [(s₂, s₂.categories), (s₁, s₁.categories)] = some r' ∧
      (r.categories.find "c").map (·.eventCount) = some 1 ∧
      (r'.categories.find "c").map (·.eventCount) = some 2 := by
  refine ⟨_, _, _, _, rfl, rfl, rfl, rfl, ?_, ?_⟩ <;> rfl

/-- C41, exactly what becomes of the event counts: that of a category with a name is the one in the first of the merged
statistics that has the category. -/
theorem C41_events_exact (b : List Duration) (hne : b ≠ []) (l : List (SearchStats × List (String × CategoryStats)))
    (hl : ∀ p ∈ l, p.1.WF b.length ∧ p.2.Perm p.1.categories) :
    ∃ r, mergeAll (newSearchStats b) l = some r ∧
      ∀ k, k ≠ "" → (r.get k).eventCount = match l.find? (fun p => p.1.has k) with
        | none => 0
        | some p => (p.1.get k).eventCount := by
  have hpos : 0 < b.length := List.length_pos_iff.mpr hne
  have key : ∀ (l : List (SearchStats × List (String × CategoryStats))) (ss : SearchStats), ss.WF b.length →
      (∀ p ∈ l, p.1.WF b.length ∧ p.2.Perm p.1.categories) → ∃ r, mergeAll ss l = some r ∧
      ∀ k, k ≠ "" → (r.get k).eventCount = if ss.has k then (ss.get k).eventCount else
        match l.find? (fun p => p.1.has k) with
        | none => (ss.get k).eventCount
        | some p => (p.1.get k).eventCount := by
    intro l
    induction l with
    | nil => intro ss hw _; exact ⟨ss, rfl, fun k hk => by simp⟩
    | cons p l ih =>
      intro ss hw hl
      obtain ⟨other, order⟩ := p
      obtain ⟨w1, w2⟩ := hl _ (List.mem_cons_self ..)
      obtain ⟨s₁, m1, m2⟩ := merge_spec hpos hw w1 order w2
      obtain ⟨r, r1, r2⟩ := ih s₁ m2.wf (fun p hp => hl p (List.mem_cons_of_mem _ hp))
      refine ⟨r, by simp [mergeAll, m1, r1], fun k hk => ?_⟩
      rw [r2 k hk, m2.has k, m2.kept hw w1 hk, List.find?_cons]
      cases ss.has k <;> cases other.has k <;> simp
  obtain ⟨r, h1, h2⟩ := key l (newSearchStats b) (statsOf_new b).wf hl
  refine ⟨r, h1, fun k hk => ?_⟩
  rw [h2 k hk]
  rfl

/-! ## C43: overall -/

theorem overallLoop_spec {n : Nat} (l : List CategoryStats) (hl : ∀ c ∈ l, c.OK n) {o : CategoryStats} (h : o.OK n)
    (hcat : o.category ≠ "") :
    ∃ r, overallLoop o l = some r ∧ r.OK n ∧ r.category = o.category ∧ r.eventCount = o.eventCount ∧
      r.activeCount = o.activeCount + sumBy (·.activeCount) l ∧
      r.erroredCount = o.erroredCount + sumBy (·.erroredCount) l ∧
      (∀ i, r.bucket i = o.bucket i + sumBy (·.bucket i) l) ∧
      r.oldest = (l.map (·.oldest)).foldl olderOf o.oldest ∧ r.newest = (l.map (·.newest)).foldl newerOf o.newest := by
  induction l generalizing o with
  | nil => exact ⟨o, rfl, h, rfl, rfl, by simp [sumBy], by simp [sumBy], by simp [sumBy], rfl, rfl⟩
  | cons c l ih =>
    obtain ⟨r₁, a1, a2, a3, a4, a5⟩ := catMerge_spec h (hl c (by simp))
    have hoz : o.isZero = false := by
      unfold CategoryStats.isZero
      simp [hcat]
    have hcat₁ : r₁.category = o.category := by
      rcases a4 with a4 | ⟨_, a4⟩
      · exact a4
      · rw [hoz] at a4; cases a4
    have hev : r₁.eventCount = o.eventCount := by rw [a5, hoz]; simp
    obtain ⟨r, b1, b2, b3, b4, b5, b6, b7, b8, b9⟩ := ih (fun c hc => hl c (by simp [hc])) a2 (hcat₁ ▸ hcat)
    refine ⟨r, by simp [overallLoop, a1, b1], b2, b3.trans hcat₁, b4.trans hev, ?_, ?_, ?_, ?_, ?_⟩
    · rw [b5, a3.active]; simp only [sumBy]; omega
    · rw [b6, a3.errored]; simp only [sumBy]; omega
    · intro i; rw [b7, a3.bucket]; simp only [sumBy]; omega
    · rw [b8, a3.oldest]; rfl
    · rw [b9, a3.newest]; rfl

theorem insertByName_perm (c : CategoryStats) (l : List CategoryStats) : (insertByName c l).Perm (c :: l) := by
  induction l with
  | nil => exact List.Perm.refl _
  | cons x l ih =>
    unfold insertByName
    split
    · exact (ih.cons x).trans (List.Perm.swap ..)
    · exact List.Perm.refl _

theorem insertByName_sorted (c : CategoryStats) (l : List CategoryStats)
    (h : l.Pairwise fun a b => a.category < b.category) (hn : ∀ x ∈ l, x.category ≠ c.category) :
    (insertByName c l).Pairwise fun a b => a.category < b.category := by
  induction l with
  | nil => simp [insertByName]
  | cons x l ih =>
    rw [List.pairwise_cons] at h
    unfold insertByName
    split
    · rename_i hx
      rw [List.pairwise_cons]
      refine ⟨?_, ih h.2 (fun y hy => hn y (by simp [hy]))⟩
      intro y hy
      rcases List.mem_cons.mp ((insertByName_perm c l).mem_iff.mp hy) with rfl | hy
      · exact hx
      · exact h.1 y hy
    · rename_i hx
      have hlt : c.category < x.category := by
        rcases Std.lt_trichotomy c.category x.category with h' | h' | h'
        · exact h'
        · exact absurd h'.symm (hn x (by simp))
        · exact absurd h' hx
      rw [List.pairwise_cons]
      refine ⟨?_, List.pairwise_cons.mpr h⟩
      intro y hy
      rcases List.mem_cons.mp hy with rfl | hy
      · exact hlt
      · exact String.lt_trans hlt (h.1 y hy)

theorem foldr_insertByName (l : List CategoryStats) (hn : (l.map (·.category)).Nodup) :
    (l.foldr insertByName []).Perm l ∧ (l.foldr insertByName []).Pairwise fun a b => a.category < b.category := by
  induction l with
  | nil => simp
  | cons c l ih =>
    simp only [List.map_cons, List.nodup_cons] at hn
    obtain ⟨h1, h2⟩ := ih hn.2
    refine ⟨(insertByName_perm c _).trans (h1.cons c), insertByName_sorted c _ h2 ?_⟩
    intro x hx he
    exact hn.1 (he ▸ List.mem_map_of_mem (h1.mem_iff.mp hx))

/-- C43, the true part.  The overall statistics are the sums of the active, errored, bucket and
total counts of the categories and the extremes of their times, for every iteration order.
Missing: event counts, see `C43_eventCount_violated`. -/
theorem C43_overall_partial {n : Nat} (ss : SearchStats) (h : ss.WF n) (order : List CategoryStats)
    (hp : order.Perm (ss.categories.map Prod.snd)) :
    ∃ o, ss.overall order = some o ∧ o.category = "overall" ∧
      o.activeCount = sumBy (·.activeCount) (ss.categories.map Prod.snd) ∧
      o.erroredCount = sumBy (·.erroredCount) (ss.categories.map Prod.snd) ∧
      o.bucketCounts.length = n ∧
      (∀ i, o.bucket i = sumBy (·.bucket i) (ss.categories.map Prod.snd)) ∧
      (0 < n → o.totalCount = sumBy (·.totalCount) (ss.categories.map Prod.snd)) ∧
      (Clocks (order.map (·.oldest)) → IsOldest o.oldest (order.map (·.oldest))) ∧
      (Clocks (order.map (·.newest)) → IsNewest o.newest (order.map (·.newest))) := by
  have hok : ∀ c ∈ order, c.OK n := by
    intro c hc
    obtain ⟨⟨k, c'⟩, hm, rfl⟩ := List.mem_map.mp (hp.mem_iff.mp hc)
    obtain ⟨h1, h2, h3, h4, h5, h6, h7⟩ := h.cat k c' (Ring.Assoc.mem_find h.nodup hm)
    exact ⟨h2, h3, h4, h5, h6, h7⟩
  have hnew : (newCategoryStats "overall" ss.bucketing).OK n := h.len ▸ newCat_ok "overall" ss.bucketing
  obtain ⟨o, b1, b2, b3, b4, b5, b6, b7, b8, b9⟩ := overallLoop_spec order hok hnew (by simp [newCategoryStats])
  have hact : o.activeCount = sumBy (·.activeCount) (ss.categories.map Prod.snd) := by
    rw [b5, sumBy_perm _ hp]; simp [newCategoryStats]
  have herr : o.erroredCount = sumBy (·.erroredCount) (ss.categories.map Prod.snd) := by
    rw [b6, sumBy_perm _ hp]; simp [newCategoryStats]
  have hbk : ∀ i, o.bucket i = sumBy (·.bucket i) (ss.categories.map Prod.snd) := by
    intro i; rw [b7, sumBy_perm _ hp, newCat_bucket]; omega
  refine ⟨o, b1, b3, hact, herr, b2.len, hbk, ?_, ?_, ?_⟩
  · intro hn
    have tc : ∀ c : CategoryStats, c.OK n → c.totalCount = c.activeCount + c.bucket 0 + c.erroredCount := by
      intro c hc
      unfold CategoryStats.totalCount CategoryStats.bucket
      cases hb : c.bucketCounts with
      | nil => have := hc.len; rw [hb] at this; simp at this; omega
      | cons x l => simp
    rw [tc o b2, hact, herr, hbk 0, ← sumBy_perm (·.totalCount) hp, ← sumBy_perm (·.activeCount) hp,
      ← sumBy_perm (·.erroredCount) hp, ← sumBy_perm (·.bucket 0) hp]
    clear hp b1 b2 b3 b4 b5 b6 b7 b8 b9 hact herr hbk
    induction order with
    | nil => rfl
    | cons c l ih =>
      have := ih (fun c hc => hok c (by simp [hc]))
      simp only [sumBy, tc c (hok c (by simp))]
      omega
  · intro hc; rw [b8]; exact foldl_oldest _ hc
  · intro hc; rw [b9]; exact foldl_newest _ hc

/-- C43, `AllCategories`: every category once, by name, then the overall statistics. -/
theorem C43_allCategories {n : Nat} (ss : SearchStats) (h : ss.WF n) (order order' : List CategoryStats)
    (hp : order.Perm (ss.categories.map Prod.snd)) (hp' : order'.Perm (ss.categories.map Prod.snd)) :
    ∃ l o, ss.allCategories order order' = some (l ++ [o]) ∧ ss.overall order' = some o ∧
      l.Perm (ss.categories.map Prod.snd) ∧ l.Pairwise fun a b => a.category < b.category := by
  obtain ⟨o, h1, _⟩ := C43_overall_partial ss h order' hp'
  have hn : (order.map (·.category)).Nodup := by
    have e : (ss.categories.map Prod.snd).map (·.category) = ss.categories.keys := by
      rw [List.map_map]
      unfold Assoc.keys
      apply List.map_congr_left
      rintro ⟨k, c⟩ hm
      exact (h.cat k c (Ring.Assoc.mem_find h.nodup hm)).1
    have := hp.map (·.category)
    rw [e] at this
    exact this.nodup_iff.mpr h.nodup
  obtain ⟨p1, p2⟩ := foldr_insertByName order hn
  exact ⟨_, o, by simp [SearchStats.allCategories, h1], h1, p1.trans hp, p2⟩

/-- C43 is false for event counts: the overall event count is 0 whatever the categories hold. -/
theorem C43_eventCount_violated :
    ∃ ss o, (newSearchStats [0]).observeAll [sampleTrace "a" 1 true false 5] = some ss ∧
      ss.overall (ss.categories.map Prod.snd) = some o ∧
      sumBy (·.eventCount) (ss.categories.map Prod.snd) = 1 ∧ o.eventCount = 0 := by
  refine ⟨_, _, rfl, rfl, ?_, ?_⟩ <;> rfl

/-- C43, exactly: the overall event count is always 0. So it is right if and only if no category has events. -/
theorem C43_events_exact {n : Nat} (ss : SearchStats) (h : ss.WF n) (order : List CategoryStats)
    (hp : order.Perm (ss.categories.map Prod.snd)) :
    ∃ o, ss.overall order = some o ∧ o.eventCount = 0 := by
  have hok : ∀ c ∈ order, c.OK n := by
    intro c hc
    obtain ⟨⟨k, c'⟩, hm, rfl⟩ := List.mem_map.mp (hp.mem_iff.mp hc)
    obtain ⟨h1, h2, h3, h4, h5, h6, h7⟩ := h.cat k c' (Ring.Assoc.mem_find h.nodup hm)
    exact ⟨h2, h3, h4, h5, h6, h7⟩
  have hnew : (newCategoryStats "overall" ss.bucketing).OK n := h.len ▸ newCat_ok "overall" ss.bucketing
  obtain ⟨o, b1, _, _, b4, _⟩ := overallLoop_spec order hok hnew (by simp [newCategoryStats])
  exact ⟨o, b1, b4⟩

/-! ## Examples -/

/-- Three traces of one category: active, failed, successful after 7. -/
def sampleTraces : List Static :=
  [sampleTrace "a" 3 false false 2, sampleTrace "b" 1 true true 4, sampleTrace "d" 2 true false 7]

/-- C37, C38, C39: the statistics of three traces with boundaries 0, 5, 10. -/
example : (newSearchStats [0, 5, 10]).observeAll sampleTraces = some
    { bucketing := [0, 5, 10],
      categories := [("c", ⟨"c", 3, 1, [1, 1, 0], 1, ⟨1, none⟩, ⟨3, none⟩⟩)] } := by rfl

example : ([0, 5, 10] : List Duration).head? = some 0 ∧ ([0, 5, 10] : List Duration).Pairwise (· ≤ ·) ∧
    (∀ t ∈ sampleTraces, t.finished = true → t.errored = false → 0 ≤ t.duration) ∧
    Clocks (sampleTraces.map (·.started)) := by
  refine ⟨rfl, by decide, ?_, Or.inr ?_⟩
  · intro t ht _ _
    simp only [sampleTraces, List.mem_cons, List.not_mem_nil, or_false] at ht
    rcases ht with rfl | rfl | rfl <;> decide
  · intro t ht _
    simp only [sampleTraces, sampleTrace, List.map_cons, List.map_nil, List.mem_cons, List.not_mem_nil, or_false] at ht
    rcases ht with rfl | rfl | rfl <;> rfl

/-- C41, C43: statistics of observed traces are well formed. -/
example : ∃ ss, (newSearchStats [0, 5, 10]).observeAll sampleTraces = some ss ∧ ss.WF 3 := by
  obtain ⟨ss, h1, h2⟩ := observeAll_spec (b := [0, 5, 10]) (by decide) sampleTraces (statsOf_new _)
  exact ⟨ss, h1, h2.wf⟩

end Trc
