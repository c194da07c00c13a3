import Verif.Props.Page
import Verif.Props.Stats

/-!
# The numbers on the page: C90, C91
-/

set_option linter.unusedVariables false
set_option linter.unusedSimpArgs false

namespace Trc.Web

open Trc.StatsSpec
open Ring (Assoc)

/-! ## The rows -/

/-- Statistics that are those of some traces. -/
structure RowOf (b : List Duration) (traces : List Static) (cs : CategoryStats) : Prop where
  active : cs.activeCount = actives traces
  errored : cs.erroredCount = failed traces
  bucket : cs.bucketCounts = b.map fun d => tookAtLeast d traces
  total : cs.totalCount = traces.length

theorem total_of {b : List Duration} (h0 : b.head? = some 0) {traces : List Static} {cs : CategoryStats}
    (h1 : cs.activeCount = actives traces) (h2 : cs.erroredCount = failed traces)
    (h3 : cs.bucketCounts = b.map fun d => tookAtLeast d traces)
    (hd : ∀ t ∈ traces, t.finished = true → t.errored = false → 0 ≤ t.duration) : cs.totalCount = traces.length := by
  have hz := tookAtLeast_zero traces hd
  have h := three_kinds traces
  unfold CategoryStats.totalCount
  cases b with
  | nil => cases h0
  | cons d b =>
    have hd0 : d = 0 := by simpa using h0
    subst hd0
    simp only [h3, List.map_cons, h1, h2, hz]
    omega

/-- How many traces have a property. -/
def howMany (p : Static → Bool) (l : List Static) : Int := (l.filter p).length

theorem howMany_cons (p : Static → Bool) (t : Static) (l : List Static) :
    howMany p (t :: l) = howMany p l + if p t then 1 else 0 := by
  unfold howMany
  rw [List.filter_cons]
  split <;> simp

theorem sumBy_congr {α : Type} {f g : α → Int} (l : List α) (h : ∀ a ∈ l, f a = g a) : sumBy f l = sumBy g l := by
  induction l with
  | nil => rfl
  | cons a l ih => simp only [sumBy, h a (by simp), ih (fun b hb => h b (by simp [hb]))]

theorem sumBy_map {α β : Type} (f : β → Int) (g : α → β) (l : List α) : sumBy f (l.map g) = sumBy (fun a => f (g a)) l := by
  induction l with
  | nil => rfl
  | cons a l ih => simp only [List.map_cons, sumBy, ih]

theorem sum_one (t : Static) (p : Static → Bool) (l : List Static) (keys : List String) (hn : keys.Nodup) :
    sumBy (fun k => howMany p (ofCat k (t :: l))) keys =
      sumBy (fun k => howMany p (ofCat k l)) keys + if t.category ∈ keys then (if p t then 1 else 0) else 0 := by
  induction keys with
  | nil => simp [sumBy]
  | cons k keys ih =>
    rw [List.nodup_cons] at hn
    simp only [sumBy, ih hn.2]
    by_cases hk : t.category = k
    · have e : ofCat k (t :: l) = t :: ofCat k l := by simp [ofCat, hk]
      have hnot : t.category ∉ keys := hk ▸ hn.1
      rw [e, howMany_cons]
      simp only [hnot, if_false, List.mem_cons, hk, true_or, if_true]
      have hnot' : k ∉ keys := hn.1
      simp only [hnot', if_false]
      omega
    · have e : ofCat k (t :: l) = ofCat k l := by simp [ofCat, hk]
      rw [e]
      simp only [List.mem_cons, hk, false_or]
      omega

theorem sum_all (p : Static → Bool) (l : List Static) (keys : List String) (hn : keys.Nodup) (h : ∀ t ∈ l, t.category ∈ keys) :
    sumBy (fun k => howMany p (ofCat k l)) keys = howMany p l := by
  induction l with
  | nil =>
    have : sumBy (fun k => howMany p (ofCat k [])) keys = 0 := by
      clear hn h
      induction keys with
      | nil => rfl
      | cons k keys ih =>
        simp only [sumBy, ih]
        simp [howMany, ofCat]
    simpa [howMany] using this
  | cons t l ih =>
    rw [sum_one t p l keys hn, ih (fun u hu => h u (by simp [hu])), if_pos (h t (by simp)), howMany_cons]

/-- The counts of category `k` for the traces `l`: `CatOf` without events and times. -/
structure CountsOf (b : List Duration) (k : String) (l : List Static) (cs : CategoryStats) : Prop where
  category : cs.category = k
  active : cs.activeCount = actives (ofCat k l)
  errored : cs.erroredCount = failed (ofCat k l)
  bucket : cs.bucketCounts = b.map fun d => tookAtLeast d (ofCat k l)

/-- Statistics with the counts of the traces `l`: `StatsOf` without events and times. -/
structure Tallied (b : List Duration) (l : List Static) (ss : SearchStats) : Prop where
  wf : ss.WF b.length
  present : ∀ k cs, ss.categories.find k = some cs → ofCat k l ≠ [] ∧ CountsOf b k l cs
  absent : ∀ k, ss.categories.find k = none → ofCat k l = []

theorem Tallied.nodup {b : List Duration} {l : List Static} {ss : SearchStats} (h : Tallied b l ss) : ss.categories.keys.Nodup := h.wf.nodup

theorem tallied_of {b : List Duration} {l : List Static} {ss : SearchStats} (h : StatsOf b l ss) : Tallied b l ss :=
  ⟨h.wf, fun k cs hf => ⟨(h.present k cs hf).1, (h.present k cs hf).2.category, (h.present k cs hf).2.active, (h.present k cs hf).2.errored,
    (h.present k cs hf).2.bucket⟩, h.absent⟩

theorem tallied_mem_keys {b : List Duration} {l : List Static} {ss : SearchStats} (h : Tallied b l ss) (t : Static) (ht : t ∈ l) :
    t.category ∈ ss.categories.keys := by
  cases hf : ss.categories.find t.category with
  | none =>
    have := h.absent _ hf
    have hm : t ∈ ofCat t.category l := by simp [ofCat, ht]
    rw [this] at hm; cases hm
  | some cs =>
    exact List.mem_map.mpr ⟨_, Ring.Assoc.find_mem hf, rfl⟩

theorem tallied_sum {b : List Duration} {l : List Static} {ss : SearchStats} (h : Tallied b l ss) (p : Static → Bool)
    (f : CategoryStats → Int) (hf : ∀ k cs, ss.categories.find k = some cs → f cs = howMany p (ofCat k l)) :
    sumBy f (ss.categories.map Prod.snd) = howMany p l := by
  rw [← sum_all p l ss.categories.keys h.nodup (tallied_mem_keys h), sumBy_map]
  unfold Assoc.keys
  rw [sumBy_map]
  apply sumBy_congr
  rintro ⟨k, cs⟩ hm
  exact hf k cs (Ring.Assoc.mem_find h.nodup hm)

theorem overall_row {b : List Duration} (h0 : b.head? = some 0) {l : List Static} {ss : SearchStats} (h : Tallied b l ss)
    (hd : ∀ t ∈ l, t.finished = true → t.errored = false → 0 ≤ t.duration)
    {order : List CategoryStats} (hp : order.Perm (ss.categories.map Prod.snd)) {o : CategoryStats} (ho : ss.overall order = some o) :
    o.category = "overall" ∧ RowOf b l o := by
  obtain ⟨o', h1, hcat, h2, h3, h4, h5, h6, _⟩ := C43_overall_partial ss h.wf order hp
  rw [ho] at h1
  cases h1
  have ha : o.activeCount = actives l := by
    rw [h2]; exact tallied_sum h (fun t => !t.finished) _ (fun k cs hf => (h.present k cs hf).2.active)
  have he : o.erroredCount = failed l := by
    rw [h3]; exact tallied_sum h (fun t => t.finished && t.errored) _ (fun k cs hf => (h.present k cs hf).2.errored)
  have hb : o.bucketCounts = b.map fun d => tookAtLeast d l := by
    apply List.ext_getElem
    · rw [h4, List.length_map]
    · intro i i1 i2
      have := h5 i
      rw [List.length_map] at i2
      have hs : sumBy (·.bucket i) (ss.categories.map Prod.snd) = tookAtLeast b[i] l := by
        refine tallied_sum h (fun t => t.finished && !t.errored && decide (b[i] ≤ t.duration)) _ ?_
        intro k cs hf
        unfold CategoryStats.bucket
        rw [(h.present k cs hf).2.bucket]
        simp [List.getD_eq_getElem?_getD, List.getElem?_map, i2]
        try rfl
      rw [hs] at this
      unfold CategoryStats.bucket at this
      simpa [List.getD_eq_getElem?_getD, List.getElem?_eq_getElem i1] using this
  exact ⟨hcat, ha, he, hb, total_of h0 ha he hb hd⟩

theorem category_row {b : List Duration} (h0 : b.head? = some 0) {k : String} {l : List Static} {cs : CategoryStats} (h : CountsOf b k l cs)
    (hd : ∀ t ∈ l, t.finished = true → t.errored = false → 0 ≤ t.duration) : RowOf b (ofCat k l) cs :=
  ⟨h.active, h.errored, h.bucket, total_of h0 h.active h.errored h.bucket (fun t ht => hd t (List.mem_filter.mp ht).1)⟩

theorem bucketCells_spec (g : Duration → Int) (total : Int) (pre suf : List Duration) :
    bucketCells (pre ++ suf) total pre.length (suf.map g) = some (suf.map fun d => (d, ⟨g d, percentInt (g d) total⟩)) := by
  induction suf generalizing pre with
  | nil => simp [bucketCells]
  | cons d suf ih =>
    have := ih (pre ++ [d])
    simp only [List.append_assoc, List.singleton_append, List.length_append, List.length_singleton] at this
    simp [bucketCells, this]

theorem summaryRow_spec (r : SearchRequest) {traces : List Static} {cs : CategoryStats} (h : RowOf r.bucketing traces cs) :
    summaryRow r cs = some {
      category := cs.category
      active := ⟨actives traces, percentInt (actives traces) traces.length⟩
      buckets := r.bucketing.map fun d => (d, ⟨tookAtLeast d traces, percentInt (tookAtLeast d traces) traces.length⟩)
      errored := ⟨failed traces, percentInt (failed traces) traces.length⟩
      total := traces.length } := by
  have := bucketCells_spec (fun d => tookAtLeast d traces) traces.length [] r.bucketing
  simp only [List.nil_append, List.length_nil] at this
  unfold summaryRow
  rw [h.bucket, h.total, this, h.active, h.errored]
  rfl

theorem summaryRows_spec (r : SearchRequest) (f : CategoryStats → Row) (cats : List CategoryStats) (h : ∀ cs ∈ cats, summaryRow r cs = some (f cs)) :
    summaryRows r cats = some (cats.map f) := by
  induction cats with
  | nil => rfl
  | cons cs cats ih =>
    simp [summaryRows, h cs (by simp), ih (fun c hc => h c (by simp [hc]))]

/-- The row of some traces. -/
def rowFor (b : List Duration) (category : String) (traces : List Static) : Row where
  category
  active := ⟨actives traces, percentInt (actives traces) traces.length⟩
  buckets := b.map fun d => (d, ⟨tookAtLeast d traces, percentInt (tookAtLeast d traces) traces.length⟩)
  errored := ⟨failed traces, percentInt (failed traces) traces.length⟩
  total := traces.length

/-- The whole summary. -/
theorem summary_spec (r : SearchRequest) (h0 : r.bucketing.head? = some 0) {l : List Static} {ss : SearchStats} (h : Tallied r.bucketing l ss)
    (hd : ∀ t ∈ l, t.finished = true → t.errored = false → 0 ≤ t.duration) (order order' : List CategoryStats)
    (hp : order.Perm (ss.categories.map Prod.snd)) (hp' : order'.Perm (ss.categories.map Prod.snd)) :
    ∃ names : List String, summary r ss order order' =
        some (names.map (fun k => rowFor r.bucketing k (ofCat k l)) ++ [rowFor r.bucketing "overall" l]) ∧
      names.Pairwise (· < ·) ∧ (∀ k, k ∈ names ↔ ∃ t ∈ l, t.category = k) := by
  obtain ⟨cats, o, h1, h2, h3, h4⟩ := C43_allCategories ss h.wf order order' hp hp'
  obtain ⟨hoc, ho⟩ := overall_row h0 h hd hp' h2
  have hcat : ∀ cs ∈ cats, ss.categories.find cs.category = some cs ∧ CountsOf r.bucketing cs.category l cs := by
    intro cs hcs
    obtain ⟨⟨k, c⟩, hm, rfl⟩ := List.mem_map.mp (h3.mem_iff.mp hcs)
    have hf := Ring.Assoc.mem_find h.nodup hm
    have hc := (h.present k c hf).2
    have e : c.category = k := hc.category
    simp only [e]
    exact ⟨hf, hc⟩
  have hrows : summaryRows r cats = some (cats.map fun cs => rowFor r.bucketing cs.category (ofCat cs.category l)) := by
    apply summaryRows_spec
    intro cs hcs
    exact summaryRow_spec r (category_row h0 (hcat cs hcs).2 hd)
  have happ : ∀ (xs : List CategoryStats) rows, summaryRows r xs = some rows → summaryRows r (xs ++ [o]) = some (rows ++ [rowFor r.bucketing "overall" l]) := by
    intro xs
    induction xs with
    | nil =>
      intro rows hr
      cases hr
      have hrow := summaryRow_spec r ho
      rw [hoc] at hrow
      simp [summaryRows, hrow, rowFor]
    | cons x xs ih =>
      intro rows hr
      simp only [summaryRows, Option.bind_eq_bind, Option.bind_eq_some_iff, Option.pure_def, Option.some.injEq] at hr
      obtain ⟨row, e1, rest, e2, rfl⟩ := hr
      simp [summaryRows, e1, ih rest e2]
  refine ⟨cats.map (·.category), ?_, ?_, ?_⟩
  · unfold summary
    rw [h1]
    simp only [Option.bind_eq_bind, Option.bind_some]
    rw [happ _ _ hrows, List.map_map]
    rfl
  · rw [List.pairwise_map]; exact h4
  · intro k
    constructor
    · intro hk
      obtain ⟨cs, hcs, rfl⟩ := List.mem_map.mp hk
      have := (h.present _ cs (hcat cs hcs).1).1
      obtain ⟨t, ht⟩ := List.exists_mem_of_ne_nil _ this
      have := List.mem_filter.mp ht
      exact ⟨t, this.1, by simpa using this.2⟩
    · rintro ⟨t, ht, rfl⟩
      obtain ⟨⟨k, c⟩, hm, hk⟩ := List.mem_map.mp (tallied_mem_keys h t ht)
      have hcs : c ∈ cats := h3.mem_iff.mpr (List.mem_map.mpr ⟨_, hm, rfl⟩)
      have hf := Ring.Assoc.mem_find h.nodup hm
      have e : c.category = k := (h.present k c hf).2.category
      exact List.mem_map.mpr ⟨c, hcs, by rw [e]; exact hk⟩

/-! ## C90 -/

/-- The traces that a filter allows. -/
def finds (compile : Compile) (f : Filter) (l : List Static) : List Static := l.filter fun t => (f.allow compile t).1

theorem allow_plain (compile : Compile) (f : Filter) (hq : f.query = "") (hr : f.regexp = none) (t : Static) :
    (f.allow compile t).1 = true ↔ f.Basic t := by
  rw [C31_allow_iff compile f (by intro re h; rw [hr] at h; cases h)]
  unfold Filter.Sat
  simp [hq]

theorem finds_eq (compile : Compile) (f : Filter) (hq : f.query = "") (hr : f.regexp = none) (p : Static → Bool)
    (l : List Static) (h : ∀ t ∈ l, f.Basic t ↔ p t = true) : finds compile f l = l.filter p := by
  apply List.filter_congr
  intro t ht
  rw [Bool.eq_iff_iff, allow_plain compile f hq hr, h t ht]

/-- **C90** (partial) The page of a search without query and sources, for any traces of any categories but `overall` and the
nameless one: there is a row for each category and one for all of them, and in each row the number of active traces and
the total are how many traces their links find; the number in a bucket is how many traces without error its link finds,
and the number of errors is how many finished traces its link finds. -/
theorem C90_counts_partial (compile : Compile) (req : SearchRequest) (hb : req.bucketing.Pairwise (· ≤ ·)) (h0 : req.bucketing.head? = some 0)
    (hq : req.filter.query = "") (hs : req.filter.sources = []) (l : List Static)
    (hd : ∀ t ∈ l, t.finished = true → t.errored = false → 0 ≤ t.duration)
    (hcat : ∀ t ∈ l, t.category ≠ "" ∧ t.category ≠ "overall") :
    ∃ ss, (newSearchStats req.bucketing).observeAll l = some ss ∧
      ∀ order order', order.Perm (ss.categories.map Prod.snd) → order'.Perm (ss.categories.map Prod.snd) →
        ∃ rows : List Row, summary req ss order order' = some rows ∧
          (∀ k, k ∈ rows.map (·.category) ↔ k = "overall" ∨ ∃ t ∈ l, t.category = k) ∧
          ∀ row ∈ rows,
            let found (cell : Cell) := finds compile (cell.narrow (rowFilter req row.category)) l
            row.active.count = (found .active).length ∧ row.total = (found .name).length ∧
            row.buckets.map Prod.fst = req.bucketing ∧
            (∀ c ∈ row.buckets, c.2.count = ((found (.bucket c.1)).filter fun t => !t.errored).length) ∧
            row.errored.count = ((found .errored).filter (·.finished)).length := by
  obtain ⟨ss, h1, h2⟩ := observeAll_spec hb l (statsOf_new req.bucketing)
  rw [List.nil_append] at h2
  refine ⟨ss, h1, ?_⟩
  intro order order' hp hp'
  obtain ⟨names, hsum, hasc, hnames⟩ := summary_spec req h0 (tallied_of h2) hd order order' hp hp'
  refine ⟨_, hsum, ?_, ?_⟩
  · intro k
    rw [List.map_append, List.map_map, List.mem_append]
    have e : (Row.category ∘ fun k => rowFor req.bucketing k (ofCat k l)) = id := rfl
    rw [e, List.map_id, hnames]
    simp only [List.map_cons, List.map_nil, List.mem_singleton, rowFor]
    exact Or.comm
  · -- a row for the traces of `l` that the row's filter allows
    have key : ∀ k traces,
        (∃ p : Static → Bool, traces = l.filter p ∧ ∀ t ∈ l, ((rowFilter req k).category = "" ∨ t.category = (rowFilter req k).category) ↔ p t = true) →
        let row := rowFor req.bucketing k traces
        let found (cell : Cell) := finds compile (cell.narrow (rowFilter req row.category)) l
        row.active.count = (found .active).length ∧ row.total = (found .name).length ∧
        row.buckets.map Prod.fst = req.bucketing ∧
        (∀ c ∈ row.buckets, c.2.count = ((found (.bucket c.1)).filter fun t => !t.errored).length) ∧
        row.errored.count = ((found .errored).filter (·.finished)).length := by
      rintro k traces ⟨p, rfl, hp⟩
      have ha := finds_eq compile (Cell.active.narrow (rowFilter req k)) hq rfl (fun t => p t && !t.finished) l
        (by intro t ht; simp [Filter.Basic, Cell.narrow, rowFilter, hs, ← hp t ht])
      have hn := finds_eq compile (Cell.name.narrow (rowFilter req k)) hq rfl (fun t => p t) l
        (by intro t ht; simp [Filter.Basic, Cell.narrow, rowFilter, hs, ← hp t ht])
      have he := finds_eq compile (Cell.errored.narrow (rowFilter req k)) hq rfl (fun t => p t && t.errored) l
        (by intro t ht; simp [Filter.Basic, Cell.narrow, rowFilter, hs, ← hp t ht])
      have hbk := fun d => finds_eq compile ((Cell.bucket d).narrow (rowFilter req k)) hq rfl (fun t => p t && (t.finished && decide (d ≤ t.duration))) l
        (by intro t ht; simp [Filter.Basic, Cell.narrow, rowFilter, hs, ← hp t ht])
      simp only [rowFor]
      refine ⟨?_, ?_, ?_, ?_, ?_⟩
      · rw [ha]; simp only [actives, List.filter_filter]
        congr 2; apply List.filter_congr; intro t _; rw [Bool.and_comm]
      · rw [hn]
      · rw [List.map_map]; exact List.map_id _
      · intro c hc
        obtain ⟨d, _, rfl⟩ := List.mem_map.mp hc
        simp only [hbk, tookAtLeast, List.filter_filter]
        congr 2; apply List.filter_congr; intro t _
        cases p t <;> cases t.finished <;> cases t.errored <;> simp
      · rw [he]; simp only [failed, List.filter_filter]
        congr 2; apply List.filter_congr; intro t _
        cases p t <;> cases t.finished <;> cases t.errored <;> simp
    intro row hrow
    rcases List.mem_append.mp hrow with hrow | hrow
    · obtain ⟨k, hk, rfl⟩ := List.mem_map.mp hrow
      obtain ⟨t, ht, htk⟩ := (hnames k).mp hk
      obtain ⟨c1, c2⟩ := hcat t ht
      rw [htk] at c1 c2
      refine key k _ ⟨fun t => t.category == k, rfl, ?_⟩
      intro t ht
      simp [rowFilter, c1, c2]
    · obtain rfl := List.mem_singleton.mp hrow
      refine key "overall" _ ⟨fun t => true, (List.filter_eq_self.mpr (fun _ _ => rfl)).symm, ?_⟩
      intro t ht
      simp [rowFilter]

theorem filter_length_self {p : Static → Bool} {l : List Static} (h : l.length = (l.filter p).length) : ∀ t ∈ l, p t = true :=
  List.length_filter_eq_length_iff.mp h.symm

/-- **C90**, exactly: on such a page every number is how many traces its link finds, in every row, just if no trace has
an error. -/
theorem C90_counts_exact (compile : Compile) (req : SearchRequest) (hb : req.bucketing.Pairwise (· ≤ ·)) (h0 : req.bucketing.head? = some 0)
    (hq : req.filter.query = "") (hs : req.filter.sources = []) (l : List Static)
    (hd : ∀ t ∈ l, t.finished = true → 0 ≤ t.duration)
    (hcat : ∀ t ∈ l, t.category ≠ "" ∧ t.category ≠ "overall") :
    ∃ ss, (newSearchStats req.bucketing).observeAll l = some ss ∧
      ∀ order order', order.Perm (ss.categories.map Prod.snd) → order'.Perm (ss.categories.map Prod.snd) →
        ∃ rows : List Row, summary req ss order order' = some rows ∧
          ((∀ row ∈ rows,
            let found (cell : Cell) := finds compile (cell.narrow (rowFilter req row.category)) l
            row.active.count = (found .active).length ∧ row.total = (found .name).length ∧
            row.buckets.map Prod.fst = req.bucketing ∧
            (∀ c ∈ row.buckets, c.2.count = (found (.bucket c.1)).length) ∧
            row.errored.count = (found .errored).length) ↔
          ∀ t ∈ l, t.errored = false) := by
  obtain ⟨ss, h1, h2⟩ := C90_counts_partial compile req hb h0 hq hs l (fun t ht hf _ => hd t ht hf) hcat
  refine ⟨ss, h1, ?_⟩
  intro order order' hp hp'
  obtain ⟨rows, h3, h4, h5⟩ := h2 order order' hp hp'
  refine ⟨rows, h3, ?_, ?_⟩
  · intro hall t ht
    obtain ⟨row, hrow, hk⟩ := List.mem_map.mp ((h4 "overall").mpr (.inl rfl))
    obtain ⟨_, _, a3, a4, a5⟩ := hall row hrow
    obtain ⟨_, _, _, b4, b5⟩ := h5 row hrow
    rw [hk] at a4 a5 b4 b5
    have he := finds_eq compile (Cell.errored.narrow (rowFilter req "overall")) hq rfl (fun t => t.errored) l
      (by intro t ht; simp [Filter.Basic, Cell.narrow, rowFilter, hs])
    have hbk := finds_eq compile ((Cell.bucket 0).narrow (rowFilter req "overall")) hq rfl (fun t => t.finished && decide (0 ≤ t.duration)) l
      (by intro t ht; simp [Filter.Basic, Cell.narrow, rowFilter, hs])
    cases herr : t.errored with
    | false => rfl
    | true =>
      have hfin := filter_length_self (p := (·.finished)) (l := finds compile (Cell.errored.narrow (rowFilter req "overall")) l) (by
        have := a5.symm.trans b5
        simp only at this; omega) t (by rw [he]; exact List.mem_filter.mpr ⟨ht, herr⟩)
      have h0m : (0 : Duration) ∈ row.buckets.map Prod.fst := by
        rw [a3]; exact List.mem_of_head? h0
      obtain ⟨c, hc, hc0⟩ := List.mem_map.mp h0m
      have e := (a4 c hc).symm.trans (b4 c hc)
      rw [hc0] at e
      have := filter_length_self (p := fun t => !t.errored) (l := finds compile ((Cell.bucket 0).narrow (rowFilter req "overall")) l)
        (by simp only at e; omega) t
        (by rw [hbk]; exact List.mem_filter.mpr ⟨ht, by simp [hfin, hd t ht hfin]⟩)
      simp [herr] at this
  · intro hno row hrow
    obtain ⟨b1, b2, b3, b4, b5⟩ := h5 row hrow
    refine ⟨b1, b2, b3, ?_, ?_⟩
    · intro c hc
      rw [b4 c hc, List.filter_eq_self.mpr]
      intro t ht
      simp [hno t (List.mem_filter.mp ht).1]
    · rw [b5, List.filter_eq_self.mpr]
      intro t ht
      obtain ⟨hm, ha⟩ := List.mem_filter.mp ht
      have := (allow_plain compile (Cell.errored.narrow (rowFilter req row.category)) hq rfl t).mp ha
      simp [Filter.Basic, Cell.narrow, hno t hm] at this

/-- **C90** is violated: the link of a bucket also finds traces that ended in an error, that of the errors also active
traces; and on a page with a source, the numbers are those of all sources. -/
theorem C90_counts_violated (compile : Compile) :
    ∃ (req req' : SearchRequest) (l : List Static) (ss : SearchStats) (row : Row),
      (newSearchStats req.bucketing).observeAll l = some ss ∧ req.filter = {} ∧ req'.filter = { sources := ["t"] } ∧
      req'.bucketing = req.bucketing ∧
      (∃ rest, summary req ss (ss.categories.map Prod.snd) (ss.categories.map Prod.snd) = some (row :: rest) ∧
        summary req' ss (ss.categories.map Prod.snd) (ss.categories.map Prod.snd) = some (row :: rest)) ∧
      (let found (cell : Cell) := finds compile (cell.narrow (rowFilter req row.category)) l
      row.buckets.map (fun c => (c.1, c.2.count)) = [(0, 1)] ∧ (found (.bucket 0)).length = 2 ∧
      row.errored.count = 1 ∧ (found .errored).length = 2) ∧
      row.total = 3 ∧ finds compile (Cell.name.narrow (rowFilter req' row.category)) l = [] := by
  refine ⟨{ bucketing := [0], limit := 10 }, { bucketing := [0], limit := 10, filter := { sources := ["t"] } },
    [sampleTrace "a" 1 true false 5, sampleTrace "b" 2 true true 5, sampleTrace "d" 3 false true 5], _, _, rfl, rfl, rfl, rfl, ⟨_, rfl, rfl⟩, ?_⟩
  refine ⟨⟨rfl, rfl, rfl, rfl⟩, rfl, rfl⟩

/-- Three traces of two categories, and the rows of their page. -/
example :
    let req : SearchRequest := { bucketing := [0, 10], limit := 10 }
    let l := [sampleTrace "a" 1 true false 5, { sampleTrace "b" 2 true false 15 with category := "d" }, sampleTrace "d" 3 false false 5]
    ∃ ss, (newSearchStats req.bucketing).observeAll l = some ss ∧
      (summary req ss (ss.categories.map Prod.snd) (ss.categories.map Prod.snd)).map
        (·.map fun r => (r.category, r.active.count, r.buckets.map (fun c => (c.1, c.2.count)), r.errored.count, r.total)) =
      some [("c", 1, [(0, 1), (10, 0)], 0, 2), ("d", 0, [(0, 1), (10, 1)], 0, 1), ("overall", 1, [(0, 2), (10, 1)], 0, 3)] := by
  exact ⟨_, rfl, rfl⟩

/-! ## C91 -/

theorem filter_le (p : Static → Bool) (l : List Static) : 0 ≤ ((l.filter p).length : Int) ∧ ((l.filter p).length : Int) ≤ l.length := by
  have := List.length_filter_le p l
  omega

theorem percentInt_bounds (n d : Int) (h0 : 0 ≤ n) (h1 : n ≤ d) (hd : 0 < d) :
    ∃ p, percentInt n d = some p ∧ 0 ≤ p ∧ p ≤ 100 ∧ p * d ≤ 100 * n ∧ 100 * n < (p + 1) * d := by
  refine ⟨(100 * n).tdiv d, by simp [percentInt]; omega, ?_⟩
  rw [Int.tdiv_eq_ediv_of_nonneg (by omega)]
  have a1 : 0 ≤ (100 * n) / d := Int.ediv_nonneg (by omega) (by omega)
  have a2 : (100 * n) / d * d ≤ 100 * n := Int.ediv_mul_le _ (by omega)
  have a3 : 100 * n < ((100 * n) / d + 1) * d := Int.lt_ediv_add_one_mul_self _ hd
  refine ⟨a1, ?_, a2, a3⟩
  have : (100 * n) / d < 101 := Int.ediv_lt_of_lt_mul hd (by omega)
  omega

/-- The percentage of a share is the integer part of its percentage of the total, and between 0 and 100. -/
def Share.Correct (s : Share) (total : Int) : Prop :=
  ∃ p, s.percent = some p ∧ 0 ≤ p ∧ p ≤ 100 ∧ p * total ≤ 100 * s.count ∧ 100 * s.count < (p + 1) * total

/-- **C91** (partial) If there is any trace, every percentage in the summary is that of the count next to it in the row's
total, rounded down, and between 0 and 100. -/
theorem C91_percentages_partial (req : SearchRequest) (hb : req.bucketing.Pairwise (· ≤ ·)) (h0 : req.bucketing.head? = some 0)
    (l : List Static) (hd : ∀ t ∈ l, t.finished = true → t.errored = false → 0 ≤ t.duration) (hne : l ≠ []) :
    ∃ ss, (newSearchStats req.bucketing).observeAll l = some ss ∧
      ∀ order order', order.Perm (ss.categories.map Prod.snd) → order'.Perm (ss.categories.map Prod.snd) →
        ∃ rows : List Row, summary req ss order order' = some rows ∧
          ∀ row ∈ rows, 0 < row.total ∧ row.active.Correct row.total ∧ row.errored.Correct row.total ∧
            ∀ c ∈ row.buckets, c.2.Correct row.total := by
  obtain ⟨ss, h1, h2⟩ := observeAll_spec hb l (statsOf_new req.bucketing)
  rw [List.nil_append] at h2
  refine ⟨ss, h1, ?_⟩
  intro order order' hp hp'
  obtain ⟨names, hsum, hasc, hnames⟩ := summary_spec req h0 (tallied_of h2) hd order order' hp hp'
  refine ⟨_, hsum, ?_⟩
  have key : ∀ k traces, traces ≠ [] → let row := rowFor req.bucketing k traces
      0 < row.total ∧ row.active.Correct row.total ∧ row.errored.Correct row.total ∧ ∀ c ∈ row.buckets, c.2.Correct row.total := by
    intro k traces hne
    have hpos : (0 : Int) < traces.length := by have := List.length_pos_iff.mpr hne; omega
    have hshare : ∀ p : Static → Bool, Share.Correct ⟨(traces.filter p).length, percentInt (traces.filter p).length traces.length⟩ traces.length := by
      intro p
      obtain ⟨a, b⟩ := filter_le p traces
      exact percentInt_bounds _ _ a b hpos
    refine ⟨hpos, hshare _, hshare _, ?_⟩
    intro c hc
    obtain ⟨d, _, rfl⟩ := List.mem_map.mp hc
    exact hshare _
  intro row hrow
  rcases List.mem_append.mp hrow with hrow | hrow
  · obtain ⟨k, hk, rfl⟩ := List.mem_map.mp hrow
    obtain ⟨t, ht, htk⟩ := (hnames k).mp hk
    refine key k _ ?_
    intro he
    have hm : t ∈ ofCat k l := by simp [ofCat, ht, htk]
    rw [he] at hm; cases hm
  · obtain rfl := List.mem_singleton.mp hrow
    exact key _ _ hne

/-- **C91** The percentages are all there exactly if there is any trace: otherwise each of them is a quotient of zero by zero. -/
theorem C91_exact (req : SearchRequest) (hb : req.bucketing.Pairwise (· ≤ ·)) (h0 : req.bucketing.head? = some 0)
    (l : List Static) (hd : ∀ t ∈ l, t.finished = true → t.errored = false → 0 ≤ t.duration) :
    ∃ ss, (newSearchStats req.bucketing).observeAll l = some ss ∧
      ∀ order order', order.Perm (ss.categories.map Prod.snd) → order'.Perm (ss.categories.map Prod.snd) →
        ∃ rows : List Row, summary req ss order order' = some rows ∧ rows ≠ [] ∧
          ∀ row ∈ rows, (row.active.percent.isSome ↔ l ≠ []) ∧ (row.errored.percent.isSome ↔ l ≠ []) ∧
            ∀ c ∈ row.buckets, c.2.percent.isSome ↔ l ≠ [] := by
  obtain ⟨ss, h1, h2⟩ := observeAll_spec hb l (statsOf_new req.bucketing)
  rw [List.nil_append] at h2
  refine ⟨ss, h1, ?_⟩
  intro order order' hp hp'
  obtain ⟨names, hsum, -, hnames⟩ := summary_spec req h0 (tallied_of h2) hd order order' hp hp'
  refine ⟨_, hsum, by simp, ?_⟩
  have some_iff : ∀ (n : Int) (traces : List Static), (percentInt n traces.length).isSome ↔ traces ≠ [] := by
    intro n traces
    unfold percentInt
    cases traces <;> simp
    omega
  have key : ∀ k traces, (traces ≠ [] ↔ l ≠ []) → let row := rowFor req.bucketing k traces
      (row.active.percent.isSome ↔ l ≠ []) ∧ (row.errored.percent.isSome ↔ l ≠ []) ∧ ∀ c ∈ row.buckets, c.2.percent.isSome ↔ l ≠ [] := by
    intro k traces hne
    refine ⟨(some_iff _ _).trans hne, (some_iff _ _).trans hne, ?_⟩
    intro c hc
    obtain ⟨d, _, rfl⟩ := List.mem_map.mp hc
    exact (some_iff _ _).trans hne
  intro row hrow
  rcases List.mem_append.mp hrow with hrow | hrow
  · obtain ⟨k, hk, rfl⟩ := List.mem_map.mp hrow
    obtain ⟨t, ht, htk⟩ := (hnames k).mp hk
    have hm : t ∈ ofCat k l := by simp [ofCat, ht, htk]
    exact key k _ ⟨fun _ => List.ne_nil_of_mem ht, fun _ => List.ne_nil_of_mem hm⟩
  · obtain rfl := List.mem_singleton.mp hrow
    exact key _ _ Iff.rfl

/-- **C91** is violated: without any traces the percentages of the only row are quotients of zero by zero. -/
theorem C91_percentages_violated :
    ∃ (ss : SearchStats) (row : Row), (newSearchStats [0]).observeAll [] = some ss ∧
      summary { bucketing := [0], limit := 10 } ss [] [] = some [row] ∧ row.active.count = 0 ∧ row.total = 0 ∧ row.active.percent = none ∧
      row.errored.percent = none ∧ row.buckets.map (·.2.percent) = [none] := by
  refine ⟨_, _, rfl, rfl, rfl, rfl, rfl, rfl, rfl⟩

end Trc.Web
