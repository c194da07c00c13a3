import Verif.Search.Search
import Verif.Search.StatsSpec
import Verif.Props.Filter

/-!
# What `Collector.Search` computes
-/

set_option linter.unusedVariables false

namespace Trc

open Ring (Assoc)

variable {α : Type}

/-! ## Order -/

/-- The times are all from the same kind of clock. -/
def Comparable (ts : List Time) : Prop := ∃ m : Bool, ∀ t ∈ ts, t.mono.isSome = m

theorem less_iff {m : Bool} {a b : Static} (ha : a.started.mono.isSome = m) (hb : b.started.mono.isSome = m) :
    a.less b = true ↔ b.started.key m < a.started.key m ∨ (a.started.key m = b.started.key m ∧ b.id < a.id) := by
  unfold Static.less
  have h1 := after_iff ha hb
  have h2 := before_iff ha hb
  by_cases e1 : a.started.after b.started = true
  · rw [if_pos e1]; simp [h1.mp e1]
  · rw [if_neg e1]
    by_cases e2 : a.started.before b.started = true
    · rw [if_pos e2]
      have := h2.mp e2
      simp only [Bool.false_eq_true, false_iff, not_or, not_and]
      refine ⟨by omega, ?_⟩
      intro h; omega
    · rw [if_neg e2]
      rw [h1] at e1; rw [h2] at e2
      have : a.started.key m = b.started.key m := by omega
      rw [decide_eq_true_eq]
      constructor
      · intro h; exact Or.inr ⟨this, h⟩
      · rintro (h | ⟨_, h⟩)
        · omega
        · exact h

theorem str_lt_irrefl (a : String) : ¬ a < a := String.lt_irrefl a
theorem str_trichotomy (a b : String) : a < b ∨ a = b ∨ b < a := Std.lt_trichotomy a b

/-- Strict weak order on comparable traces. -/
theorem less_irrefl {m : Bool} {a : Static} (ha : a.started.mono.isSome = m) : a.less a = false := by
  rw [← Bool.not_eq_true, less_iff ha ha]
  rintro (h | ⟨_, h⟩)
  · omega
  · exact str_lt_irrefl _ h

theorem less_trans {m : Bool} {a b c : Static} (ha : a.started.mono.isSome = m) (hb : b.started.mono.isSome = m)
    (hc : c.started.mono.isSome = m) (h1 : a.less b = true) (h2 : b.less c = true) : a.less c = true := by
  rw [less_iff ha hb] at h1
  rw [less_iff hb hc] at h2
  rw [less_iff ha hc]
  rcases h1 with h1 | ⟨h1, h1'⟩ <;> rcases h2 with h2 | ⟨h2, h2'⟩
  · left; omega
  · left; omega
  · left; omega
  · right; exact ⟨by omega, String.lt_trans h2' h1'⟩

/-- Negated: "at least as recent" is transitive and total. -/
theorem less_neg_trans {m : Bool} {a b c : Static} (ha : a.started.mono.isSome = m) (hb : b.started.mono.isSome = m)
    (hc : c.started.mono.isSome = m) (h1 : a.less b = false) (h2 : b.less c = false) : a.less c = false := by
  rw [← Bool.not_eq_true, less_iff ha hb] at h1
  rw [← Bool.not_eq_true, less_iff hb hc] at h2
  rw [← Bool.not_eq_true, less_iff ha hc]
  rintro (h | ⟨h, h'⟩)
  · have : ¬ b.started.key m < a.started.key m := fun h => h1 (Or.inl h)
    have : ¬ c.started.key m < b.started.key m := fun h => h2 (Or.inl h)
    omega
  · have e1 : ¬ b.started.key m < a.started.key m := fun h => h1 (Or.inl h)
    have e2 : ¬ c.started.key m < b.started.key m := fun h => h2 (Or.inl h)
    have e3 : a.started.key m = b.started.key m := by omega
    have e4 : b.started.key m = c.started.key m := by omega
    have i1 : ¬ b.id < a.id := fun h => h1 (Or.inr ⟨e3, h⟩)
    have i2 : ¬ c.id < b.id := fun h => h2 (Or.inr ⟨e4, h⟩)
    rcases str_trichotomy b.id a.id with t | t | t
    · exact i1 t
    · exact i2 (t ▸ h')
    · exact i2 (String.lt_trans h' t)

theorem less_asymm {m : Bool} {a b : Static} (ha : a.started.mono.isSome = m) (hb : b.started.mono.isSome = m)
    (h : a.less b = true) : b.less a = false := by
  cases hh : b.less a with
  | false => rfl
  | true =>
    have := less_trans ha hb ha h hh
    rw [less_irrefl ha] at this; cases this

theorem less_eq_of_neither {m : Bool} {a b : Static} (ha : a.started.mono.isSome = m) (hb : b.started.mono.isSome = m)
    (h1 : a.less b = false) (h2 : b.less a = false) : a.started.equal b.started = true ∧ a.id = b.id := by
  rw [← Bool.not_eq_true, less_iff ha hb] at h1
  rw [← Bool.not_eq_true, less_iff hb ha] at h2
  have e : a.started.key m = b.started.key m := by
    have : ¬ b.started.key m < a.started.key m := fun h => h1 (Or.inl h)
    have : ¬ a.started.key m < b.started.key m := fun h => h2 (Or.inl h)
    omega
  refine ⟨(equal_iff ha hb).mpr e, ?_⟩
  rcases str_trichotomy a.id b.id with t | t | t
  · exact absurd (Or.inr ⟨e.symm, t⟩) h2
  · exact t
  · exact absurd (Or.inr ⟨e, t⟩) h1

/-- Newest first: no trace is more recent than one before it. -/
def NewestFirst (l : List Static) : Prop := l.Pairwise fun a b => b.less a = false

/-- What `sort.Sort` guarantees: a permutation, in order if the comparison is consistent. -/
structure SortOK (srt : List Static → List Static) : Prop where
  perm : ∀ l, (srt l).Perm l
  sorted : ∀ l, Comparable (l.map (·.started)) → NewestFirst (srt l)

/-! ## Observe does not panic -/

theorem bump_some (d : Duration) (b : List Duration) (c : List Int) (h : c.length = b.length) :
    ∃ c', bump d b c = some c' ∧ c'.length = b.length := by
  induction b generalizing c with
  | nil => exact ⟨c, by simp [bump], h⟩
  | cons x b ih =>
    unfold bump
    split
    · exact ⟨c, rfl, h⟩
    · cases c with
      | nil => simp at h
      | cons y c =>
        obtain ⟨c', h1, h2⟩ := ih c (by simpa using h)
        exact ⟨(y + 1) :: c', by simp [h1], by simp [h2]⟩

/-- Every category has as many counts as there are buckets. -/
def Fits (ss : SearchStats) : Prop := ∀ k cs, ss.categories.find k = some cs → cs.bucketCounts.length = ss.bucketing.length

theorem observe_fits {ss : SearchStats} (h : Fits ss) (tr : Static) : ∃ ss', ss.observe tr = some ss' ∧ Fits ss' := by
  unfold SearchStats.observe
  simp only [Option.bind_eq_bind, Option.pure_def]
  obtain ⟨cs, hcs⟩ : ∃ cs, cs = (ss.categories.find tr.category).getD (newCategoryStats tr.category ss.bucketing) := ⟨_, rfl⟩
  have hlen : cs.bucketCounts.length = ss.bucketing.length := by
    rw [hcs]
    cases hf : ss.categories.find tr.category with
    | none => simp [newCategoryStats]
    | some c => exact h _ _ hf
  rw [← hcs]
  have hcount : ∃ cs', ({ cs with eventCount := cs.eventCount + tr.events.length } : CategoryStats).count ss.bucketing tr = some cs' ∧
      cs'.bucketCounts.length = ss.bucketing.length := by
    unfold CategoryStats.count
    cases tr.finished with
    | false => exact ⟨_, rfl, hlen⟩
    | true =>
      cases tr.errored with
      | true => exact ⟨_, rfl, hlen⟩
      | false =>
        simp only [Bool.not_true, Bool.false_eq_true, if_false, Bool.not_false, Bool.and_self, if_true]
        obtain ⟨c', h1, h2⟩ := bump_some tr.duration ss.bucketing cs.bucketCounts hlen
        exact ⟨_, by rw [h1]; rfl, h2⟩
  obtain ⟨cs', h1, h2⟩ := hcount
  rw [h1]
  refine ⟨_, rfl, ?_⟩
  intro k c hk
  simp only at hk
  rw [Ring.Assoc.find_insert] at hk
  split at hk
  · obtain rfl := Option.some.inj hk; exact h2
  · exact h k c hk

theorem fits_new (b : List Duration) : Fits (newSearchStats b) := by intro k cs h; cases h

theorem observeAll_fits (l : List Static) {ss : SearchStats} (h : Fits ss) : ∃ ss', ss.observeAll l = some ss' ∧ Fits ss' := by
  induction l generalizing ss with
  | nil => exact ⟨ss, rfl, h⟩
  | cons t l ih =>
    obtain ⟨s₁, h1, h2⟩ := observe_fits h t
    obtain ⟨s₂, h3, h4⟩ := ih h2
    exact ⟨s₂, by simp [SearchStats.observeAll, h1, h3], h4⟩

/-! ## The walk over one buffer -/

/-- The candidates the filter allows. -/
def allowed (compile : Compile) (f : Filter) (view : α → Look → Static) (l : List α) : List α :=
  l.filter fun c => (f.allow compile (view c .filter)).1

theorem take_append_filter {β : Type} (p : β → Bool) (n : Nat) (l m : List β) :
    ((l ++ m).filter p).take n = (l.filter p).take n ++ (m.filter p).take (n - (l.filter p).length) := by
  rw [List.filter_append, List.take_append]

/-- A filter that does not change when used. -/
def Settled (compile : Compile) (f : Filter) : Prop := ∀ tr, (f.allow compile tr).2 = f

theorem visit_search (compile : Compile) (req : SearchRequest) (hset : Settled compile req.filter) (hlim : 0 ≤ req.limit)
    (view : α → Look → Static) (items : List α) (done : List α) (st : SearchState) (mc : Int)
    (hst : Fits st.stats) (hf : st.filter = req.filter)
    (hcat : st.categoryTraces = ((allowed compile req.filter view done).take req.limit.toNat).map
      fun c => (view c .copy).trimStacks req.stackDepth)
    (hmc : st.matchCount = mc + st.categoryTraces.length) :
    ∃ st', Ring.Spec.visit (searchTrace compile req view) items (some st) = (some st', none) ∧
      st.stats.observeAll (items.map (view · .observe)) = some st'.stats ∧ Fits st'.stats ∧
      st'.totalCount = st.totalCount + items.length ∧ st'.filter = req.filter ∧
      st'.categoryTraces = ((allowed compile req.filter view (done ++ items)).take req.limit.toNat).map
        (fun c => (view c .copy).trimStacks req.stackDepth) ∧
      st'.matchCount = mc + st'.categoryTraces.length := by
  induction items generalizing done st with
  | nil => exact ⟨st, rfl, rfl, hst, by simp, hf, by simpa using hcat, hmc⟩
  | cons c items ih =>
    obtain ⟨ss, h1, h2⟩ := observe_fits hst (view c .observe)
    obtain ⟨st₁, hst₁⟩ : ∃ st₁, st₁ = selectTrace compile req view { st with stats := ss, totalCount := st.totalCount + 1 } c := ⟨_, rfl⟩
    have hstep : searchTrace compile req view (some st) c = (some st₁, none) := by
      simp [searchTrace, h1, hst₁]
    have hdone : allowed compile req.filter view (done ++ [c]) =
        allowed compile req.filter view done ++ (if (req.filter.allow compile (view c .filter)).1 then [c] else []) := by
      unfold allowed
      rw [List.filter_append]
      congr 1
      simp [List.filter_cons]
    have hlen : st.categoryTraces.length = min req.limit.toNat (allowed compile req.filter view done).length := by
      rw [hcat]; simp
    have props : Fits st₁.stats ∧ st₁.stats = ss ∧ st₁.totalCount = st.totalCount + 1 ∧ st₁.filter = req.filter ∧
        st₁.categoryTraces = ((allowed compile req.filter view (done ++ [c])).take req.limit.toNat).map
          (fun c => (view c .copy).trimStacks req.stackDepth) ∧
        st₁.matchCount = mc + st₁.categoryTraces.length := by
      rw [hst₁]
      unfold selectTrace
      simp only
      by_cases hfull : (st.categoryTraces.length : Int) ≥ req.limit
      · rw [if_pos hfull]
        refine ⟨h2, rfl, rfl, hf, ?_, hmc⟩
        simp only
        rw [hcat, hdone, List.take_append_of_le_length]
        omega
      · rw [if_neg hfull]
        rw [hf, hset]
        have hshort : (allowed compile req.filter view done).length < req.limit.toNat := by omega
        cases hal : (req.filter.allow compile (view c .filter)).1 with
        | false =>
          simp only [Bool.not_false, if_true]
          refine ⟨h2, by simp, by simp, by simp, ?_, hmc⟩
          rw [hcat, hdone, hal]; simp
        | true =>
          simp only [Bool.not_true, Bool.false_eq_true, if_false]
          refine ⟨h2, by simp, by simp, by simp, ?_, ?_⟩
          · rw [hcat, hdone, hal]
            simp only [if_true]
            rw [List.take_of_length_le (by omega), List.take_of_length_le (by simp; omega), List.map_append]
            rfl
          · rw [hmc]; simp only [List.length_append, List.length_singleton]; omega
    obtain ⟨p1, p2, p3, p4, p5, p6⟩ := props
    obtain ⟨st', q1, q2, q3, q4, q5, q6, q7⟩ := ih (done ++ [c]) st₁ p1 p4 p5 p6
    refine ⟨st', ?_, ?_, q3, ?_, q5, ?_, q7⟩
    · simp only [Ring.Spec.visit, hstep]; exact q1
    · rw [p2] at q2
      simp [SearchStats.observeAll, h1, q2]
    · rw [q4, p3]; simp only [List.length_cons]; omega
    · rw [q6]; simp [List.append_assoc]

/-- The candidates selected from a buffer. -/
def selected (compile : Compile) (req : SearchRequest) (view : α → Look → Static) (items : List α) : List α :=
  (allowed compile req.filter view items).take req.limit.toNat

theorem searchRings_spec [Inhabited α] (compile : Compile) (req : SearchRequest) (hset : Settled compile req.filter)
    (hlim : 0 ≤ req.limit) (view : α → Look → Static) (rings : List (Ring.RB α)) (contents : List (List α))
    (hr : rings.map Ring.walkAll = contents.map some)
    (hrep : ∀ rb ∈ rings, ∃ r, Ring.Rep rb r) (st : SearchState) (traces : List Static)
    (hst : Fits st.stats) (hf : st.filter = req.filter) :
    ∃ st', searchRings compile req view rings st traces = some (st', traces ++
        (contents.flatMap (selected compile req view)).map (fun c => (view c .copy).trimStacks req.stackDepth)) ∧
      st.stats.observeAll (contents.flatten.map (view · .observe)) = some st'.stats ∧
      st'.totalCount = st.totalCount + contents.flatten.length ∧
      st'.matchCount = st.matchCount + (contents.flatMap (selected compile req view)).length := by
  induction rings generalizing contents st traces with
  | nil =>
    cases contents with
    | nil => exact ⟨st, by simp [searchRings], rfl, by simp, by simp⟩
    | cons _ _ => cases hr
  | cons rb rings ih =>
    cases contents with
    | nil => cases hr
    | cons items contents =>
      simp only [List.map_cons, List.cons.injEq] at hr
      obtain ⟨r, hrb⟩ := hrep rb (by simp)
      have hitems : r.items = items := by
        have := Ring.walkAll_spec hrb
        rw [hr.1] at this; exact (Option.some.inj this).symm
      obtain ⟨st₁, v1, v2, v3, v4, v5, v6, v7⟩ := visit_search compile req hset hlim view items []
        { st with categoryTraces := [] } st.matchCount hst hf (by simp [allowed]) (by simp)
      obtain ⟨st', i1, i2, i3, i4⟩ := ih contents hr.2 (fun rb h => hrep rb (by simp [h])) st₁ (traces ++ st₁.categoryTraces) v3 v5
      have hw : Ring.walk rb (searchTrace compile req view) (some { st with categoryTraces := [] }) = some (some st₁, none) := by
        rw [Ring.walk_spec hrb, hitems, v1]
      refine ⟨st', ?_, ?_, ?_, ?_⟩
      · unfold searchRings
        simp only [hw, Option.bind_eq_bind, Option.bind_some]
        rw [i1, v6]
        simp [selected, List.append_assoc]
      · simp only [List.flatten_cons, List.map_append]
        rw [observeAll_append, v2]; exact i2
      · rw [i3, v4]; simp only [List.flatten_cons, List.length_append]; omega
      · rw [i4, v7, v6]
        simp only [List.flatMap_cons, List.length_append, List.length_map, selected, List.nil_append]
        omega

/-- The whole search, in closed form. -/
theorem search_spec [Inhabited α] (compile : Compile) (srt : List Static → List Static) (source : String)
    (req : SearchRequest) (hf : req.filter.Fresh compile) (view : α → Look → Static)
    (rings : List (Ring.RB α)) (contents : List (List α)) (hr : rings.map Ring.walkAll = contents.map some)
    (hrep : ∀ rb ∈ rings, ∃ r, Ring.Rep rb r) :
    ∃ req' problems res, req.normalize compile = some (req', problems) ∧
      search compile srt source req view rings = some res ∧
      1 ≤ req'.limit ∧ req'.limit ≤ 250 ∧ req'.filter = (req.filter.normalize compile).1 ∧
      req'.stackDepth = req.stackDepth ∧
      res.sources = [source] ∧ res.problems = problems ∧
      res.totalCount = contents.flatten.length ∧
      res.matchCount = (contents.flatMap (selected compile req' view)).length ∧
      (newSearchStats req'.bucketing).observeAll (contents.flatten.map (view · .observe)) = some res.stats ∧
      res.traces = (srt ((contents.flatMap (selected compile req' view)).map
        fun c => (view c .copy).trimStacks req'.stackDepth)).take req'.limit.toNat := by
  obtain ⟨req', problems, h1, h2, h3, _⟩ := C35_limit compile req
  have hfil : req'.filter = (req.filter.normalize compile).1 ∧ req'.stackDepth = req.stackDepth := by
    unfold SearchRequest.normalize at h1
    cases hb : normalizeBucketing req.bucketing with
    | none => rw [hb] at h1; cases h1
    | some b =>
      rw [hb] at h1
      have := Option.some.inj h1
      rw [← (Prod.mk.inj this).1]
      exact ⟨rfl, rfl⟩
  have hset : Settled compile req'.filter := by
    rw [hfil.1]; exact (normalize_fresh compile req.filter hf).2.1
  obtain ⟨st', s1, s2, s3, s4⟩ := searchRings_spec compile req' hset (by omega) view rings contents hr hrep
    ⟨newSearchStats req'.bucketing, 0, 0, [], req'.filter⟩ [] (fits_new _) rfl
  obtain ⟨traces, htr⟩ : ∃ traces, traces = srt ((contents.flatMap (selected compile req' view)).map
      fun c => (view c .copy).trimStacks req'.stackDepth) := ⟨_, rfl⟩
  refine ⟨req', problems, { sources := [source], totalCount := st'.totalCount, matchCount := st'.matchCount,
                            traces := if (traces.length : Int) > req'.limit then traces.take req'.limit.toNat else traces,
                            stats := st'.stats, problems }, h1, ?_, h2, h3, hfil.1, hfil.2, rfl, rfl, ?_, ?_, s2, ?_⟩
  · unfold search
    simp only [h1, s1, Option.bind_eq_bind, Option.bind_some, List.nil_append, Option.pure_def]
    rw [htr]
  · simp only; rw [s3]; simp
  · simp only; rw [s4]; simp
  · simp only
    rw [← htr]
    split
    · rfl
    · rw [List.take_of_length_le]; omega

end Trc
