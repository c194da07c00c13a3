import Verif.Search.TimeLemmas

/-!
# What the statistics of a collection of traces should be
-/

set_option linter.unusedVariables false

namespace Trc

open Ring (Assoc)
open Ring.Assoc (find_insert)

namespace StatsSpec

/-- The traces of a category. -/
def ofCat (k : String) (l : List Static) : List Static := l.filter (fun t => t.category == k)

def actives (l : List Static) : Int := (l.filter fun t => !t.finished).length
def failed (l : List Static) : Int := (l.filter fun t => t.finished && t.errored).length
def succeeded (l : List Static) : Int := (l.filter fun t => t.finished && !t.errored).length
/-- Successful traces that took at least `d`. -/
def tookAtLeast (d : Duration) (l : List Static) : Int :=
  (l.filter fun t => t.finished && !t.errored && decide (d ≤ t.duration)).length
def events : List Static → Int
  | [] => 0
  | t :: l => (t.events.length : Int) + events l

end StatsSpec

open StatsSpec

theorem ofCat_append (k : String) (l m : List Static) : ofCat k (l ++ m) = ofCat k l ++ ofCat k m := by
  simp [ofCat]

theorem actives_append (l m : List Static) : actives (l ++ m) = actives l + actives m := by
  simp [actives]

theorem failed_append (l m : List Static) : failed (l ++ m) = failed l + failed m := by
  simp [failed]

theorem succeeded_append (l m : List Static) : succeeded (l ++ m) = succeeded l + succeeded m := by
  simp [succeeded]

theorem tookAtLeast_append (d : Duration) (l m : List Static) :
    tookAtLeast d (l ++ m) = tookAtLeast d l + tookAtLeast d m := by
  simp [tookAtLeast]

theorem events_append (l m : List Static) : events (l ++ m) = events l + events m := by
  induction l with
  | nil => simp [events]
  | cons t l ih => simp only [List.cons_append, events, ih]; omega

/-- The statistics of category `k` for the traces `l`. -/
structure CatOf (b : List Duration) (k : String) (l : List Static) (cs : CategoryStats) : Prop where
  category : cs.category = k
  event : cs.eventCount = events (ofCat k l)
  active : cs.activeCount = actives (ofCat k l)
  errored : cs.erroredCount = failed (ofCat k l)
  bucket : cs.bucketCounts = b.map fun d => tookAtLeast d (ofCat k l)
  oldest : cs.oldest = ((ofCat k l).map (·.started)).foldl olderOf Time.zero
  newest : cs.newest = ((ofCat k l).map (·.started)).foldl newerOf Time.zero

/-- The statistics of the traces `l`: exactly the categories that occur. -/
structure StatsOf (b : List Duration) (l : List Static) (ss : SearchStats) : Prop where
  bucketing : ss.bucketing = b
  nodup : ss.categories.keys.Nodup
  present : ∀ k cs, ss.categories.find k = some cs → ofCat k l ≠ [] ∧ CatOf b k l cs
  absent : ∀ k, ss.categories.find k = none → ofCat k l = []

theorem bump_spec (d : Duration) (b : List Duration) (hb : b.Pairwise (· ≤ ·)) (f : Duration → Int) :
    bump d b (b.map f) = some (b.map fun x => f x + if x ≤ d then 1 else 0) := by
  induction b with
  | nil => rfl
  | cons x b ih =>
    rw [List.pairwise_cons] at hb
    unfold bump
    by_cases hx : x > d
    · rw [if_pos hx]
      congr 1
      have : ∀ y ∈ x :: b, ¬ y ≤ d := by
        intro y hy
        rcases List.mem_cons.mp hy with rfl | hy
        · exact Int.not_le.mpr hx
        · exact Int.not_le.mpr (Int.lt_of_lt_of_le hx (hb.1 y hy))
      apply List.map_congr_left
      intro y hy
      simp [this y hy]
    · rw [if_neg hx]
      simp only [List.map_cons]
      rw [ih hb.2]
      have : x ≤ d := Int.not_lt.mp hx
      simp [this]

theorem catOf_new (b : List Duration) (k : String) (l : List Static) (h : ofCat k l = []) :
    CatOf b k l (newCategoryStats k b) := by
  constructor <;> simp [newCategoryStats, h, events, actives, failed, tookAtLeast, List.map_const']

theorem catOf_other {b : List Duration} {k : String} {l : List Static} {t : Static} {cs : CategoryStats}
    (h : CatOf b k l cs) (hk : t.category ≠ k) : CatOf b k (l ++ [t]) cs := by
  have : ofCat k (l ++ [t]) = ofCat k l := by simp [ofCat, hk]
  obtain ⟨h1, h2, h3, h4, h5, h6, h7⟩ := h
  constructor <;> (try rw [this]) <;> assumption

theorem observe_spec {b : List Duration} (hb : b.Pairwise (· ≤ ·)) {l : List Static} {ss : SearchStats}
    (h : StatsOf b l ss) (t : Static) : ∃ ss', ss.observe t = some ss' ∧ StatsOf b (l ++ [t]) ss' := by
  have hcs : ∃ cs, cs = (ss.categories.find t.category).getD (newCategoryStats t.category ss.bucketing) ∧
      CatOf b t.category l cs := by
    refine ⟨_, rfl, ?_⟩
    cases hf : ss.categories.find t.category with
    | some cs => exact (h.present _ _ hf).2
    | none => rw [h.bucketing]; exact catOf_new b _ l (h.absent _ hf)
  obtain ⟨cs, he, hc⟩ := hcs
  have hofcat : ofCat t.category (l ++ [t]) = ofCat t.category l ++ [t] := by simp [ofCat]
  have hcount : ∃ cs', (({ cs with eventCount := cs.eventCount + t.events.length } : CategoryStats).count b t = some cs') ∧
      CatOf b t.category (l ++ [t])
        { cs' with oldest := olderOf cs'.oldest t.started, newest := newerOf cs'.newest t.started } := by
    unfold CategoryStats.count
    cases hfin : t.finished with
    | false =>
      refine ⟨_, rfl, ?_⟩
      constructor <;> simp only [hofcat, actives_append, failed_append, tookAtLeast_append, events_append]
      · exact hc.category
      · rw [hc.event]; simp [events]
      · rw [hc.active]; simp [actives, hfin]
      · rw [hc.errored]; simp [failed, hfin]
      · rw [hc.bucket]; simp [tookAtLeast, hfin]
      · rw [hc.oldest]; simp
      · rw [hc.newest]; simp
    | true =>
      cases herr : t.errored with
      | false =>
        simp only [Bool.not_true, Bool.false_eq_true, if_false, Bool.not_false, Bool.and_self, if_true]
        rw [hc.bucket, bump_spec t.duration b hb]
        refine ⟨_, rfl, ?_⟩
        constructor <;> simp only [hofcat, actives_append, failed_append, tookAtLeast_append, events_append]
        · exact hc.category
        · rw [hc.event]; simp [events]
        · rw [hc.active]; simp [actives, hfin]
        · rw [hc.errored]; simp [failed, herr]
        · apply List.map_congr_left
          intro d _
          congr 1
          simp only [tookAtLeast, hfin, herr, List.filter_cons, List.filter_nil]
          by_cases hd : d ≤ t.duration <;> simp [hd]
        · rw [hc.oldest]; simp
        · rw [hc.newest]; simp
      | true =>
        refine ⟨_, rfl, ?_⟩
        constructor <;> simp only [hofcat, actives_append, failed_append, tookAtLeast_append, events_append]
        · exact hc.category
        · rw [hc.event]; simp [events]
        · rw [hc.active]; simp [actives, hfin]
        · rw [hc.errored]; simp [failed, hfin, herr]
        · rw [hc.bucket]; simp [tookAtLeast, herr]
        · rw [hc.oldest]; simp
        · rw [hc.newest]; simp
  obtain ⟨cs', e1, e2⟩ := hcount
  obtain ⟨cs₂, hcs₂⟩ : ∃ c : CategoryStats, c =
    { cs' with oldest := olderOf cs'.oldest t.started, newest := newerOf cs'.newest t.started } := ⟨_, rfl⟩
  rw [← hcs₂] at e2
  refine ⟨{ ss with categories := ss.categories.insert t.category cs₂ }, ?_, ?_⟩
  · unfold SearchStats.observe
    simp only
    rw [← he, h.bucketing, e1, hcs₂]
    rfl
  · constructor
    · exact h.bucketing
    · exact Ring.Assoc.nodup_insert h.nodup _ _
    · intro k cs'' hk
      simp only at hk
      rw [find_insert] at hk
      split at hk
      · rename_i hkk
        subst hkk
        obtain rfl := Option.some.inj hk
        exact ⟨by rw [hofcat]; simp, e2⟩
      · rename_i hkk
        obtain ⟨p1, p2⟩ := h.present k cs'' hk
        refine ⟨?_, catOf_other p2 (fun hh => hkk (hh ▸ rfl))⟩
        rw [ofCat_append]; simp [p1]
    · intro k hk
      simp only at hk
      rw [find_insert] at hk
      split at hk
      · cases hk
      · rename_i hkk
        rw [ofCat_append, h.absent k hk]
        have : t.category ≠ k := fun hh => hkk (hh ▸ rfl)
        simp [ofCat, this]

theorem statsOf_new (b : List Duration) : StatsOf b [] (newSearchStats b) := by
  constructor
  · rfl
  · simp [newSearchStats, Assoc.keys]
  · intro k cs h; cases h
  · intro k _; rfl

theorem observeAll_spec {b : List Duration} (hb : b.Pairwise (· ≤ ·)) (l : List Static) {l₀ : List Static} {ss : SearchStats}
    (h : StatsOf b l₀ ss) : ∃ ss', ss.observeAll l = some ss' ∧ StatsOf b (l₀ ++ l) ss' := by
  induction l generalizing l₀ ss with
  | nil => exact ⟨ss, rfl, by simpa using h⟩
  | cons t l ih =>
    obtain ⟨ss₁, h1, h2⟩ := observe_spec hb h t
    obtain ⟨ss₂, h3, h4⟩ := ih h2
    refine ⟨ss₂, by simp [SearchStats.observeAll, h1, h3], ?_⟩
    simpa [List.append_assoc] using h4

theorem observeAll_append (ss : SearchStats) (l m : List Static) :
    ss.observeAll (l ++ m) = (ss.observeAll l).bind (·.observeAll m) := by
  induction l generalizing ss with
  | nil => rfl
  | cons t l ih =>
    simp only [List.cons_append, SearchStats.observeAll]
    cases ss.observe t with
    | none => rfl
    | some s => simpa using ih s

/-! ## Merging -/

/-- Well-formed statistics with `n` buckets, as `Observe` and the wire make them. -/
structure SearchStats.WF (n : Nat) (ss : SearchStats) : Prop where
  len : ss.bucketing.length = n
  nodup : ss.categories.keys.Nodup
  cat : ∀ k cs, ss.categories.find k = some cs → cs.category = k ∧ cs.bucketCounts.length = n ∧
    0 ≤ cs.activeCount ∧ 0 ≤ cs.erroredCount ∧ (∀ c ∈ cs.bucketCounts, 0 ≤ c) ∧
    (cs.oldest.isZero = true → cs.oldest = Time.zero) ∧ (cs.newest.isZero = true → cs.newest = Time.zero)

/-- A field of the statistics of a category; an absent category counts as empty. -/
def SearchStats.get (ss : SearchStats) (k : String) : CategoryStats :=
  (ss.categories.find k).getD (newCategoryStats k ss.bucketing)

def SearchStats.has (ss : SearchStats) (k : String) : Bool := (ss.categories.find k).isSome

/-- The `i`-th bucket count. -/
def CategoryStats.bucket (cs : CategoryStats) (i : Nat) : Int := cs.bucketCounts.getD i 0

theorem addCounts_length (a b : List Int) : (addCounts a b).length = a.length := by
  induction a generalizing b with
  | nil => cases b <;> rfl
  | cons x a ih => cases b <;> simp [addCounts, ih]

theorem addCounts_get (a b : List Int) (h : a.length = b.length) (i : Nat) :
    (addCounts a b).getD i 0 = a.getD i 0 + b.getD i 0 := by
  induction a generalizing b i with
  | nil => cases b <;> simp [addCounts] at *
  | cons x a ih =>
    cases b with
    | nil => simp at h
    | cons y b =>
      simp only [addCounts]
      cases i with
      | zero => simp
      | succ i => simpa using ih b (by simpa using h) i

theorem addCounts_nonneg (a b : List Int) (ha : ∀ c ∈ a, 0 ≤ c) (hb : ∀ c ∈ b, 0 ≤ c) : ∀ c ∈ addCounts a b, 0 ≤ c := by
  induction a generalizing b with
  | nil => intro c hc; cases b <;> exact absurd hc (by simp [addCounts])
  | cons x a ih =>
    cases b with
    | nil => simpa [addCounts] using ha
    | cons y b =>
      intro c hc
      simp only [addCounts] at hc
      rcases List.mem_cons.mp hc with rfl | hc
      · have := ha x (by simp); have := hb y (by simp); omega
      · exact ih b (fun c h => ha c (by simp [h])) (fun c h => hb c (by simp [h])) c hc

theorem foldl_add_nonneg (l : List Int) (a : Int) (ha : 0 ≤ a) (h : ∀ c ∈ l, 0 ≤ c) (hz : l.foldl (· + ·) a = 0) :
    a = 0 ∧ ∀ c ∈ l, c = 0 := by
  induction l generalizing a with
  | nil => exact ⟨hz, by simp⟩
  | cons x l ih =>
    have hx := h x (by simp)
    obtain ⟨h1, h2⟩ := ih (a + x) (by omega) (fun c hc => h c (by simp [hc])) hz
    refine ⟨by omega, ?_⟩
    intro c hc
    rcases List.mem_cons.mp hc with rfl | hc
    · omega
    · exact h2 c hc

/-- The parts of a category's statistics that merging adds up. -/
structure SumOf (n : Nat) (r a b : CategoryStats) : Prop where
  active : r.activeCount = a.activeCount + b.activeCount
  errored : r.erroredCount = a.erroredCount + b.erroredCount
  bucket : ∀ i, r.bucket i = a.bucket i + b.bucket i
  len : r.bucketCounts.length = n
  oldest : r.oldest = olderOf a.oldest b.oldest
  newest : r.newest = newerOf a.newest b.newest

/-- Well-formed statistics of one category. -/
structure CategoryStats.OK (n : Nat) (cs : CategoryStats) : Prop where
  len : cs.bucketCounts.length = n
  active : 0 ≤ cs.activeCount
  errored : 0 ≤ cs.erroredCount
  bucket : ∀ c ∈ cs.bucketCounts, 0 ≤ c
  oldest : cs.oldest.isZero = true → cs.oldest = Time.zero
  newest : cs.newest.isZero = true → cs.newest = Time.zero

theorem isZero_spec {n : Nat} {cs : CategoryStats} (h : cs.OK n) (hz : cs.isZero = true) :
    cs.category = "" ∧ cs.activeCount = 0 ∧ cs.erroredCount = 0 ∧ (∀ i, cs.bucket i = 0) ∧
    cs.oldest = Time.zero ∧ cs.newest = Time.zero := by
  unfold CategoryStats.isZero at hz
  simp only [Bool.and_eq_true, beq_iff_eq] at hz
  obtain ⟨⟨⟨⟨⟨h1, h2⟩, h3⟩, h4⟩, h5⟩, h6⟩ := hz
  refine ⟨h1, h2, h4, ?_, h.oldest h5, h.newest h6⟩
  obtain ⟨_, h7⟩ := foldl_add_nonneg cs.bucketCounts 0 (by omega) h.bucket h3
  intro i
  unfold CategoryStats.bucket
  rw [List.getD_eq_getElem?_getD]
  cases hi : cs.bucketCounts[i]? with
  | none => rfl
  | some c => exact h7 c (List.mem_of_getElem? hi)

theorem olderOf_zero_left {t : Time} (h : t.isZero = true → t = Time.zero) : olderOf Time.zero t = t := by
  cases hz : t.isZero with
  | true => rw [h hz]; rfl
  | false => simp [olderOf, isZero_zero, hz]

theorem olderOf_zero_right' {t : Time} (h : t.isZero = true → t = Time.zero) : olderOf t Time.zero = t := by
  cases hz : t.isZero with
  | true => rw [h hz]; rfl
  | false => simp [olderOf, isZero_zero, hz]

theorem newerOf_zero_left {t : Time} (h : t.isZero = true → t = Time.zero) : newerOf Time.zero t = t := by
  cases hz : t.isZero with
  | true => rw [h hz]; rfl
  | false => simp [newerOf, isZero_zero, hz]

theorem newerOf_zero_right' {t : Time} (h : t.isZero = true → t = Time.zero) : newerOf t Time.zero = t := by
  cases hz : t.isZero with
  | true => rw [h hz]; rfl
  | false => simp [newerOf, isZero_zero, hz]

theorem olderOf_canon (a b : Time) (h : (olderOf a b).isZero = true) : olderOf a b = Time.zero := by
  cases ha : a.isZero <;> cases hb : b.isZero <;> simp [olderOf, ha, hb] at h ⊢
  split at h <;> simp_all

theorem newerOf_canon (a b : Time) (h : (newerOf a b).isZero = true) : newerOf a b = Time.zero := by
  cases ha : a.isZero <;> cases hb : b.isZero <;> simp [newerOf, ha, hb] at h ⊢
  split at h <;> simp_all

/-- `CategoryStats.Merge` adds up, and keeps the event count of the receiver unless that is
empty. -/
theorem catMerge_spec {n : Nat} {cs other : CategoryStats} (h : cs.OK n) (h' : other.OK n) :
    ∃ r, cs.merge other = some r ∧ r.OK n ∧ SumOf n r cs other ∧
      (r.category = cs.category ∨ (r.category = other.category ∧ cs.isZero = true)) ∧
      r.eventCount = (if other.isZero then cs.eventCount else if cs.isZero then other.eventCount else cs.eventCount) := by
  unfold CategoryStats.merge
  by_cases hz : other.isZero = true
  · rw [if_pos hz]
    obtain ⟨_, z2, z3, z4, z5, z6⟩ := isZero_spec h' hz
    refine ⟨cs, rfl, h, ⟨by rw [z2]; omega, by rw [z3]; omega, fun i => by rw [z4]; omega, h.len, ?_, ?_⟩,
      Or.inl rfl, by simp [hz]⟩
    · rw [z5, olderOf_zero_right' h.oldest]
    · rw [z6, newerOf_zero_right' h.newest]
  · rw [if_neg hz]
    by_cases hz' : cs.isZero = true
    · rw [if_pos hz']
      obtain ⟨_, z2, z3, z4, z5, z6⟩ := isZero_spec h hz'
      refine ⟨other, rfl, h', ⟨by rw [z2]; omega, by rw [z3]; omega, fun i => by rw [z4]; omega, h'.len, ?_, ?_⟩,
        Or.inr ⟨rfl, hz'⟩, by simp [hz, hz']⟩
      · rw [z5, olderOf_zero_left h'.oldest]
      · rw [z6, newerOf_zero_left h'.newest]
    · have hl : ¬ (cs.bucketCounts.length ≠ other.bucketCounts.length) := by rw [h.len, h'.len]; simp
      rw [if_neg hz', if_neg hl]
      refine ⟨_, rfl, ?_, ?_, Or.inl rfl, by simp [hz, hz']⟩
      · constructor
        · simp only; rw [addCounts_length, h.len]
        · simp only; have := h.active; have := h'.active; omega
        · simp only; have := h.errored; have := h'.errored; omega
        · exact addCounts_nonneg _ _ h.bucket h'.bucket
        · exact olderOf_canon _ _
        · exact newerOf_canon _ _
      · constructor
        · rfl
        · rfl
        · intro i; exact addCounts_get _ _ (by rw [h.len, h'.len]) i
        · simp only; rw [addCounts_length, h.len]
        · rfl
        · rfl

theorem newCat_ok (k : String) (b : List Duration) : (newCategoryStats k b).OK b.length := by
  constructor
  · simp [newCategoryStats]
  · simp [newCategoryStats]
  · simp [newCategoryStats]
  · intro c hc; have := List.eq_of_mem_replicate hc; omega
  · intro _; rfl
  · intro _; rfl

theorem newCat_bucket (k : String) (b : List Duration) (i : Nat) : (newCategoryStats k b).bucket i = 0 := by
  unfold CategoryStats.bucket newCategoryStats
  simp only [List.getD_eq_getElem?_getD, List.getElem?_replicate]
  split <;> rfl

theorem SearchStats.WF.get_ok {n : Nat} {ss : SearchStats} (h : ss.WF n) (k : String) :
    (ss.get k).OK n ∧ (ss.get k).category = k := by
  unfold SearchStats.get
  cases hf : ss.categories.find k with
  | none =>
    refine ⟨?_, rfl⟩
    have := newCat_ok k ss.bucketing
    rw [h.len] at this; exact this
  | some cs =>
    obtain ⟨h1, h2, h3, h4, h5, h6, h7⟩ := h.cat k cs hf
    exact ⟨⟨h2, h3, h4, h5, h6, h7⟩, h1⟩

theorem SearchStats.wf_insert {n : Nat} {ss : SearchStats} (h : ss.WF n) {k : String} {cs : CategoryStats}
    (hc : cs.OK n) (hk : cs.category = k) : ({ ss with categories := ss.categories.insert k cs } : SearchStats).WF n := by
  constructor
  · exact h.len
  · exact Ring.Assoc.nodup_insert h.nodup _ _
  · intro k' cs' hf
    simp only at hf
    rw [find_insert] at hf
    split at hf
    · rename_i hkk
      obtain rfl := Option.some.inj hf
      exact ⟨by rw [hk, hkk], hc.len, hc.active, hc.errored, hc.bucket, hc.oldest, hc.newest⟩
    · exact h.cat k' cs' hf

/-- The event count that merging leaves. -/
def keptEvents (a b : CategoryStats) (has : Bool) : Int :=
  if has then (if b.isZero then a.eventCount else if a.isZero then b.eventCount else a.eventCount) else b.eventCount

theorem mergeCategory_spec {n : Nat} {ss : SearchStats} (h : ss.WF n) {k : String} {theirs : CategoryStats}
    (ht : theirs.OK n) (hk : theirs.category = k) :
    ∃ r, ss.mergeCategory k theirs = some r ∧ r.WF n ∧ r.bucketing = ss.bucketing ∧
      (∀ k', r.has k' = (ss.has k' || k' == k)) ∧
      (∀ k', k' ≠ k → r.get k' = ss.get k') ∧
      SumOf n (r.get k) (ss.get k) theirs ∧
      (r.get k).eventCount = keptEvents (ss.get k) theirs (ss.has k) := by
  unfold SearchStats.mergeCategory
  cases hf : ss.categories.find k with
  | none =>
    refine ⟨_, rfl, SearchStats.wf_insert h ht hk, rfl, ?_, ?_, ?_, ?_⟩
    · intro k'
      unfold SearchStats.has
      simp only
      rw [find_insert]
      by_cases hh : k = k'
      · subst hh; simp
      · simp [hh, Ne.symm hh]
    · intro k' hne
      unfold SearchStats.get
      simp only
      rw [find_insert, if_neg (fun hh => hne hh.symm)]
    · have e : SearchStats.get { ss with categories := ss.categories.insert k theirs } k = theirs := by
        unfold SearchStats.get; simp only; rw [find_insert, if_pos rfl]; rfl
      have e' : ss.get k = newCategoryStats k ss.bucketing := by unfold SearchStats.get; rw [hf]; rfl
      rw [e, e']
      refine ⟨by simp [newCategoryStats], by simp [newCategoryStats], fun i => by rw [newCat_bucket]; omega, ht.len, ?_, ?_⟩
      · exact (olderOf_zero_left ht.oldest).symm
      · exact (newerOf_zero_left ht.newest).symm
    · have e : SearchStats.get { ss with categories := ss.categories.insert k theirs } k = theirs := by
        unfold SearchStats.get; simp only; rw [find_insert, if_pos rfl]; rfl
      rw [e]
      have : ss.has k = false := by unfold SearchStats.has; rw [hf]; rfl
      simp [keptEvents, this]
  | some ours =>
    have hg : ss.get k = ours := by unfold SearchStats.get; rw [hf]; rfl
    have hh : ss.has k = true := by unfold SearchStats.has; rw [hf]; rfl
    obtain ⟨ok, okc⟩ := h.get_ok k
    rw [hg] at ok okc
    obtain ⟨r, r1, r2, r3, r4, r5⟩ := catMerge_spec ok ht
    have rc : r.category = k := by
      rcases r4 with r4 | ⟨r4, _⟩
      · rw [r4, okc]
      · rw [r4, hk]
    have e : SearchStats.get { ss with categories := ss.categories.insert k r } k = r := by
      unfold SearchStats.get; simp only; rw [find_insert, if_pos rfl]; rfl
    refine ⟨{ ss with categories := ss.categories.insert k r }, by simp [r1], SearchStats.wf_insert h r2 rc, rfl, ?_, ?_, ?_, ?_⟩
    · intro k'
      unfold SearchStats.has
      simp only
      rw [find_insert]
      by_cases hh : k = k'
      · subst hh; simp
      · simp [hh, Ne.symm hh]
    · intro k' hne
      unfold SearchStats.get
      simp only
      rw [find_insert, if_neg (fun hh => hne hh.symm)]
    · rw [e, hg]; exact r3
    · rw [e, hg, hh, r5]; simp [keptEvents]

/-- `SearchStats.Merge` adds up category by category. -/
structure Merged (n : Nat) (r ss other : SearchStats) : Prop where
  wf : r.WF n
  bucketing : r.bucketing = ss.bucketing
  has : ∀ k, r.has k = (ss.has k || other.has k)
  sum : ∀ k, SumOf n (r.get k) (ss.get k) (other.get k)
  events : ∀ k, (r.get k).eventCount =
    if other.has k then keptEvents (ss.get k) (other.get k) (ss.has k) else (ss.get k).eventCount

theorem mergeLoop_spec {n : Nat} (order : List (String × CategoryStats)) (hn : (order.map Prod.fst).Nodup)
    (hok : ∀ p ∈ order, p.2.OK n ∧ p.2.category = p.1) {ss : SearchStats} (h : ss.WF n) :
    ∃ r, ss.mergeLoop order = some r ∧ r.WF n ∧ r.bucketing = ss.bucketing ∧
      (∀ k, r.has k = (ss.has k || (order.map Prod.fst).contains k)) ∧
      (∀ k, k ∉ order.map Prod.fst → r.get k = ss.get k) ∧
      (∀ p ∈ order, SumOf n (r.get p.1) (ss.get p.1) p.2 ∧
        (r.get p.1).eventCount = keptEvents (ss.get p.1) p.2 (ss.has p.1)) := by
  induction order generalizing ss with
  | nil => exact ⟨ss, rfl, h, rfl, by simp, by simp, by simp⟩
  | cons p order ih =>
    obtain ⟨k, theirs⟩ := p
    obtain ⟨o1, o2⟩ := hok (k, theirs) (by simp)
    simp only [List.map_cons, List.nodup_cons] at hn
    obtain ⟨s₁, m1, m2, m3, m4, m5, m6, m7⟩ := mergeCategory_spec h o1 o2
    obtain ⟨r, r1, r2, r3, r4, r5, r6⟩ := ih hn.2 (fun p hp => hok p (by simp [hp])) m2
    refine ⟨r, by simp [SearchStats.mergeLoop, m1, r1], r2, r3.trans m3, ?_, ?_, ?_⟩
    · intro k'
      rw [r4, m4]
      simp only [List.map_cons, List.contains_cons, Bool.or_assoc]
    · intro k' hk'
      simp only [List.map_cons, List.mem_cons, not_or] at hk'
      rw [r5 k' hk'.2, m5 k' hk'.1]
    · intro p hp
      rcases List.mem_cons.mp hp with rfl | hp
      · simp only
        rw [r5 k hn.1]
        exact ⟨m6, m7⟩
      · have hne : p.1 ≠ k := fun hh => hn.1 (hh ▸ List.mem_map_of_mem hp)
        have hh : s₁.has p.1 = ss.has p.1 := by rw [m4]; simp [hne]
        have := r6 p hp
        rw [m5 p.1 hne, hh] at this
        exact this

theorem find_of_perm {m : Assoc CategoryStats} (hn : m.keys.Nodup) {order : List (String × CategoryStats)}
    (hp : order.Perm m) (k : String) :
    (m.find k = none ↔ k ∉ order.map Prod.fst) ∧ (∀ cs, m.find k = some cs ↔ (k, cs) ∈ order) := by
  refine ⟨?_, ?_⟩
  · rw [Ring.Assoc.find_none_iff]
    have : (order.map Prod.fst).Perm m.keys := hp.map _
    rw [this.mem_iff]
  · intro cs
    rw [hp.mem_iff]
    exact ⟨Ring.Assoc.find_mem, Ring.Assoc.mem_find hn⟩

theorem sumOf_new {n : Nat} {cs : CategoryStats} (h : cs.OK n) (k : String) (b : List Duration) :
    SumOf n cs cs (newCategoryStats k b) := by
  refine ⟨by simp [newCategoryStats], by simp [newCategoryStats], fun i => by rw [newCat_bucket]; omega, h.len, ?_, ?_⟩
  · exact (olderOf_zero_right' h.oldest).symm
  · exact (newerOf_zero_right' h.newest).symm

theorem merge_spec {n : Nat} (hn : 0 < n) {ss other : SearchStats} (h : ss.WF n) (h' : other.WF n)
    (order : List (String × CategoryStats)) (hp : order.Perm other.categories) :
    ∃ r, ss.merge other order = some r ∧ Merged n r ss other := by
  have hord : (order.map Prod.fst).Nodup := by
    have : (order.map Prod.fst).Perm other.categories.keys := hp.map _
    exact this.nodup_iff.mpr h'.nodup
  have hok : ∀ p ∈ order, p.2.OK n ∧ p.2.category = p.1 := by
    intro p hpm
    have := (find_of_perm h'.nodup hp p.1).2 p.2 |>.mpr hpm
    obtain ⟨h1, h2⟩ := h'.get_ok p.1
    unfold SearchStats.get at h1 h2
    rw [this] at h1 h2
    exact ⟨h1, h2⟩
  obtain ⟨r, r1, r2, r3, r4, r5, r6⟩ := mergeLoop_spec order hord hok h
  refine ⟨r, ?_, ?_⟩
  · unfold SearchStats.merge SearchStats.isZero
    have : ¬ (other.bucketing.length ≤ 0) := by rw [h'.len]; omega
    have h2 : ¬ (ss.bucketing.length ≤ 0) := by rw [h.len]; omega
    have h3 : ¬ (ss.bucketing.length ≠ other.bucketing.length) := by rw [h.len, h'.len]; simp
    simp only [this, h2, decide_false, Bool.false_eq_true, if_false, h3]
    exact r1
  · refine ⟨r2, r3, ?_, ?_, ?_⟩
    · intro k
      rw [r4]
      congr 1
      obtain ⟨f1, f2⟩ := find_of_perm h'.nodup hp k
      unfold SearchStats.has
      cases hf : other.categories.find k with
      | none =>
        have := f1.mp hf
        simpa using this
      | some cs =>
        have hm : k ∈ order.map Prod.fst := List.mem_map_of_mem ((f2 cs).mp hf)
        simpa using hm
    · intro k
      obtain ⟨f1, f2⟩ := find_of_perm h'.nodup hp k
      cases hf : other.categories.find k with
      | none =>
        have e : other.get k = newCategoryStats k other.bucketing := by unfold SearchStats.get; rw [hf]; rfl
        rw [r5 k (f1.mp hf), e]
        exact sumOf_new (h.get_ok k).1 _ _
      | some cs =>
        have e : other.get k = cs := by unfold SearchStats.get; rw [hf]; rfl
        rw [e]
        exact (r6 (k, cs) ((f2 cs).mp hf)).1
    · intro k
      obtain ⟨f1, f2⟩ := find_of_perm h'.nodup hp k
      cases hf : other.categories.find k with
      | none =>
        have e : other.has k = false := by unfold SearchStats.has; rw [hf]; rfl
        rw [r5 k (f1.mp hf), e]; simp
      | some cs =>
        have e : other.get k = cs := by unfold SearchStats.get; rw [hf]; rfl
        have e' : other.has k = true := by unfold SearchStats.has; rw [hf]; rfl
        rw [e, e', if_pos rfl]
        exact (r6 (k, cs) ((f2 cs).mp hf)).2

end Trc
