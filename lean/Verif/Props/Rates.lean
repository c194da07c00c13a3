import Verif.Search.Rates

/-!
# C79: rates add up
-/

namespace Trc

theorem Rated.traceRate_cs (r : Rated) (now : Time) : (r.traceRate now).2.cs = r.cs := by
  unfold Rated.traceRate; split <;> rfl

theorem Rated.eventRate_cs (r : Rated) (now : Time) : (r.eventRate now).2.cs = r.cs := by
  unfold Rated.eventRate; split <;> rfl

theorem Rated.traceRate_event (r : Rated) (now : Time) : (r.traceRate now).2.eventrate = r.eventrate := by
  unfold Rated.traceRate; split <;> rfl

theorem Rated.eventRate_trace (r : Rated) (now : Time) : (r.eventRate now).2.tracerate = r.tracerate := by
  unfold Rated.eventRate; split <;> rfl

/-- The value is remembered. -/
theorem Rated.traceRate_kept (r : Rated) (now : Time) : (r.traceRate now).2.tracerate = (r.traceRate now).1 := by
  unfold Rated.traceRate; split <;> rfl

theorem Rated.eventRate_kept (r : Rated) (now : Time) : (r.eventRate now).2.eventrate = (r.eventRate now).1 := by
  unfold Rated.eventRate; split <;> rfl

/-- Only the remembered value and the statistics matter. -/
theorem Rated.traceRate_congr {r s : Rated} (h : r.cs = s.cs) (k : r.tracerate = s.tracerate) (now : Time) :
    (r.traceRate now).1 = (s.traceRate now).1 := by
  unfold Rated.traceRate
  rw [h, k]
  split <;> rfl

theorem Rated.eventRate_congr {r s : Rated} (h : r.cs = s.cs) (k : r.eventrate = s.eventrate) (now : Time) :
    (r.eventRate now).1 = (s.eventRate now).1 := by
  unfold Rated.eventRate
  rw [h, k]
  split <;> rfl

/-- `Merge` does to its argument nothing but ask for the rates, if that. -/
def Asked (r s : Rated) : Prop :=
  s.cs = r.cs ∧ (s.tracerate = r.tracerate ∨ ∃ now, s.tracerate = (r.traceRate now).1) ∧
    (s.eventrate = r.eventrate ∨ ∃ now, s.eventrate = (r.eventRate now).1)

theorem merge_argument {r other r' other' : Rated} {k : MergeClocks} (h : r.merge other k = some (r', other')) :
    Asked other other' := by
  unfold Rated.merge at h
  split at h
  · cases h; exact ⟨rfl, Or.inl rfl, Or.inl rfl⟩
  split at h
  · cases h; exact ⟨rfl, Or.inl rfl, Or.inl rfl⟩
  cases hm : r.cs.merge other.cs with
  | none => rw [hm] at h; cases h
  | some cs =>
    rw [hm] at h
    have e := Option.some.inj h
    have e2 : other' = ((other.traceRate k.t₂).2.eventRate k.t₄).2 := by
      rw [show other' = (r', other').2 from rfl, ← e]
      rfl
    subst e2
    refine ⟨by rw [Rated.eventRate_cs, Rated.traceRate_cs], Or.inr ⟨k.t₂, ?_⟩, Or.inr ⟨k.t₄, ?_⟩⟩
    · rw [Rated.eventRate_trace, Rated.traceRate_kept]
    · rw [Rated.eventRate_kept]
      exact Rated.eventRate_congr (Rated.traceRate_cs _ _) (Rated.traceRate_event _ _) _

/-- Asking again: the same, or, if the value was zero, one more reading of the clock. -/
theorem Asked.trace {r s : Rated} (h : Asked r s) (now : Time) : ∃ now', (s.traceRate now).1 = (r.traceRate now').1 := by
  rcases h.2.1 with e | ⟨n, e⟩
  · exact ⟨now, Rated.traceRate_congr h.1 e now⟩
  · by_cases h0 : s.tracerate = 0
    · refine ⟨now, Rated.traceRate_congr h.1 ?_ now⟩
      rw [h0]
      have : (r.traceRate n).1 = 0 := by rw [← e, h0]
      unfold Rated.traceRate at this
      split at this
      · rename_i hne
        exact absurd this hne
      · rename_i hne
        exact (Classical.not_not.mp hne).symm
    · refine ⟨n, ?_⟩
      rw [← e]
      unfold Rated.traceRate
      rw [if_pos h0]

theorem Asked.event {r s : Rated} (h : Asked r s) (now : Time) : ∃ now', (s.eventRate now).1 = (r.eventRate now').1 := by
  rcases h.2.2 with e | ⟨n, e⟩
  · exact ⟨now, Rated.eventRate_congr h.1 e now⟩
  · by_cases h0 : s.eventrate = 0
    · refine ⟨now, Rated.eventRate_congr h.1 ?_ now⟩
      rw [h0]
      have : (r.eventRate n).1 = 0 := by rw [← e, h0]
      unfold Rated.eventRate at this
      split at this
      · rename_i hne
        exact absurd this hne
      · rename_i hne
        exact (Classical.not_not.mp hne).symm
    · refine ⟨n, ?_⟩
      rw [← e]
      unfold Rated.eventRate
      rw [if_pos h0]

/-! ## Specification -/

/-- The pair of rates `x` is what the category `before` reports when asked, and, where it is not zero, what
it (now `after`) will report from then on. -/
structure Reports (before after : Rated) (x : Rat × Rat) : Prop where
  trace : ∃ now, x.1 = (before.traceRate now).1
  event : ∃ now, x.2 = (before.eventRate now).1
  laterTrace : x.1 ≠ 0 → ∀ now, (after.traceRate now).1 = x.1
  laterEvent : x.2 ≠ 0 → ∀ now, (after.eventRate now).1 = x.2

/-- Categories before, categories after, and their rates. -/
inductive ReportsAll : List Rated → List Rated → List (Rat × Rat) → Prop
  | nil : ReportsAll [] [] []
  | cons {b a x bs as xs} : Reports b a x → ReportsAll bs as xs → ReportsAll (b :: bs) (a :: as) (x :: xs)

def total (l : List Rat) : Rat := l.foldr (· + ·) 0

theorem round_spec {s s' : OverallState} {sc : Rated} {c : Round} (h : s.round sc c = some s') :
    ∃ sc' x, s'.seen = s.seen ++ [sc'] ∧ Reports sc sc' x ∧ s'.tracerate = s.tracerate + x.1 ∧
      s'.eventrate = s.eventrate + x.2 := by
  unfold OverallState.round at h
  cases hm : s.overall.merge sc c.k with
  | none => rw [hm] at h; cases h
  | some p =>
    obtain ⟨o, q⟩ := p
    rw [hm] at h
    have hq := merge_argument hm
    have e := Option.some.inj h
    subst e
    refine ⟨((q.traceRate c.t₅).2.eventRate c.t₆).2, ((q.traceRate c.t₅).1, ((q.traceRate c.t₅).2.eventRate c.t₆).1),
      rfl, ⟨hq.trace _, ?_, fun hx now => ?_, fun hx now => ?_⟩, rfl, rfl⟩
    · rw [Rated.eventRate_congr (Rated.traceRate_cs _ _) (Rated.traceRate_event _ _)]
      exact hq.event _
    · have : ((q.traceRate c.t₅).2.eventRate c.t₆).2.tracerate = (q.traceRate c.t₅).1 := by
        rw [Rated.eventRate_trace, Rated.traceRate_kept]
      show (Rated.traceRate ((q.traceRate c.t₅).2.eventRate c.t₆).2 now).1 = _
      unfold Rated.traceRate at this ⊢
      rw [if_pos (by rw [this]; exact hx)]
      exact this
    · have : ((q.traceRate c.t₅).2.eventRate c.t₆).2.eventrate = ((q.traceRate c.t₅).2.eventRate c.t₆).1 :=
        Rated.eventRate_kept _ _
      show (Rated.eventRate ((q.traceRate c.t₅).2.eventRate c.t₆).2 now).1 = _
      rw [show ∀ z : Rated, (z.eventRate now).1 = if z.eventrate ≠ 0 then z.eventrate else z.cs.rate z.cs.eventCount now from
        fun z => by unfold Rated.eventRate; split <;> rfl]
      rw [if_pos (by rw [this]; exact hx)]
      exact this

theorem loop_spec (order : List (Rated × Round)) : ∀ {s s' : OverallState}, s.loop order = some s' →
    ∃ after xs, s'.seen = s.seen ++ after ∧ ReportsAll (order.map (·.1)) after xs ∧
      s'.tracerate = s.tracerate + total (xs.map (·.1)) ∧ s'.eventrate = s.eventrate + total (xs.map (·.2)) := by
  induction order with
  | nil =>
    intro s s' h
    cases h
    exact ⟨[], [], by simp, .nil, by simp [total, Rat.add_zero], by simp [total, Rat.add_zero]⟩
  | cons p rest ih =>
    obtain ⟨sc, c⟩ := p
    intro s s' h
    unfold OverallState.loop at h
    cases h1 : s.round sc c with
    | none => rw [h1] at h; cases h
    | some s1 =>
      rw [h1] at h
      obtain ⟨sc', x, e1, hr, e2, e3⟩ := round_spec h1
      obtain ⟨after, xs, f1, hr', f2, f3⟩ := ih h
      refine ⟨sc' :: after, x :: xs, by rw [f1, e1]; simp, .cons hr hr', ?_, ?_⟩
      · rw [f2, e2]; simp only [total, List.map_cons, List.foldr_cons]; rw [Rat.add_assoc]
      · rw [f3, e3]; simp only [total, List.map_cons, List.foldr_cons]; rw [Rat.add_assoc]

/-- What a rate is: never negative, zero if there is nothing to count or no time to count it over, and otherwise a count per
second. -/
def PerSecond (rate : Rat) (count : Int) (since now : Time) : Prop :=
  0 ≤ rate ∧ (rate = 0 → count ≤ 0 ∨ now.sub since ≤ 0 ∨ since.isZero = true) ∧
    (rate ≠ 0 → rate * ((now.sub since : Int) : Rat) = count * 1000000000)

theorem rate_perSecond (cs : CategoryStats) (total : Int) (now : Time) (hz : cs.newest.isZero = true → cs.oldest.isZero = true) :
    PerSecond (cs.rate total now) total cs.oldest now := by
  unfold CategoryStats.rate PerSecond
  simp only
  split
  · rename_i h
    refine ⟨by decide, fun _ => ?_, fun h' => absurd rfl h'⟩
    rcases h with h | h | h | h
    · exact .inl h
    · exact .inr (.inl h)
    · exact .inr (.inr (hz h))
    · exact .inr (.inr h)
  · rename_i h
    have h1 : 0 < total := Int.not_le.mp fun h' => h (.inl h')
    have h2 : 0 < now.sub cs.oldest := Int.not_le.mp fun h' => h (.inr (.inl h'))
    generalize now.sub cs.oldest = d at h2
    change Int at d
    have h1' : (0 : Rat) < (total : Rat) := by exact_mod_cast h1
    have h2' : (0 : Rat) < (d : Rat) := by exact_mod_cast h2
    have h3 : (0 : Rat) < (d : Rat) / 1000000000 := by
      rw [Rat.div_def]; exact Rat.mul_pos h2' (by decide +kernel)
    have h4 : perSecond total d * ((d : Rat) / 1000000000) = total := Rat.div_mul_cancel (by grind)
    have h5 : 0 < perSecond total d := by
      unfold perSecond; rw [Rat.div_def]; exact Rat.mul_pos h1' (Rat.inv_pos.mpr h3)
    refine ⟨by grind, fun h => by grind, fun _ => ?_⟩
    rw [Rat.div_def] at h4
    grind

/-- **C79** What a category reports if nothing was remembered: its count per second since its oldest trace. -/
theorem C79_rate (r : Rated) (now : Time) (hz : r.cs.newest.isZero = true → r.cs.oldest.isZero = true) :
    (r.tracerate = 0 → PerSecond (r.traceRate now).1 r.cs.totalCount r.cs.oldest now) ∧
    (r.eventrate = 0 → PerSecond (r.eventRate now).1 r.cs.eventCount r.cs.oldest now) := by
  constructor
  · intro h
    unfold Rated.traceRate
    rw [if_neg (by simpa using h)]
    exact rate_perSecond _ _ _ hz
  · intro h
    unfold Rated.eventRate
    rw [if_neg (by simpa using h)]
    exact rate_perSecond _ _ _ hz

/-- C79.  The rates that `Overall` reports are the sums of the rates that the categories report, then
and later; whatever the order of the map and the readings of the clock. -/
theorem C79_overall_partial (bucketing : List Duration) (order : List (Rated × Round)) (overall : Rated) (after : List Rated)
    (h : ratedOverall bucketing order = some (overall, after)) :
    ∃ rates, ReportsAll (order.map (·.1)) after rates ∧
      (total (rates.map (·.1)) ≠ 0 → ∀ now, (overall.traceRate now).1 = total (rates.map (·.1))) ∧
      (total (rates.map (·.2)) ≠ 0 → ∀ now, (overall.eventRate now).1 = total (rates.map (·.2))) := by
  unfold ratedOverall at h
  cases hl : ({ overall := ⟨newCategoryStats "overall" bucketing, 0, 0⟩ } : OverallState).loop order with
  | none => rw [hl] at h; cases h
  | some s =>
    rw [hl] at h
    obtain ⟨as, xs, e1, hr, e2, e3⟩ := loop_spec order hl
    have e := Option.some.inj h
    cases e
    simp only [List.nil_append, Rat.zero_add] at e1 e2 e3
    rw [← e1] at hr
    refine ⟨xs, hr, fun hn now => ?_, fun hn now => ?_⟩
    · rw [← e2] at hn ⊢
      unfold Rated.traceRate
      rw [if_pos hn]
    · rw [← e3] at hn ⊢
      unfold Rated.eventRate
      rw [if_pos hn]

/-- What merging a category gives instead: if neither side has been asked for its rate before, the
rate of all traces together *plus* the rate of their traces, which are so counted twice. -/
theorem C79_counted_twice_partial (ours theirs merged : Rated) (k : MergeClocks) (ho : ours.tracerate = 0) (ht : theirs.tracerate = 0)
    (hz : ours.cs.isZero = false) (hz' : theirs.cs.isZero = false) (h : mergeRated (some ours) theirs k = some merged) :
    ours.cs.merge theirs.cs = some merged.cs ∧
    merged.tracerate = merged.cs.rate merged.cs.totalCount k.t₁ + theirs.cs.rate theirs.cs.totalCount k.t₂ := by
  simp only [mergeRated, Rated.merge, hz, hz', Bool.false_eq_true, if_false] at h
  cases hm : ours.cs.merge theirs.cs with
  | none => rw [hm] at h; cases h
  | some cs =>
    rw [hm] at h
    have e := Option.some.inj h
    subst e
    refine ⟨?_, ?_⟩
    · simp [Rated.mergeRates, Rated.eventRate_cs, Rated.traceRate_cs]
    · simp [Rated.mergeRates, Rated.eventRate_cs, Rated.traceRate_cs, Rated.eventRate_trace]
      simp [Rated.traceRate, ho, ht]

/-! ## A witness -/

/-- A trace that started at `t` seconds. -/
def rateTrace (source : String) (t : Int) : Static :=
  { source, id := "1", category := "api", started := ⟨t * 1000000000, none⟩, duration := 5, finished := true
    errored := false, events := [] }

/-- The statistics of one source that has one trace. -/
def rateStats (source : String) (t : Int) : Option Rated :=
  ((newSearchStats [0]).observe (rateTrace source t)).bind fun ss => (ss.categories.find "api").map fun cs => { cs }

def rateNow : MergeClocks := let t := ⟨11000000000, none⟩; ⟨t, t, t, t⟩

/-- C79 fails for merged statistics, as `MultiSearcher` makes them: two sources with one trace each in a
category, both started a second ago, so both report one trace per second; merged, the category reports
three. -/
theorem C79_merged_violated : ∃ ours theirs merged,
    rateStats "a" 10 = some ours ∧ rateStats "b" 10 = some theirs ∧
    (ours.traceRate rateNow.t₁).1 = 1 ∧ (theirs.traceRate rateNow.t₁).1 = 1 ∧
    mergeRated (some ours) theirs rateNow = some merged ∧ merged.cs.totalCount = 2 ∧
    (merged.traceRate rateNow.t₁).1 = 3 := by
  refine ⟨⟨⟨"api", 0, 0, [1], 0, ⟨10000000000, none⟩, ⟨10000000000, none⟩⟩, 0, 0⟩,
    ⟨⟨"api", 0, 0, [1], 0, ⟨10000000000, none⟩, ⟨10000000000, none⟩⟩, 0, 0⟩,
    ⟨⟨"api", 0, 0, [2], 0, ⟨10000000000, none⟩, ⟨10000000000, none⟩⟩, 3, 0⟩, ?_⟩
  decide +kernel

/-- Half a trace per second: two traces in four seconds. -/
example : ∃ r : Rated, r.tracerate = 0 ∧ r.cs.newest.isZero = false ∧ r.cs.totalCount = 2 ∧
    (r.traceRate ⟨14000000000, none⟩).1 = 1 / 2 :=
  ⟨⟨⟨"api", 0, 0, [2], 0, ⟨10000000000, none⟩, ⟨12000000000, none⟩⟩, 0, 0⟩, by decide +kernel⟩

/-- `Overall` of two categories: one trace per second and two. -/
example : ∃ overall after, ratedOverall [0]
      [(⟨⟨"api", 0, 0, [1], 0, ⟨10000000000, none⟩, ⟨10000000000, none⟩⟩, 0, 0⟩, ⟨rateNow, rateNow.t₁, rateNow.t₁⟩),
       (⟨⟨"web", 0, 0, [2], 0, ⟨10000000000, none⟩, ⟨10000000000, none⟩⟩, 0, 0⟩, ⟨rateNow, rateNow.t₁, rateNow.t₁⟩)] =
      some (overall, after) ∧ (overall.traceRate rateNow.t₁).1 = 3 := by
  refine ⟨⟨⟨"overall", 0, 0, [3], 0, ⟨10000000000, none⟩, ⟨10000000000, none⟩⟩, 3, 0⟩,
    [⟨⟨"api", 0, 0, [1], 0, ⟨10000000000, none⟩, ⟨10000000000, none⟩⟩, 1, 0⟩,
     ⟨⟨"web", 0, 0, [2], 0, ⟨10000000000, none⟩, ⟨10000000000, none⟩⟩, 2, 0⟩], ?_⟩
  decide +kernel

end Trc
