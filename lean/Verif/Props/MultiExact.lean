import Verif.Props.Shown

/-!
# C47, exactly: when a search over collectors returns
-/

set_option linter.unusedVariables false

namespace Trc

open Web

/-- **C47**, exactly: a search over any number of collectors, with any contents, together with searchers that fail, if none of
them gets to the request before the statistics are set up, returns a response just if no bucket is negative or every
searcher fails. -/
theorem C47_collectors_exact {α : Type} [Inhabited α] (compile : Compile) (srt : List Static → List Static)
    (req : SearchRequest) (hf : req.filter.Fresh compile) (n₂ : Nat)
    (ts : List Arrival) (req' : SearchRequest) (problems : List String)
    (hn : req.normalize compile = some (req', problems))
    (hts : ∀ t ∈ ts, t.res = none ∨ ∃ source view res, ∃ rings : List (Ring.RB α), ∃ contents, Buffers rings contents ∧
      search compile srt source req' view rings = some res ∧ t.res = some res.toResponse ∧
      t.order.Perm res.stats.categories) :
    (∃ r, multiSearch compile srt req 0 n₂ ts = some r) ↔ (∀ d ∈ req.bucketing, 0 ≤ d) ∨ ∀ t ∈ ts, t.res = none := by
  constructor
  · rintro ⟨r, hr⟩
    by_cases h0 : ∀ d ∈ req.bucketing, 0 ≤ d
    · exact .inl h0
    refine .inr ?_
    intro t ht
    rcases hts t ht with hnone | ⟨source, view, res, rings, contents, hb, hs, hres, hord⟩
    · exact hnone
    exfalso
    have hneg : ∃ d ∈ req.bucketing, d < 0 := by
      apply Classical.byContradiction
      intro hno
      apply h0
      intro d hd
      by_cases h : (0 : Int) ≤ d
      · exact h
      · exact absurd ⟨d, hd, Int.not_le.mp h⟩ hno
    obtain ⟨req₁, p₁, m1, l1, g1, f1⟩ := normalize_negative hneg hf
    rw [hn] at m1
    obtain ⟨rfl, _⟩ := Prod.mk.inj (Option.some.inj m1)
    obtain ⟨req₂, p₂, m2, l2, g2, f2⟩ := normalize_negative g1 f1
    obtain ⟨req₃, p₃, res', s1, s2, _, _, _, _, _, _, _, _, s11, _⟩ :=
      search_spec compile srt source req' f1 view rings contents hb.walk hb.rep
    rw [m2] at s1
    obtain ⟨rfl, _⟩ := Prod.mk.inj (Option.some.inj s1)
    rw [hs] at s2
    cases s2
    have hbk : res.stats.bucketing.length = req₂.bucketing.length := by
      obtain ⟨ss, o1, o2⟩ := observeAll_wf (contents.flatten.map (view · .observe)) (statsOf_new req₂.bucketing).wf
      rw [s11] at o1
      cases o1
      exact o2.len
    have hmem : (res.stats, t.order) ∈ arrivedStats ts := by
      refine List.mem_filterMap.mpr ⟨t, ht, ?_⟩
      rw [hres]; rfl
    have hnone : mergeAll (newSearchStats req'.bucketing) (arrivedStats ts) = none := by
      have e' : (newSearchStats req'.bucketing).bucketing.length = req'.bucketing.length := rfl
      refine mergeAll_none (p := (res.stats, t.order)) ?_ _ _ ?_ ?_ hmem
      · exact decide_eq_false (by simp only [hbk]; omega)
      · exact decide_eq_false (by simp only [e']; omega)
      · simp only [hbk, e']; omega
    unfold multiSearch at hr
    rw [hn] at hr
    simp only [bind, Option.bind_some, SearchRequest.normalizeAgain, gather_eq, hnone, Option.map_none, Option.bind_none] at hr
    cases hr
  · rintro (h0 | hnone)
    · exact C47_collectors compile srt req hf h0 0 n₂ ts req' problems hn hts
    · have hst : arrivedStats ts = [] := by
        rw [arrivedStats, List.filterMap_eq_nil_iff]
        intro t ht
        simp [hnone t ht]
      have hag : ∀ n (q : SearchRequest), ∃ q', q.normalizeAgain compile n = some q' := by
        intro n
        induction n with
        | zero => exact fun q => ⟨q, rfl⟩
        | succ n ih =>
          intro q
          obtain ⟨q', e⟩ := normalize_total compile q
          obtain ⟨q'', e'⟩ := ih q'
          exact ⟨q'', by unfold SearchRequest.normalizeAgain; rw [e]; exact e'⟩
      obtain ⟨q', e⟩ := hag n₂ req'
      unfold multiSearch
      rw [hn]
      have e0 : req'.normalizeAgain compile 0 = some req' := rfl
      simp only [bind, Option.bind_some, e0, gather_eq, hst, mergeAll, Option.map_some, e]
      exact ⟨_, rfl⟩

/-- Two empty collectors and a searcher that fails: with a negative bucket, and without. -/
example :
    let compile : Compile := fun _ => .error ""
    let with_ (b : List Duration) : Option (Option Response) := do
      let (req', _) ← ({ bucketing := b } : SearchRequest).normalize compile
      let res ← search compile sortNewest "s" req' still []
      return multiSearch compile sortNewest { bucketing := b } 0 1
        [{ id := "1", res := some res.toResponse }, { id := "2", err := some "down" }, { id := "3", res := some res.toResponse }]
    (with_ [-5, 10]).map (·.isSome) = some false ∧ (with_ [5, 10]).map (·.isSome) = some true := by
  exact ⟨rfl, rfl⟩

end Trc
