import Verif.Props.PageCounts
import Verif.Props.Clock
import Verif.Props.Client
import Verif.Props.Stringer

/-! Further cases that meet the hypotheses of theorems proved elsewhere: C90, C124, C72, C41 and C14. -/

namespace Trc.Web
open Trc.StatsSpec

/-- C90: a request and traces of two categories as `C90_counts_partial` and `C90_counts_exact` ask for. -/
example :
    let req : SearchRequest := { bucketing := [0, 10], limit := 10 }
    let l := [sampleTrace "a" 1 true false 5, { sampleTrace "b" 2 true false 15 with category := "d" }, sampleTrace "d" 3 false false 5]
    req.bucketing.Pairwise (· ≤ ·) ∧ req.bucketing.head? = some 0 ∧ req.filter.query = "" ∧ req.filter.sources = [] ∧
      (∀ t ∈ l, t.finished = true → (0 : Int) ≤ t.duration) ∧ ∀ t ∈ l, t.category ≠ "" ∧ t.category ≠ "overall" := by
  refine ⟨by decide, rfl, rfl, rfl, by decide, by decide⟩

/-- C124: two events of one day, and two with midnight between them. -/
example :
    let at_ (w : Int) : RenderEvent := { index := 0, when_ := { wall := w, mono := none }, what := "" }
    let m := at_ (739000 * aDay + 45296123456789)
    let n := at_ (739000 * aDay + 45296123458789)
    let o := at_ (739001 * aDay + 5000)
    (m.when_.wall + 1000 ≤ n.when_.wall ∧ n.when_.wall + 1000 < m.when_.wall + aDay ∧ m.when_.wall / aDay = n.when_.wall / aDay) ∧
    (n.when_.wall + 1000 ≤ o.when_.wall ∧ o.when_.wall + 1000 < n.when_.wall + aDay ∧ n.when_.wall / aDay ≠ o.when_.wall / aDay) := by
  decide +kernel

/-- C72: a query of the URI that says nothing about the filter, and one that does. -/
example : NoFilter (bytesOf "k=v") ∧ ¬ NoFilter (bytesOf "category=x") := by
  unfold NoFilter; decide +kernel

/-- C41: statistics of traces are well-formed, so they can be merged in any order; here of two searches that share a
category. -/
example : ∃ s₁ s₂ : SearchStats, (newSearchStats [0]).observeAll [sampleTrace "a" 1 true false 5] = some s₁ ∧
    (newSearchStats [0]).observeAll [sampleTrace "b" 2 true false 5, sampleTrace "d" 3 false true 5] = some s₂ ∧
    s₁.WF 1 ∧ s₂.WF 1 ∧ s₁.has "c" = true ∧ s₂.has "c" = true := by
  obtain ⟨s₁, h1, h2⟩ := observeAll_spec (b := [0]) (by decide) [sampleTrace "a" 1 true false 5] (statsOf_new [0])
  obtain ⟨s₂, h3, h4⟩ := observeAll_spec (b := [0]) (by decide) [sampleTrace "b" 2 true false 5, sampleTrace "d" 3 false true 5]
    (statsOf_new [0])
  refine ⟨s₁, s₂, h1, h3, h2.wf, h4.wf, ?_, ?_⟩
  · cases h1; rfl
  · cases h3; rfl

end Trc.Web

namespace Trc.StringerConc
open Trc.Core

/-- C14: a history with a lazily logged event, none read, and room for both events. -/
example : let e : Env (Nat → Nat) := ⟨⟨1, none⟩, fun _ => 1⟩
    let h : Hist (Nat → Nat) Nat := [(e, .log .tracef "a" [0] []), (e, .log .lazyTracef "b" [0] [])]
    ((Spec.logged h).length : Int) ≤ (Globals.after []).traceMaxEvents ∧
    (∀ m ∈ Spec.limitsSet (Spec.active h), ((Spec.logged h).length : Int) ≤ m) ∧ (∀ p ∈ h, ∀ n s, p.2 ≠ .read n s) ∧
    ((Spec.logged h).map fun l => Spec.isLazy l.kind) = [false, true] := by
  refine ⟨by decide, (by intro m hm; cases hm), ?_, rfl⟩
  intro p hp n s hc
  simp only [List.mem_cons, List.not_mem_nil, or_false] at hp
  rcases hp with rfl | rfl <;> cases hc

end Trc.StringerConc
