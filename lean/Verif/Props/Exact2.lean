import Verif.Props.Age
import Verif.Props.Highlight

/-!
# When the age of a trace and the highlights of the summary are right: C102, C106
-/

set_option linter.unusedVariables false

namespace Trc.Web.Age

/-- **C106** exactly: the age of a trace is shown rightly at all times, rounded down to the last unit shown, if and only if the
trace started at a whole second. -/
theorem C106_exact (started : Int) :
    (∀ now, 0 ≤ age started now → ∃ r u, readAge (shown started now) = some (r, u) ∧
      r * 1000000 ≤ age started now ∧ age started now < (r + u) * 1000000) ↔ started % 1000000000 = 0 := by
  unfold age shown
  constructor
  · intro h
    refine Decidable.byContradiction fun hne => ?_
    obtain ⟨r, u, e, h1, h2⟩ := h ((started + 999999) / 1000000) (by omega)
    have hp : 0 < (started + 999999) / 1000000 - parsedTitle started := by unfold parsedTitle; omega
    have hl : (started + 999999) / 1000000 - parsedTitle started ≤ 1000 := by unfold parsedTitle; omega
    obtain ⟨r', u', e', g1, g2, g3, g4, g5⟩ := timeSince_reads _ _ hp
    rw [e] at e'
    simp only [Option.some.injEq, Prod.mk.injEq] at e'
    obtain ⟨rfl, rfl⟩ := e'
    generalize (started + 999999) / 1000000 - parsedTitle started = ms at *
    rw [if_neg (by omega), if_neg (by omega)] at g5
    split at g5 <;> (subst g5; omega)
  · intro h now hn
    by_cases hp : 0 < now - parsedTitle started
    · obtain ⟨r, u, e, g1, g2, g3, g4, g5⟩ := timeSince_reads _ _ hp
      refine ⟨r, u, e, ?_, ?_⟩ <;> unfold parsedTitle at * <;> omega
    · rw [timeSince_fresh _ _ (by omega)]
      refine ⟨0, 1, rfl, ?_, ?_⟩ <;> unfold parsedTitle at * <;> omega

/-- **C106** is violated by every trace that did not start at a whole second: there is a moment, less than a millisecond after its
start, at which it is shown as at least a millisecond old. -/
theorem C106_second_always_violated (started : Int) (h : started % 1000000000 ≠ 0) :
    ∃ now r u, 0 ≤ age started now ∧ age started now < 1000000 ∧ readAge (shown started now) = some (r, u) ∧ 1 ≤ r := by
  unfold age shown
  have hp : 0 < (started + 999999) / 1000000 - parsedTitle started := by unfold parsedTitle; omega
  obtain ⟨r, u, e, g1, g2, g3, g4, g5⟩ := timeSince_reads _ _ hp
  refine ⟨(started + 999999) / 1000000, r, u, by omega, by omega, e, ?_⟩
  have hl : (started + 999999) / 1000000 - parsedTitle started ≤ 1000 := by unfold parsedTitle; omega
  generalize (started + 999999) / 1000000 - parsedTitle started = ms at *
  rw [if_neg (by omega), if_neg (by omega)] at g5
  split at g5 <;> (subst g5; omega)

example : (1700000000000000000 : Int) % 1000000000 = 0 ∧ (1700000000999000000 : Int) % 1000000000 ≠ 0 := by decide

end Trc.Web.Age

namespace Trc.Web

/-- **C102** exactly: on a page of traces of a minimum duration that is not negative, for which the summary has a cell, the right
cells are highlighted if and only if the duration is written without a point. -/
theorem C102_exact {sha : String → List Char} (h : Hex sha) (f : Filter) (hids : f.ids = []) (d : Duration)
    (hd : f.minDuration = some d) (h64 : Is64 d) (h0 : 0 ≤ d)
    (hcell : ∃ p : Place, p.fits ∧ p.distinct sha f.category ∧ p.Asked f) :
    (∀ p : Place, p.fits → p.distinct sha f.category → (cellHighlighted sha f p = true ↔ p.Asked f)) ↔
      '.' ∉ durationString d := by
  constructor
  · intro hall hdot
    obtain ⟨p, h1, h2, h3⟩ := hcell
    have := (hall p h1 h2).mpr h3
    rw [C102_fraction_violated h f hids d hd h0 hdot p] at this
    cases this
  · intro hdot p h1 h2
    refine C102_highlight_partial h f hids ?_ (fun d' hd' => ?_) p h1 h2
    · simp [Filter.shownInSummary, hd]
    · rw [hd] at hd'
      injection hd' with e
      subst e
      exact ⟨h64, h0, hdot⟩

/-- Two pages to which it applies: of traces of at least 1.5s, where nothing is highlighted, and of at least a minute. -/
example : ∀ d ∈ [(1500000000 : Duration), 60000000000], Is64 d ∧ 0 ≤ d ∧ (Place.header (.bucket d)).fits ∧
    (Place.header (.bucket d)).Asked { minDuration := some d } := by
  intro d hd
  have h : Is64 d ∧ 0 ≤ d := by
    simp only [List.mem_cons, List.not_mem_nil, or_false] at hd
    rcases hd with rfl | rfl <;> unfold Is64 <;> decide
  exact ⟨h.1, h.2, h.1, by simp [Place.Asked, Place.column]⟩

end Trc.Web
