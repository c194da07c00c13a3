import Verif.Wrap.Lemmas

/-!
# `NewStreamTrace` in steps

`NewStreamTrace` calls several methods of the trace, each under the trace's lock.  Here the calls of
other goroutines in between are explicit: `h₁` between the first `Finished` and the reading of the
events, `h₂` until `Duration`, `h₃` until the second `Finished`, `h₄` until `Errored`.
-/

set_option linter.unusedSectionVars false
set_option linter.unusedVariables false
set_option linter.unusedSimpArgs false

namespace Trc.Wrap

open Core Core.Spec

variable {W A : Type} [Sys W A] [Arg A] [Humanize]

/-- The events without stacks, trace_static.go:54-56 and 59-61. -/
def strip (ev : Event) : Event := { ev with stack := [] }

/-- The four cases of trace_static.go:46-63. -/
def readStream (t : CoreTrace A) (env : Env W) (canDetail isActive : Bool) : Option (List Event × CoreTrace A) :=
  if canDetail then t.eventsDetail env (if isActive then 1 else -1) false
  else do
    let (events, t') ← t.eventsDetail env (-1) true
    let events ← latestOf (!isActive) events
    return (events.map strip, t')

/-- `NewStreamTrace`, trace_static.go:40-76, with calls of others in between. -/
def newStreamTrace (canDetail : Bool) (t : CoreTrace A) (h₁ h₂ h₃ h₄ : Hist W A) (env : Env W) (now : Time) :
    Option (Static × CoreTrace A) := do
  let t₁ ← t.run h₁
  let (events, t₁') ← readStream t₁ env canDetail (!t.finished)
  let t₂ ← t₁'.run h₂
  let t₃ ← t₂.run h₃
  let t₄ ← t₃.run h₄
  return ({ source := t₂.source, id := t₂.id, category := t₂.category, started := t₂.start
            duration := t₂.durationAt now, finished := t₃.finished, errored := t₄.errored, events }, t₄)

/-- Without calls in between, it is the single action of `Verif/Wrap/Model.lean`. -/
theorem newStreamTrace_alone (canDetail : Bool) (b : Base) (x : Abs W A) (env : Env W) (now : Time) (evs : List Event)
    (t' : CoreTrace A) (h : streamEvents (x.conc b) env canDetail = some (evs, t')) :
    newStreamTrace canDetail (x.conc b) [] [] [] [] env now = some (staticOf (x.conc b) now evs, t') := by
  have h1 : readStream (x.conc b) env canDetail (!(x.conc b).finished) = some (evs, t') := by
    rw [← h]
    unfold readStream streamEvents
    cases (x.conc b).finished <;> rfl
  obtain ⟨n, s, hr⟩ := streamEvents_run h
  rw [run_conc] at hr
  obtain rfl := (Option.some.inj hr).symm
  simp only [newStreamTrace, CoreTrace.run, h1, bind, Option.bind_some, pure]
  rfl

end Trc.Wrap

namespace Trc.Wrap

open Core Core.Spec

variable {W A : Type} [Sys W A]

/-- `NewSearchTrace`, trace_static.go:24-35, with calls of others in between: `h₁` between `Duration` and
`Finished`, `h₂` until `Errored`, `h₃` until `Events`. -/
def newSearchTrace (t : CoreTrace A) (now : Time) (h₁ h₂ h₃ : Hist W A) (env : Env W) : Option Static := do
  let t₁ ← t.run h₁
  let t₂ ← t₁.run h₂
  let t₃ ← t₂.run h₃
  let events ← t₃.events' env
  return { source := t.source, id := t.id, category := t.category, started := t.start
           duration := t.durationAt now, finished := t₁.finished, errored := t₂.errored, events }

end Trc.Wrap
