import Verif.Props.Publish

/-!
# C159: a stream and a search tell the same about a finished trace
-/

set_option linter.unusedVariables false
set_option linter.unusedSectionVars false

namespace Trc.Wrap

open Core Core.Spec Fmt

variable {W A : Type} [Arg A] [Sys W A]

/-- The events that are read first and those that are read later: the same, but for the time of a truncation notice. -/
def SameEvents (first later : List Event) : Prop :=
  later = first ∨ ∃ evs now now' n, first = evs ++ [truncatedNotice now n] ∧ later = evs ++ [truncatedNotice now' n]

/-- What was read of the stored events of a finished trace stays. -/
theorem texts_after_finish {a : Abs W A} {t : Time} (h : a.fin = some t) (hist : Hist W A)
    (hread : ∀ s ∈ a.stored, s.firstRead.isSome) :
    (a.run hist).stored.map (fun s => (s.entry, s.firstRead)) = a.stored.map (fun s => (s.entry, s.firstRead)) := by
  induction hist generalizing a with
  | nil => rfl
  | cons p hist ih =>
    obtain ⟨env, c⟩ := p
    have hst : (a.step env c).stored.map (fun s => (s.entry, s.firstRead)) = a.stored.map (fun s => (s.entry, s.firstRead)) := by
      cases c with
      | log => simp [Abs.step, Abs.log, h]
      | finish => simp [Abs.step, h]
      | setMaxEvents => rfl
      | read n stacks =>
        simp only [Abs.step]
        generalize a.stored.length - window a.stored.length n = k
        conv => rhs; rw [← List.take_append_drop k a.stored]
        rw [List.map_append, List.map_append, List.map_map]
        congr 1
        apply List.map_congr_left
        intro s hs
        have := hread s (List.mem_of_mem_drop hs)
        obtain ⟨e, fr, sr⟩ := s
        cases fr with
        | none => simp at this
        | some w => simp [Stored.mark]
    simp only [Abs.run]
    rw [ih (step_fin h env c).1, hst]
    intro s hs
    have : (s.entry, s.firstRead) ∈ a.stored.map (fun s => (s.entry, s.firstRead)) := by
      rw [← hst]; exact List.mem_map.mpr ⟨s, hs, rfl⟩
    obtain ⟨s', hs', e⟩ := List.mem_map.mp this
    have := hread s' hs'
    rw [(Prod.mk.inj e).2] at this
    exact this

theorem read_twice {b : Base} {x : Abs W A} (hf : x.fin.isSome = true) (env env' : Env W) (stacks : Bool) (hist : Hist W A) :
    (x.trunc = 0 → ((x.step env (.read (-1) stacks)).run hist).read b env' (-1) true = x.read b env (-1) true) ∧
    SameEvents (x.read b env (-1) true) (((x.step env (.read (-1) stacks)).run hist).read b env' (-1) true) := by
  obtain ⟨t, hf⟩ := Option.isSome_iff_exists.mp hf
  generalize ha₁ : x.step env (.read (-1) stacks) = a₁
  have hs₁ : a₁.stored = x.stored.map (fun s => s.mark env.w stacks) := by
    rw [← ha₁]; simp [Abs.step, window]
  have hf₁ : a₁.fin = some t := by rw [← ha₁]; exact (step_fin hf _ _).1
  have ht₁ : a₁.trunc = x.trunc := by rw [← ha₁]; exact (step_fin hf _ _).2.2.1
  have hst : (a₁.run hist).stored.map (fun s => (s.entry, s.firstRead)) = a₁.stored.map (fun s => (s.entry, s.firstRead)) := by
    apply texts_after_finish hf₁
    intro s hs
    rw [hs₁] at hs
    simp only [List.mem_map] at hs
    obtain ⟨s', _, rfl⟩ := hs
    simp [Stored.mark]
  have htr : (a₁.run hist).trunc = x.trunc := (run_fin hf₁ hist).2.2.1.trans ht₁
  have hev : (a₁.run hist).stored.map (fun s => s.event b env'.w true) = x.stored.map (fun s => s.event b env.w true) := by
    have e : ∀ (l : List (Stored W A)) (w : W), l.map (fun s => s.event b w true) =
        (l.map (fun s => (s.entry, s.firstRead))).map fun p => Stored.event b ⟨p.1, p.2, true⟩ w true := by
      intro l w
      rw [List.map_map]
      rfl
    rw [e, hst, ← e, hs₁, List.map_map]
    apply List.map_congr_left
    intro s _
    simp only [Function.comp, Stored.event, Stored.mark, Stored.text]
    cases s.firstRead <;> rfl
  have hemp : (a₁.run hist).stored.isEmpty = x.stored.isEmpty := by
    have := congrArg List.length hst
    rw [hs₁] at this
    simp only [List.length_map] at this
    cases h1 : (a₁.run hist).stored <;> cases h2 : x.stored <;> simp_all
  rw [read_all, read_all, htr, hev, hemp]
  refine ⟨fun h => by simp [h], ?_⟩
  by_cases ht : x.trunc > 0
  · simp only [ht, if_true]
    cases hx : x.stored with
    | nil => exact Or.inl rfl
    | cons y ys => exact Or.inr ⟨_, _, _, _, rfl, rfl⟩
  · simp only [ht, if_false]
    exact Or.inl rfl

theorem SameEvents.stripped {first later : List Event} (h : SameEvents first later) :
    SameEvents (first.map strip) (later.map strip) := by
  rcases h with rfl | ⟨evs, now, now', n, rfl, rfl⟩
  · exact Or.inl rfl
  · exact Or.inr ⟨evs.map strip, now, now', n, by simp [strip, truncatedNotice], by simp [strip, truncatedNotice]⟩

/-- **C159.** A trace that is finished (after the calls `h`) is published, and later found by a search, with any calls of others in
between and meanwhile. The message and the search result are the same, apart from the stacks, which messages do not have, and
from the time of the notice at the end of a truncated trace, which is the time of the reading. -/
theorem C159_stream_first (settings : List Setting) (start : Time) (id source category : String) (old : CoreTrace A)
    (h h₁ h₂ h₃ h₄ between g₁ g₂ g₃ : Hist W A) (canDetail : Bool) (env env' : Env W) (now now' : Time) (t t' t'' : CoreTrace A)
    (message found : Static)
    (hr : (fresh settings start id source category old).run h = some t) (hf : t.finished = true)
    (hs : newStreamTrace canDetail t h₁ h₂ h₃ h₄ env now = some (message, t'))
    (hb : t'.run between = some t'') (hn : newSearchTrace t'' now' g₁ g₂ g₃ env' = some found) :
    { found with events := message.events } = message ∧
      SameEvents message.events (found.events.map fun ev => { ev with stack := [] }) ∧
      (t.truncated = 0 → { found with events := found.events.map fun ev => { ev with stack := [] } } = message) := by
  rw [fresh_run] at hr
  obtain rfl := (Option.some.inj hr).symm
  generalize freshBase settings start id source category = b at *
  generalize (Abs.new (Globals.after settings).traceMaxEvents : Abs W A).run h = x at *
  obtain ⟨f, hx⟩ := Option.isSome_iff_exists.mp (show x.fin.isSome = true from hf)
  simp only [newStreamTrace, run_conc, bind, Option.bind_some] at hs
  obtain ⟨i1, i2, i3, -⟩ := run_fin hx h₁
  generalize hx₁ : x.run h₁ = x₁ at *
  have hread : ∃ stacks, readStream (x₁.conc b) env canDetail (!(x.conc b).finished) =
      some ((x₁.read b env (-1) true).map strip, (x₁.step env (.read (-1) stacks)).conc b) := by
    rw [hf]
    unfold readStream
    cases canDetail with
    | true => exact ⟨false, by rw [← read_strip]; simp [detail_conc]⟩
    | false => exact ⟨true, by simp [detail_conc, latestOf]⟩
  obtain ⟨stacks, hread⟩ := hread
  simp only [hread, Option.bind_some, run_conc, pure, Option.some.injEq, Prod.mk.injEq] at hs
  obtain ⟨rfl, rfl⟩ := hs
  rw [run_conc] at hb
  obtain rfl := Option.some.inj hb
  simp only [newSearchTrace, run_conc, bind, Option.bind_some, events'_conc, pure, Option.some.injEq] at hn
  subst hn
  have hy := step_fin i1 env (.read (-1) stacks)
  obtain ⟨r1, r2⟩ := read_twice (b := b) (x := x₁) (by rw [i1]; rfl) env env' stacks (h₂ ++ h₃ ++ h₄ ++ between ++ g₁ ++ g₂ ++ g₃)
  simp only [run_append] at r1 r2
  generalize x₁.step env (.read (-1) stacks) = y at *
  have k2 := run_fin hy.1 h₂
  have k3 := run_fin k2.1 h₃
  have k4 := run_fin k3.1 h₄
  have k5 := run_fin k4.1 between
  have k6 := run_fin k5.1 g₁
  have k7 := run_fin k6.1 g₂
  have hmeta : ∀ evs, ({ source := (((((y.run h₂).run h₃).run h₄).run between).conc b).source, id := (((((y.run h₂).run h₃).run h₄).run between).conc b).id, category := (((((y.run h₂).run h₃).run h₄).run between).conc b).category, started := (((((y.run h₂).run h₃).run h₄).run between).conc b).start, duration := (((((y.run h₂).run h₃).run h₄).run between).conc b).durationAt now', finished := ((((((y.run h₂).run h₃).run h₄).run between).run g₁).conc b).finished, errored := (((((((y.run h₂).run h₃).run h₄).run between).run g₁).run g₂).conc b).errored, events := evs } : Static) =
      { source := ((y.run h₂).conc b).source, id := ((y.run h₂).conc b).id, category := ((y.run h₂).conc b).category, started := ((y.run h₂).conc b).start, duration := ((y.run h₂).conc b).durationAt now, finished := (((y.run h₂).run h₃).conc b).finished, errored := ((((y.run h₂).run h₃).run h₄).conc b).errored, events := evs } := by
    intro evs
    simp only [CoreTrace.durationAt, Abs.conc, k2.1, k3.1, k5.1, k6.1, k7.2.1, k6.2.1, k5.2.1]
    simp
  refine ⟨hmeta _, r2.stripped, fun h0 => ?_⟩
  have h0 : x.trunc = 0 := by
    have : (x.trunc : Int) = 0 := h0
    omega
  rw [r1 (by rw [i3, h0])]
  exact hmeta _

/-- The same if the search comes first: it reads the events (the call at the end of `g₁ ++ g₂ ++ g₃ ++ [..]`), others go on, and the
trace is published, as it is again when something is logged to a finished trace. -/
theorem C159_search_first (settings : List Setting) (start : Time) (id source category : String) (old : CoreTrace A)
    (h h₁ h₂ h₃ h₄ between g₁ g₂ g₃ : Hist W A) (canDetail : Bool) (env env' : Env W) (now now' : Time) (t t' t'' : CoreTrace A)
    (found message : Static)
    (hr : (fresh settings start id source category old).run h = some t) (hf : t.finished = true)
    (hn : newSearchTrace t now g₁ g₂ g₃ env = some found)
    (hb : t.run (g₁ ++ g₂ ++ g₃ ++ [(env, .read (-1) true)] ++ between) = some t')
    (hs : newStreamTrace canDetail t' h₁ h₂ h₃ h₄ env' now' = some (message, t'')) :
    { found with events := message.events } = message ∧
      SameEvents (found.events.map fun ev => { ev with stack := [] }) message.events ∧
      (t.truncated = 0 → { found with events := found.events.map fun ev => { ev with stack := [] } } = message) := by
  rw [fresh_run] at hr
  obtain rfl := (Option.some.inj hr).symm
  generalize freshBase settings start id source category = b at *
  generalize (Abs.new (Globals.after settings).traceMaxEvents : Abs W A).run h = x at *
  obtain ⟨f, hx⟩ := Option.isSome_iff_exists.mp (show x.fin.isSome = true from hf)
  simp only [newSearchTrace, run_conc, bind, Option.bind_some, events'_conc, pure, Option.some.injEq] at hn
  subst hn
  rw [run_conc] at hb
  obtain rfl := Option.some.inj hb
  have k1 := run_fin hx g₁
  have k2 := run_fin k1.1 g₂
  have k3 := run_fin k2.1 g₃
  have hy := step_fin k3.1 env (.read (-1) true)
  obtain ⟨r1, r2⟩ := read_twice (b := b) (x := ((x.run g₁).run g₂).run g₃) (by rw [k3.1]; rfl) env env' true (between ++ h₁)
  have e : x.run (g₁ ++ g₂ ++ g₃ ++ [(env, .read (-1) true)] ++ between) =
      ((((x.run g₁).run g₂).run g₃).step env (.read (-1) true)).run between := by
    simp only [run_append]
    rfl
  rw [e] at hs
  simp only [run_append] at r1 r2
  generalize hz : (((x.run g₁).run g₂).run g₃).step env (.read (-1) true) = z at *
  have k4 := run_fin hy.1 between
  have k5 := run_fin k4.1 h₁
  have hfz : ((z.run between).conc b).finished = true := by
    show (z.run between).fin.isSome = true
    rw [k4.1]; rfl
  simp only [newStreamTrace, run_conc, bind, Option.bind_some, hfz] at hs
  have hread : ∃ stacks, readStream (((z.run between).run h₁).conc b) env' canDetail (!true) =
      some ((((z.run between).run h₁).read b env' (-1) true).map strip, (((z.run between).run h₁).step env' (.read (-1) stacks)).conc b) := by
    unfold readStream
    cases canDetail with
    | true => exact ⟨false, by rw [← read_strip]; simp [detail_conc]⟩
    | false => exact ⟨true, by simp [detail_conc, latestOf]⟩
  obtain ⟨stacks, hread⟩ := hread
  simp only [hread, Option.bind_some, run_conc, pure, Option.some.injEq, Prod.mk.injEq] at hs
  obtain ⟨rfl, rfl⟩ := hs
  have hw := step_fin k5.1 env' (.read (-1) stacks)
  generalize ((z.run between).run h₁).step env' (.read (-1) stacks) = y at *
  have j2 := run_fin hw.1 h₂
  have j3 := run_fin j2.1 h₃
  have j4 := run_fin j3.1 h₄
  have hmeta : ∀ evs, ({ source := (x.conc b).source, id := (x.conc b).id, category := (x.conc b).category, started := (x.conc b).start, duration := (x.conc b).durationAt now, finished := ((x.run g₁).conc b).finished, errored := (((x.run g₁).run g₂).conc b).errored, events := evs } : Static) =
      { source := ((y.run h₂).conc b).source, id := ((y.run h₂).conc b).id, category := ((y.run h₂).conc b).category, started := ((y.run h₂).conc b).start, duration := ((y.run h₂).conc b).durationAt now', finished := (((y.run h₂).run h₃).conc b).finished, errored := ((((y.run h₂).run h₃).run h₄).conc b).errored, events := evs } := by
    intro evs
    simp only [CoreTrace.durationAt, Abs.conc, hx, k1.1, k2.2.1, k1.2.1, j2.1, j3.1, j4.2.1, j3.2.1, j2.2.1, hw.2.1, k5.2.1, k4.2.1, hy.2.1,
      k3.2.1]
    simp
  refine ⟨hmeta _, r2.stripped, fun h0 => ?_⟩
  have h0 : x.trunc = 0 := by
    have : (x.trunc : Int) = 0 := h0
    omega
  rw [r1 (by rw [k3.2.2.1, k2.2.2.1, k1.2.2.1, h0])]
  exact hmeta _

end Trc.Wrap

namespace Trc.Wrap.Witness

open Core Core.Spec Fmt

/-- A finished trace with two events, of which one is lazy. -/
def finished₂ : CoreTrace String :=
  (((fresh [] ⟨1, none⟩ "id" "s" "c" zeroTrace : CoreTrace String).tracef (env 2).toEnv "a" [] []).lazyErrorf (env 3).toEnv "b %s" ["x"] []).finish
    (env 4).toEnv.now

/-- A finished trace is published, something is logged to it, and it is found. -/
example : ∃ message t' t'' found,
    (fresh [] ⟨1, none⟩ "id" "s" "c" zeroTrace).run [((env 2).toEnv, .log .tracef "a" [] []), ((env 3).toEnv, .log .lazyErrorf "b %s" ["x"] []),
      ((env 4).toEnv, .finish)] = some finished₂ ∧ finished₂.finished = true ∧ finished₂.truncated = 0 ∧
    newStreamTrace true finished₂ [] [] [] [] (env 5).toEnv ⟨5, none⟩ = some (message, t') ∧
    t'.run [((env 6).toEnv, .log .errorf "c" [] [])] = some t'' ∧ newSearchTrace t'' ⟨9, none⟩ [] [] [] (env 9).toEnv = some found ∧
    message.events.map (·.what) = ["a", "b x"] ∧ found.events.map (·.what) = ["a", "b x"] ∧ found.duration = 3 ∧ message.duration = 3 :=
  ⟨_, _, _, _, rfl, rfl, rfl, rfl, rfl, rfl, rfl, rfl, rfl, rfl⟩

/-- It is found, and published again when something is logged to it. -/
example : ∃ found t' message t'',
    newSearchTrace finished₂ ⟨5, none⟩ [] [((env 5).toEnv, .read 1 false)] [] (env 5).toEnv = some found ∧
    finished₂.run ([] ++ [((env 5).toEnv, .read 1 false)] ++ [] ++ [((env 5).toEnv, .read (-1) true)] ++ [((env 6).toEnv, .log .errorf "c" [] [])]) = some t' ∧
    newStreamTrace false t' [] [] [] [] (env 7).toEnv ⟨7, none⟩ = some (message, t'') ∧
    message.events.map (·.what) = ["a", "b x"] ∧ found.events.map (·.what) = ["a", "b x"] ∧ found.errored = true ∧ message.errored = true :=
  ⟨_, _, _, _, rfl, rfl, rfl, rfl, rfl, rfl, rfl⟩

end Trc.Wrap.Witness
