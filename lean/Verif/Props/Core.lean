import Verif.Core.Lemmas

/-!
# Properties C09–C13, C15–C18: a core trace

`fresh` is `newCoreTrace` on an arbitrary pooled object, after arbitrary calls of the
global setters.  `run` is `none` if any call panics.
-/

set_option linter.unusedSectionVars false
set_option linter.unusedVariables false
set_option linter.unusedSimpArgs false

namespace Trc.Core

open Spec

variable {W A : Type} [Sys W A]

/-- A trace as `newCoreTrace` returns it. -/
def fresh (settings : List Setting) (start : Time) (id source category : String) (old : CoreTrace A) :
    CoreTrace A :=
  newCoreTrace (Globals.after settings) start id source category old

theorem clamp_eq (n : Int) : clamp n = clamped n := by
  unfold clamp clamped; split
  · omega
  · split <;> omega

theorem setTraceMaxEvents_eq (g : Globals) (n : Int) :
    (g.setTraceMaxEvents n).traceMaxEvents = clamped n := by
  simp only [Globals.setTraceMaxEvents, traceMaxEventsMin, traceMaxEventsMax, clamped]
  by_cases h1 : n < 10
  · simp [h1]; omega
  · by_cases h2 : n > 10000
    · simp [h1, h2]; omega
    · simp [h1, h2]; omega

theorem globals_range (settings : List Setting) :
    10 ≤ (Globals.after settings).traceMaxEvents ∧ (Globals.after settings).traceMaxEvents ≤ 10000 := by
  unfold Globals.after
  suffices H : ∀ g : Globals, 10 ≤ g.traceMaxEvents ∧ g.traceMaxEvents ≤ 10000 →
      let g' := settings.foldl Globals.apply g
      10 ≤ g'.traceMaxEvents ∧ g'.traceMaxEvents ≤ 10000 from
    H {} (by decide)
  induction settings with
  | nil => intro g h; exact h
  | cons s settings ih =>
    intro g h
    apply ih
    cases s with
    | maxEvents n =>
      rw [Globals.apply, setTraceMaxEvents_eq]; unfold clamped
      omega
    | stacks b => exact h

/-- Base data of a fresh trace. -/
def freshBase (settings : List Setting) (start : Time) (id source category : String) : Base :=
  { source, id, category, start, nostack := (Globals.after settings).traceNoStacks }

theorem fresh_conc (settings : List Setting) (start : Time) (id source category : String)
    (old : CoreTrace A) :
    fresh settings start id source category old =
      (Abs.new (W := W) (Globals.after settings).traceMaxEvents).conc
        (freshBase settings start id source category) :=
  new_conc (W := W) _ _ _ _ _ _

theorem fresh_run (settings : List Setting) (start : Time) (id source category : String)
    (old : CoreTrace A) (h : Hist W A) :
    (fresh settings start id source category old).run h =
      some (((Abs.new (Globals.after settings).traceMaxEvents).run h).conc
        (freshBase settings start id source category)) := by
  rw [fresh_conc (W := W), run_conc]

theorem events'_conc (b : Base) (a : Abs W A) (env : Env W) :
    (a.conc b).events' env = some (a.read b env (-1) true) := by
  have := step_conc b a env (.read (-1) true)
  simp only [CoreTrace.step, Abs.out] at this
  unfold CoreTrace.events'
  cases hx : (a.conc b).eventsDetail env (-1) true with
  | none => rw [hx] at this; simp at this
  | some p => rw [hx] at this; simp at this; simp [this.2]

theorem detail_conc (b : Base) (a : Abs W A) (env : Env W) (n : Int) (stacks : Bool) :
    (a.conc b).eventsDetail env n stacks =
      some (a.read b env n stacks, (a.step env (.read n stacks)).conc b) := by
  have := step_conc b a env (.read n stacks)
  simp only [CoreTrace.step, Abs.out] at this
  cases hx : (a.conc b).eventsDetail env n stacks with
  | none => rw [hx] at this; simp at this
  | some p =>
    rw [hx] at this; simp only [Option.map_some, Option.some.injEq, Prod.mk.injEq] at this
    rw [← this.1, ← this.2]

theorem read_all (b : Base) (a : Abs W A) (env : Env W) (stacks : Bool) :
    a.read b env (-1) stacks =
      if a.trunc > 0 then
        ((a.stored.map (fun s => s.event b env.w stacks)).drop 1) ++
          (if a.stored.isEmpty then [] else [truncatedNotice env.now a.trunc])
      else a.stored.map (fun s => s.event b env.w stacks) := by
  simp [Abs.read, window]

theorem stored_after_finish {a : Abs W A} {t : Time} (h : a.fin = some t) (hist : Hist W A)
    (hread : ∀ s ∈ a.stored, s.firstRead.isSome ∧ s.stackRead = true) :
    (a.run hist).stored = a.stored := by
  induction hist generalizing a with
  | nil => rfl
  | cons p hist ih =>
    obtain ⟨env, c⟩ := p
    have hst : (a.step env c).stored = a.stored := by
      cases c with
      | log => simp [Abs.step, Abs.log, h]
      | finish => simp [Abs.step, h]
      | setMaxEvents => rfl
      | read n stacks =>
        simp only [Abs.step]
        rw [List.map_congr_left (g := id), List.map_id, List.take_append_drop]
        intro s hs
        have := hread s (List.mem_of_mem_drop hs)
        obtain ⟨e, fr, sr⟩ := s
        obtain ⟨h1, h2⟩ := this
        cases fr with
        | none => simp at h1
        | some w => simp at h2; subst h2; simp [Stored.mark]
    simp only [Abs.run]
    rw [ih (step_fin h env c).1 (by rw [hst]; exact hread), hst]

/-! ## C09 -/

/-- No call sequence after `Finish` panics or changes any of the reported fields, nor the
number, times, error flags and stacks of the stored events, nor the text of events that
were not logged lazily. -/
theorem C09_frozen (settings : List Setting) (start : Time) (id source category : String)
    (old : CoreTrace A) (h₁ h₂ : Hist W A) (hfin : finishedAt h₁ ≠ none) :
    ∃ tr tr', (fresh settings start id source category old).run h₁ = some tr ∧
      tr.run h₂ = some tr' ∧
      tr.finished = true ∧ tr'.finished = true ∧ tr'.errored = tr.errored ∧
      (∀ now now', tr'.durationAt now' = tr.durationAt now) ∧
      tr'.id = tr.id ∧ tr'.source = tr.source ∧ tr'.category = tr.category ∧ tr'.start = tr.start ∧
      ∀ env env' : Env W, ∃ evs evs', tr.events' env = some evs ∧ tr'.events' env' = some evs' ∧
        evs'.map (fun e => (e.stack, e.isError)) = evs.map (fun e => (e.stack, e.isError)) ∧
        (tr.truncated = 0 → evs'.map (·.when_) = evs.map (·.when_)) ∧
        (tr.truncated > 0 → evs'.dropLast.map (·.when_) = evs.dropLast.map (·.when_) ∧
          evs'.getLast?.map (·.what) = evs.getLast?.map (·.what)) := by
  rw [fresh_run]
  generalize freshBase settings start id source category = b
  generalize ha : (Abs.new (Globals.after settings).traceMaxEvents : Abs W A).run h₁ = a
  have hf : a.fin = finishedAt h₁ := by rw [← ha]; exact run_finishedAt rfl h₁
  cases hx : finishedAt h₁ with
  | none => exact absurd hx hfin
  | some t =>
    rw [hx] at hf
    obtain ⟨r1, r2, r3, r4⟩ := run_fin hf h₂
    refine ⟨_, _, rfl, run_conc b a h₂, by simp [Abs.conc, hf], by simp [Abs.conc, r1],
      by simp [Abs.conc, r2], ?_, rfl, rfl, rfl, rfl, ?_⟩
    · intro now now'
      simp [CoreTrace.durationAt, Abs.conc, hf, r1]
    · intro env env'
      refine ⟨_, _, events'_conc b a env, events'_conc b _ env', ?_⟩
      rw [read_all, read_all, r3]
      have hE : ∀ (f : Entry W A → Frame → Prop), True := fun _ => trivial
      have hmap : ∀ {β : Type} (f : Entry W A → β),
          (a.run h₂).stored.map (fun s => f s.entry) = a.stored.map (fun s => f s.entry) := by
        intro β f
        have := congrArg (List.map f) r4
        rw [List.map_map, List.map_map] at this
        exact this
      have hlen : (a.run h₂).stored.length = a.stored.length := by
        have := congrArg List.length r4; simpa using this
      have hemp : (a.run h₂).stored.isEmpty = a.stored.isEmpty := by
        rw [Bool.eq_iff_iff, List.isEmpty_iff_length_eq_zero, List.isEmpty_iff_length_eq_zero, hlen]
      have e1 : ((a.run h₂).stored.map (fun s => s.event b env'.w true)).map (fun e => (e.stack, e.isError)) =
          (a.stored.map (fun s => s.event b env.w true)).map (fun e => (e.stack, e.isError)) := by
        simp only [List.map_map]
        exact hmap (fun e => (stackOf b.nostack e.callers, isErr e.kind))
      have e2 : ((a.run h₂).stored.map (fun s => s.event b env'.w true)).map (·.when_) =
          (a.stored.map (fun s => s.event b env.w true)).map (·.when_) := by
        simp only [List.map_map]
        exact hmap (fun e => e.env.now)
      have htr : (a.conc b).truncated = a.trunc := rfl
      by_cases ht : a.trunc > 0
      · simp only [ht, if_true, htr]
        have hl : a.trunc ≠ 0 := by omega
        refine ⟨?_, by omega, ?_⟩
        · rw [List.map_append, List.map_append, ← List.map_drop, ← List.map_drop, hemp]
          rw [List.map_drop, List.map_drop, e1]
          rw [← List.map_drop]
          split <;> simp [truncatedNotice]
        · intro _
          cases hs : a.stored.isEmpty with
          | true =>
            have h0 : a.stored = [] := by simpa using hs
            have h0' : (a.run h₂).stored = [] := by
              have : (a.run h₂).stored.isEmpty = true := hemp.trans hs
              simpa using this
            simp [h0, h0']
          | false =>
            rw [hemp, hs]
            simp only [Bool.false_eq_true, if_false, List.dropLast_concat]
            refine ⟨?_, by simp [truncatedNotice]⟩
            rw [List.map_drop, List.map_drop, e2]
      · simp only [ht, if_false, htr]
        refine ⟨e1, fun _ => e2, ?_⟩
        intro h; omega

/-- Once the events of a finished trace have been read, every later read shows the same
events, whatever was called in between; only the time stamp of the truncation notice
is that of the later read. -/
theorem C09_frozen_events (settings : List Setting) (start : Time) (id source category : String)
    (old : CoreTrace A) (h₁ h₂ : Hist W A) (hfin : finishedAt h₁ ≠ none) (env env' : Env W) :
    ∃ tr evs tr₁ tr₂ evs₂, (fresh settings start id source category old).run h₁ = some tr ∧
      tr.eventsDetail env (-1) true = some (evs, tr₁) ∧ tr₁.run h₂ = some tr₂ ∧
      tr₂.events' env' = some evs₂ ∧
      evs₂ = (if tr.truncated > 0 ∧ evs ≠ [] then
        evs.dropLast ++ [truncatedNotice env'.now tr.truncated] else evs) := by
  rw [fresh_run]
  generalize freshBase settings start id source category = b
  generalize ha : (Abs.new (Globals.after settings).traceMaxEvents : Abs W A).run h₁ = a
  have hf : a.fin = finishedAt h₁ := by rw [← ha]; exact run_finishedAt rfl h₁
  cases hx : finishedAt h₁ with
  | none => exact absurd hx hfin
  | some t =>
    rw [hx] at hf
    refine ⟨_, _, _, _, _, rfl, detail_conc b a env (-1) true, run_conc b _ h₂, events'_conc b _ env', ?_⟩
    generalize ha₁ : a.step env (.read (-1) true) = a₁
    have hs₁ : a₁.stored = a.stored.map (fun s => s.mark env.w true) := by
      rw [← ha₁]; simp [Abs.step, window]
    have hf₁ : a₁.fin = some t := by rw [← ha₁]; exact (step_fin hf _ _).1
    have ht₁ : a₁.trunc = a.trunc := by rw [← ha₁]; exact (step_fin hf _ _).2.2.1
    have hst : (a₁.run h₂).stored = a₁.stored := by
      apply stored_after_finish hf₁
      intro s hs
      rw [hs₁] at hs
      simp only [List.mem_map] at hs
      obtain ⟨s', _, rfl⟩ := hs
      simp [Stored.mark]
    have htr : (a₁.run h₂).trunc = a.trunc := (run_fin hf₁ h₂).2.2.1.trans ht₁
    rw [read_all, read_all, htr, hst, hs₁]
    have hev : (a.stored.map (fun s => s.mark env.w true)).map (fun s => s.event b env'.w true) =
        a.stored.map (fun s => s.event b env.w true) := by
      rw [List.map_map]
      apply List.map_congr_left
      intro s _
      simp only [Function.comp, Stored.event, Stored.mark, Stored.text]
      cases s.firstRead <;> rfl
    rw [hev]
    have htc : (a.conc b).truncated = (a.trunc : Int) := rfl
    rw [htc]
    by_cases ht : a.trunc > 0
    · have ht' : (a.trunc : Int) > 0 := by omega
      simp only [ht, ht', if_true, true_and]
      cases hs : a.stored with
      | nil => simp
      | cons x xs =>
        simp only [List.map_cons, List.isEmpty_cons, Bool.false_eq_true, if_false, List.drop_one,
          List.tail_cons]
        rw [if_pos (by simp)]
        simp
    · have ht' : ¬ (a.trunc : Int) > 0 := by omega
      simp only [ht, ht', if_false, false_and]

/-! ## C10 -/

/-- Errored ⇔ an error event was logged before `Finish`. -/
theorem C10_errored (settings : List Setting) (start : Time) (id source category : String)
    (old : CoreTrace A) (h : Hist W A) :
    ∃ tr, (fresh settings start id source category old).run h = some tr ∧
      (tr.errored = true ↔ ∃ e ∈ logged h, isErr e.kind = true) := by
  rw [fresh_run]
  refine ⟨_, rfl, ?_⟩
  show ((Abs.new (Globals.after settings).traceMaxEvents : Abs W A).run h).errored = true ↔ _
  rw [run_errored rfl]
  simp [Abs.new]

/-! ## C11 -/

theorem run_stored_all {a : Abs W A} (h : a.fin = none) (N : Nat) (hist : Hist W A)
    (hlim : ∀ m ∈ limitsSet (active hist), (N : Int) ≤ m) (hN : (N : Int) ≤ a.limit)
    (hcount : a.stored.length + (logged hist).length ≤ N) (ht : a.trunc = 0) :
    (a.run hist).stored.map Stored.entry = a.stored.map Stored.entry ++ logged hist ∧
    (a.run hist).trunc = 0 := by
  induction hist generalizing a with
  | nil => simp [Abs.run, logged, active, logs, ht]
  | cons p hist ih =>
    obtain ⟨env, c⟩ := p
    cases c with
    | log kind f x cs =>
      have hlim' : ∀ m ∈ limitsSet (active hist), (N : Int) ≤ m := by
        simpa [active, limitsSet] using hlim
      have hc : a.stored.length + ((logged hist).length + 1) ≤ N := by
        simpa [logged, active, logs] using hcount
      have hl : ¬ ((a.stored.length : Int) ≥ a.limit) := by omega
      have e : a.step env (.log kind f x cs) =
          { a with errored := a.errored || isErr kind,
                   stored := a.stored ++ [{ entry := ⟨kind, f, x, cs, env⟩ }] } := by
        simp only [Abs.step, Abs.log, h, hl, Option.isSome_none, Bool.false_eq_true, if_false]
      simp only [Abs.run, e]
      have := ih (a := ⟨a.fin, a.errored || isErr kind, a.limit,
        a.stored ++ [{ entry := ⟨kind, f, x, cs, env⟩ }], a.trunc⟩) h hlim' hN (by simp; omega) ht
      refine ⟨?_, this.2⟩
      rw [this.1]
      simp [logged, active, logs]
    | finish =>
      obtain ⟨_, _, h3, h4⟩ := run_fin (a := a.step env .finish) (t := env.now) (by simp [Abs.step, h]) hist
      have e : a.step env .finish = { a with fin := some env.now } := by simp [Abs.step, h]
      rw [e] at h3 h4
      simp only [Abs.run, e]
      rw [h3, h4]
      simp [logged, active, logs, ht]
    | setMaxEvents m =>
      have hlim' : ∀ m ∈ limitsSet (active hist), (N : Int) ≤ m := by
        intro m' hm'; exact hlim m' (by simp [active, limitsSet, hm'])
      have hm : (N : Int) ≤ clamped m := hlim _ (by simp [active, limitsSet])
      have := ih (a := a.step env (.setMaxEvents m)) h hlim' (by simpa [Abs.step, clamp_eq] using hm)
        (by simpa [Abs.step, logged, active, logs] using hcount) ht
      simpa [Abs.run, logged, active, logs, Abs.step] using this
    | read n s =>
      have hlen : (a.step env (.read n s)).stored.length = a.stored.length := by
        simp only [Abs.step, List.length_append, List.length_map, List.length_take, List.length_drop]
        have := window_le a.stored.length n
        omega
      have hent : (a.step env (.read n s)).stored.map Stored.entry = a.stored.map Stored.entry := by
        simp only [Abs.step]
        rw [List.map_append, List.map_map]
        have : (Stored.entry ∘ fun s' : Stored W A => s'.mark env.w s) = Stored.entry := rfl
        rw [this, ← List.map_append, List.take_append_drop]
      have hlim' : ∀ m ∈ limitsSet (active hist), (N : Int) ≤ m := by
        simpa [active, limitsSet] using hlim
      have := ih (a := a.step env (.read n s)) h hlim' hN
        (by rw [hlen]; simpa [logged, active, logs] using hcount) ht
      simp only [Abs.run]
      rw [hent] at this
      simpa [logged, active, logs] using this

/-- An event reports its own logging call: time, error flag and stack, and its text if it
was not lazy (a lazy text is the formatting of its own format and arguments in some
memory state; which one is C14). -/
def Reports (nostack : Bool) (ev : Event) (e : Entry W A) : Prop :=
  ev.when_ = e.env.now ∧ ev.isError = isErr e.kind ∧ ev.stack = stackOf nostack e.callers ∧
  (isLazy e.kind = false → ev.what = Sys.sprintf e.env.w e.format e.args) ∧
  (∃ w : W, ev.what = Sys.sprintf w e.format e.args)

theorem event_reports (b : Base) (s : Stored W A) (w : W) :
    Reports b.nostack (s.event b w true) s.entry := by
  refine ⟨rfl, rfl, by simp [Stored.event], ?_, ?_⟩
  · intro h; simp [Stored.event, Stored.text, h]
  · cases h : isLazy s.entry.kind with
    | false => exact ⟨s.entry.env.w, by simp [Stored.event, Stored.text, h]⟩
    | true => exact ⟨s.firstRead.getD w, by simp [Stored.event, Stored.text, h]⟩

/-- With no more events logged before `Finish` than any limit in force, `Events` returns
exactly the logged events, in order. -/
theorem C11_complete_in_order (settings : List Setting) (start : Time) (id source category : String)
    (old : CoreTrace A) (h : Hist W A)
    (hlim : ((logged h).length : Int) ≤ (Globals.after settings).traceMaxEvents)
    (hlims : ∀ m ∈ limitsSet (active h), ((logged h).length : Int) ≤ m) (env : Env W) :
    ∃ tr evs, (fresh settings start id source category old).run h = some tr ∧
      tr.events' env = some evs ∧ evs.length = (logged h).length ∧
      ∀ (i : Nat) ev e, evs[i]? = some ev → (logged h)[i]? = some e →
        Reports (Globals.after settings).traceNoStacks ev e := by
  rw [fresh_run]
  refine ⟨_, _, rfl, events'_conc _ _ env, ?_⟩
  generalize hb : freshBase settings start id source category = b
  have hn : (Globals.after settings).traceNoStacks = b.nostack := by rw [← hb]; rfl
  obtain ⟨h1, h2⟩ := run_stored_all (a := Abs.new (Globals.after settings).traceMaxEvents) rfl
    (logged h).length h hlims hlim (by simp [Abs.new]) rfl
  generalize (Abs.new (Globals.after settings).traceMaxEvents : Abs W A).run h = a at h1 h2 ⊢
  simp only [Abs.new, List.map_nil, List.nil_append] at h1
  rw [read_all]
  simp only [h2, Nat.lt_irrefl, gt_iff_lt, if_false, List.length_map]
  refine ⟨by rw [← h1]; simp, ?_⟩
  intro i ev e hev he
  rw [← h1] at he
  simp only [List.getElem?_map, Option.map_eq_some_iff] at hev he
  obtain ⟨s, hs, rfl⟩ := hev
  obtain ⟨s', hs', rfl⟩ := he
  rw [hs] at hs'
  obtain rfl := Option.some.inj hs'
  rw [hn]
  exact event_reports b s env.w

/-! ## C12 -/

/-- With a constant limit `M`: never more than `M` events; and after more than `M` logged
events, the events are the first `M` logged ones without the very first, followed by one
notice with the exact number of events not stored. -/
theorem C12_truncation (settings : List Setting) (start : Time) (id source category : String)
    (old : CoreTrace A) (h : Hist W A) (hset : limitsSet (active h) = []) (env : Env W) (M : Nat)
    (hM : (Globals.after settings).traceMaxEvents = M) :
    ∃ tr evs, (fresh settings start id source category old).run h = some tr ∧
      tr.events' env = some evs ∧ evs.length ≤ M ∧
      ((logged h).length > M →
        ∃ body, evs = body ++ [truncatedNotice env.now ((logged h).length - M : Nat)] ∧
          body.length = M - 1 ∧
          ∀ (i : Nat) ev e, body[i]? = some ev → (logged h)[i + 1]? = some e →
            Reports (Globals.after settings).traceNoStacks ev e) := by
  rw [fresh_run]
  refine ⟨_, _, rfl, events'_conc _ _ env, ?_⟩
  generalize hb : freshBase settings start id source category = b
  have hn : (Globals.after settings).traceNoStacks = b.nostack := by rw [← hb]; rfl
  have hns : noSetMax (active h) := by
    generalize active h = l at hset
    induction l with
    | nil => trivial
    | cons p l ih =>
      obtain ⟨e, c⟩ := p
      cases c <;> simp_all [limitsSet, noSetMax]
  have hM10 := globals_range settings
  obtain ⟨h1, h2, h3⟩ := run_stored (a := Abs.new (Globals.after settings).traceMaxEvents) rfl
    M (by simp [Abs.new, hM]) h hns (by simp [Abs.new]) (by simp [Abs.new])
  have h4 := run_count (a := Abs.new (Globals.after settings).traceMaxEvents) rfl h
  generalize (Abs.new (Globals.after settings).traceMaxEvents : Abs W A).run h = a at h1 h2 h3 h4 ⊢
  simp only [Abs.new, List.map_nil, List.nil_append, List.length_nil] at h1 h4
  rw [read_all]
  have hsl : a.stored.length = min M (logged h).length := by
    have := congrArg List.length h1
    simpa using this
  by_cases ht : a.trunc > 0
  · simp only [ht, if_true]
    have hfull := h3 ht
    have hne : a.stored.isEmpty = false := by
      cases hs : a.stored with
      | nil => rw [hs] at hfull; simp at hfull; omega
      | cons => rfl
    simp only [hne, Bool.false_eq_true, if_false]
    refine ⟨by simp; omega, fun _ => ⟨(a.stored.map (fun s => s.event b env.w true)).drop 1, ?_, ?_, ?_⟩⟩
    · congr 3; omega
    · simp; omega
    · intro i ev e hev he
      simp only [List.getElem?_drop, List.getElem?_map, Option.map_eq_some_iff] at hev
      obtain ⟨s, hs, rfl⟩ := hev
      have hlt : 1 + i < a.stored.length := by
        rw [List.getElem?_eq_some_iff] at hs
        exact hs.1
      have : (a.stored.map Stored.entry)[1 + i]? = some e := by
        rw [h1, List.getElem?_take]
        rw [if_pos (by omega), Nat.add_comm]
        exact he
      simp only [List.getElem?_map, hs, Option.map_some, Option.some.injEq] at this
      subst this
      rw [hn]
      exact event_reports b s env.w
  · simp only [ht, if_false]
    refine ⟨by simpa using h2, ?_⟩
    intro hgt
    omega

/-- Whatever limits are set and changed: stored plus counted is exactly what was logged
before `Finish`. -/
theorem C12_count_exact (settings : List Setting) (start : Time) (id source category : String)
    (old : CoreTrace A) (h : Hist W A) :
    ∃ tr, (fresh settings start id source category old).run h = some tr ∧
      (tr.events.length : Int) + tr.truncated = (logged h).length := by
  rw [fresh_run]
  refine ⟨_, rfl, ?_⟩
  have h4 := run_count (a := Abs.new (Globals.after settings).traceMaxEvents) rfl h
  simp only [Abs.conc, List.length_map]
  simp only [Abs.new, List.length_nil] at h4 ⊢
  omega

/-- The final event of a truncated trace is not an error and has no stack, and it states the number of events that are missing. -/
theorem C12_notice (settings : List Setting) (start : Time) (id source category : String)
    (old : CoreTrace A) (h : Hist W A) (hset : limitsSet (active h) = []) (env : Env W) (M : Nat)
    (hM : (Globals.after settings).traceMaxEvents = M) (hlong : (logged h).length > M) :
    ∃ tr evs last, (fresh settings start id source category old).run h = some tr ∧
      tr.events' env = some evs ∧ evs.getLast? = some last ∧ last.isError = false ∧ last.stack = [] ∧ last.when_ = env.now ∧
      last.what = "(truncated event count " ++ toString ((logged h).length - evs.length : Int) ++ ")" := by
  obtain ⟨tr, evs, h1, h2, h3, h4⟩ := C12_truncation settings start id source category old h hset env M hM
  obtain ⟨body, rfl, hb, -⟩ := h4 hlong
  refine ⟨tr, _, _, h1, h2, List.getLast?_concat, rfl, rfl, rfl, ?_⟩
  have hM1 : 1 ≤ M := by
    rw [List.length_append, List.length_singleton] at h3
    omega
  show _ ++ toString (((logged h).length - M : Nat) : Int) ++ _ = _
  rw [List.length_append, List.length_singleton, hb]
  congr 3
  omega

/-- The limit is what the last `SetTraceMaxEvents` asked for, forced into 10 to 10000, and 1000 if there was none. -/
theorem C12_setting (settings : List Setting) :
    (∀ n before after, settings = before ++ .maxEvents n :: after → (∀ m, .maxEvents m ∉ after) →
      (Globals.after settings).traceMaxEvents = clamped n) ∧
    ((∀ m, Setting.maxEvents m ∉ settings) → (Globals.after settings).traceMaxEvents = 1000) := by
  have key : ∀ (l : List Setting) (g : Globals), (∀ m, Setting.maxEvents m ∉ l) → (l.foldl Globals.apply g).traceMaxEvents = g.traceMaxEvents := by
    intro l
    induction l with
    | nil => intro g _; rfl
    | cons x l ih =>
      intro g hl
      rw [List.foldl_cons, ih _ fun m hm => hl m (by simp [hm])]
      cases x with
      | maxEvents m => exact absurd (by simp) (hl m)
      | stacks b => rfl
  constructor
  · rintro n before after rfl hafter
    unfold Globals.after
    rw [List.foldl_append, List.foldl_cons, key after _ hafter]
    show (Globals.setTraceMaxEvents _ n).traceMaxEvents = clamped n
    unfold Globals.setTraceMaxEvents clamped traceMaxEventsMin traceMaxEventsMax
    simp only
    omega
  · intro h
    exact key settings {} h

/-! ## C13 -/

/-- The text of a `Tracef`/`Errorf` event is the formatting at the time of the call: it does
not depend on the memory state at the time of the read (`env.w`) nor in between (`h₂`). -/
theorem C13_formatted_at_call (settings : List Setting) (start : Time) (id source category : String)
    (old : CoreTrace A) (h₁ h₂ : Hist W A) (kind : LogKind) (hk : isLazy kind = false)
    (format : String) (args : List A) (callers : List StdFrame) (env : Env W)
    (hact : finishedAt h₁ = none)
    (hroom : ∀ tr₁, (fresh settings start id source category old).run h₁ = some tr₁ →
      (tr₁.events.length : Int) < tr₁.eventsmax)
    (n : Int) (stacks : Bool) (envr : Env W) :
    ∃ tr₁ tr evs tr', (fresh settings start id source category old).run h₁ = some tr₁ ∧
      (fresh settings start id source category old).run
        (h₁ ++ (env, .log kind format args callers) :: h₂) = some tr ∧
      tr.eventsDetail envr n stacks = some (evs, tr') ∧
      tr'.events[tr₁.events.length]?.map (fun e => (e.what.str, e.when_, e.iserr)) =
        some ({ valid := true, value := Sys.sprintf env.w format args }, env.now, isErr kind) ∧
      (n ≤ 0 → tr.truncated = 0 → evs[tr₁.events.length]?.map (·.what) =
        some (Sys.sprintf env.w format args)) := by
  have hroom' := hroom _ (fresh_run settings start id source category old h₁)
  rw [fresh_run, fresh_run]
  refine ⟨_, _, _, _, rfl, rfl, detail_conc _ _ envr n stacks, ?_⟩
  generalize freshBase settings start id source category = b at *
  rw [run_append]
  have hf : ((Abs.new (Globals.after settings).traceMaxEvents : Abs W A).run h₁).fin = none := by
    rw [run_finishedAt rfl h₁, hact]
  generalize (Abs.new (Globals.after settings).traceMaxEvents : Abs W A).run h₁ = a at *
  simp only [Abs.conc, List.length_map] at hroom' ⊢
  -- the entry at index a.stored.length is kept from now on
  have key : ∀ (h : Hist W A) (a' : Abs W A), (a'.stored.map Stored.entry)[a.stored.length]? =
        some ⟨kind, format, args, callers, env⟩ →
      ((a'.run h).stored.map Stored.entry)[a.stored.length]? =
        some ⟨kind, format, args, callers, env⟩ := by
    intro h
    induction h with
    | nil => intro a' h; exact h
    | cons p h ih =>
      intro a' ha'
      obtain ⟨env', c⟩ := p
      apply ih
      cases c with
      | log k f x cs =>
        simp only [Abs.step, Abs.log]
        split
        · exact ha'
        · split
          · exact ha'
          · have hlt : a.stored.length < (a'.stored.map Stored.entry).length := by
              rw [List.getElem?_eq_some_iff] at ha'; exact ha'.1
            rw [List.map_append, List.getElem?_append_left hlt]
            exact ha'
      | finish => simp only [Abs.step]; split <;> exact ha'
      | setMaxEvents m => exact ha'
      | read n s =>
        simp only [Abs.step]
        rw [List.map_append, List.map_map]
        have : (Stored.entry ∘ fun s' : Stored W A => s'.mark env'.w s) = Stored.entry := rfl
        rw [this, ← List.map_append, List.take_append_drop]
        exact ha'
  have hstart : ((a.step env (.log kind format args callers)).stored.map Stored.entry)[a.stored.length]? =
        some ⟨kind, format, args, callers, env⟩ := by
    have : ¬ ((a.stored.length : Int) ≥ a.limit) := by omega
    simp only [Abs.step, Abs.log, hf, this, Option.isSome_none, Bool.false_eq_true, if_false]
    rw [List.map_append, List.getElem?_append_right (by simp)]
    simp
  have hE := key h₂ _ hstart
  simp only [Abs.run]
  generalize (a.step env (.log kind format args callers)).run h₂ = a₂ at *
  have hE' : ((a₂.step envr (.read n stacks)).stored.map Stored.entry)[a.stored.length]? =
      some ⟨kind, format, args, callers, env⟩ := by
    have := key [(envr, .read n stacks)] a₂ hE
    exact this
  constructor
  · simp only [List.getElem?_map, Option.map_eq_some_iff] at hE' ⊢
    obtain ⟨s, hs, he⟩ := hE'
    refine ⟨_, ⟨s, hs, rfl⟩, ?_⟩
    simp [Stored.conc, Stored.str, he, hk]
  · intro hn ht
    have hw : window a₂.stored.length n = a₂.stored.length := by simp [window, hn]
    have ht' : a₂.trunc = 0 := by omega
    simp only [Abs.read, hw, Nat.sub_self, List.drop_zero, ht', Nat.lt_irrefl, gt_iff_lt, if_false]
    simp only [List.getElem?_map, Option.map_eq_some_iff] at hE ⊢
    obtain ⟨s, hs, he⟩ := hE
    refine ⟨_, ⟨s, hs, rfl⟩, ?_⟩
    simp [Stored.event, Stored.text, he, hk]

/-! ## C15 -/

/-- While active, `Duration` is the time since the start; after `Finish` it is for ever the
time from the start to the first `Finish`. -/
theorem C15_duration (settings : List Setting) (start : Time) (id source category : String)
    (old : CoreTrace A) (h : Hist W A) (now : Time) :
    ∃ tr, (fresh settings start id source category old).run h = some tr ∧
      tr.durationAt now = ((finishedAt h).getD now).sub start := by
  rw [fresh_run]
  refine ⟨_, rfl, ?_⟩
  have := run_finishedAt (a := (Abs.new (Globals.after settings).traceMaxEvents : Abs W A)) rfl h
  simp only [CoreTrace.durationAt, Abs.conc, this, freshBase]
  cases finishedAt h <;> simp

/-- On a non-decreasing monotonic clock the duration is never negative, never decreases while
the trace is active, and is exact. -/
theorem C15_duration_monotone (settings : List Setting) (start : Time) (id source category : String)
    (old : CoreTrace A) (h₁ h₂ : Hist W A) (now₁ now₂ : Time) (s a b : Int)
    (hs : start.mono = some s) (ha : now₁.mono = some a) (hb : now₂.mono = some b)
    (hsa : s ≤ a) (hab : a ≤ b)
    -- every clock reading in `h₁` is between start and `now₁`, every one in `h₂` after `now₁`
    (hfin₁ : ∀ p ∈ h₁, ∃ m, p.1.now.mono = some m ∧ s ≤ m ∧ m ≤ a)
    (hfin₂ : ∀ p ∈ h₂, ∃ m, p.1.now.mono = some m ∧ a ≤ m ∧ m ≤ b) :
    ∃ tr₁ tr₂, (fresh settings start id source category old).run h₁ = some tr₁ ∧
      tr₁.run h₂ = some tr₂ ∧
      0 ≤ tr₁.durationAt now₁ ∧ tr₁.durationAt now₁ ≤ tr₂.durationAt now₂ := by
  obtain ⟨tr₁, h1, hd1⟩ := C15_duration settings start id source category old h₁ now₁
  obtain ⟨tr₂, h2, hd2⟩ := C15_duration settings start id source category old (h₁ ++ h₂) now₂
  have hrun : tr₁.run h₂ = some tr₂ := by
    rw [fresh_run] at h1 h2
    rw [run_append] at h2
    obtain rfl := Option.some.inj h1
    rw [run_conc]; exact h2
  refine ⟨tr₁, tr₂, h1, hrun, ?_⟩
  rw [hd1, hd2]
  have hfa : ∀ (h : Hist W A) (t : Time), finishedAt h = some t → ∃ p ∈ h, p.1.now = t := by
    intro h
    induction h with
    | nil => intro t h; simp [finishedAt] at h
    | cons p h ih =>
      obtain ⟨env, c⟩ := p
      intro t ht
      cases c with
      | finish => simp [finishedAt] at ht; exact ⟨_, List.mem_cons_self .., ht⟩
      | log => obtain ⟨p, hp, he⟩ := ih t ht; exact ⟨p, List.mem_cons_of_mem _ hp, he⟩
      | setMaxEvents => obtain ⟨p, hp, he⟩ := ih t ht; exact ⟨p, List.mem_cons_of_mem _ hp, he⟩
      | read => obtain ⟨p, hp, he⟩ := ih t ht; exact ⟨p, List.mem_cons_of_mem _ hp, he⟩
  have happ : ∀ (h : Hist W A), finishedAt (h ++ h₂) = (finishedAt h).orElse (fun _ => finishedAt h₂) := by
    intro h
    induction h with
    | nil => simp [finishedAt]
    | cons p h ih => obtain ⟨env, c⟩ := p; cases c <;> simp [finishedAt, ih]
  rw [happ]
  cases hx : finishedAt h₁ with
  | some t =>
    obtain ⟨p, hp, rfl⟩ := hfa h₁ t hx
    obtain ⟨m, hm, hm1, hm2⟩ := hfin₁ p hp
    simp only [Option.getD_some, Option.orElse_some, Time.sub, hm, hs]
    exact ⟨Int.sub_nonneg_of_le hm1, Int.le_refl _⟩
  | none =>
    simp only [Option.getD_none, Option.orElse_none]
    cases hy : finishedAt h₂ with
    | none =>
      simp only [Option.getD_none, Time.sub, ha, hb, hs]
      exact ⟨Int.sub_nonneg_of_le hsa, Int.sub_le_sub_right hab _⟩
    | some t =>
      obtain ⟨p, hp, rfl⟩ := hfa h₂ t hy
      obtain ⟨m, hm, hm1, hm2⟩ := hfin₂ p hp
      simp only [Option.getD_some, Time.sub, ha, hm, hs]
      exact ⟨Int.sub_nonneg_of_le hsa, Int.sub_le_sub_right hm1 _⟩

/-! ## C16 -/

/-- `SetTraceMaxEvents(n)` puts `n`, forced into 10..10000, in force for every trace created
afterwards, whatever other settings came before or between; changing stacks does not matter. -/
theorem C16_global_limit (settings : List Setting) (n : Int) (stacks : List Bool)
    (start : Time) (id source category : String) (old : CoreTrace A) (h : Hist W A)
    (hset : limitsSet (active h) = []) (env : Env W) :
    ∃ tr evs, (fresh (settings ++ .maxEvents n :: stacks.map .stacks) start id source category old).run h
        = some tr ∧
      (tr.events.length : Int) = min (clamped n) (logged h).length ∧
      tr.events' env = some evs ∧ (evs.length : Int) ≤ clamped n := by
  have hg : (Globals.after (settings ++ .maxEvents n :: stacks.map .stacks)).traceMaxEvents = clamped n := by
    unfold Globals.after
    rw [List.foldl_append, List.foldl_cons]
    generalize settings.foldl _ _ = g
    have : ∀ g : Globals, ((stacks.map Setting.stacks).foldl Globals.apply g).traceMaxEvents = g.traceMaxEvents := by
      induction stacks with
      | nil => intro g; rfl
      | cons b bs ih => intro g; simp only [List.map_cons, List.foldl_cons]; rw [ih]; rfl
    rw [this]
    exact setTraceMaxEvents_eq g n
  generalize settings ++ .maxEvents n :: stacks.map .stacks = st at *
  obtain ⟨M, hM⟩ : ∃ M : Nat, clamped n = M := ⟨(clamped n).toNat, by unfold clamped; omega⟩
  obtain ⟨tr, evs, h1, h2, h3, _⟩ := C12_truncation st start id source category old h hset env M (hg.trans hM)
  refine ⟨tr, evs, h1, ?_, h2, by omega⟩
  rw [fresh_run] at h1
  obtain rfl := Option.some.inj h1
  have hns : noSetMax (active h) := by
    generalize active h = l at hset
    induction l with
    | nil => trivial
    | cons p l ih =>
      obtain ⟨e, c⟩ := p
      cases c <;> simp_all [limitsSet, noSetMax]
  obtain ⟨k1, _, _⟩ := run_stored (a := Abs.new (Globals.after st).traceMaxEvents) rfl
    M (by simp [Abs.new, hg, hM]) h hns (by simp [Abs.new]) (by simp [Abs.new])
  have := congrArg List.length k1
  simp [Abs.new] at this
  simp only [Abs.conc, List.length_map]
  rw [hM]
  simp only [Abs.new]
  omega

/-- Traces and the global settings as one system. -/
structure System (A : Type) where
  globals : Globals
  traces : List (CoreTrace A)

/-- The steps of the system: a setter, a creation, or a call on one of the traces. -/
inductive SysOp (W A : Type) where
  | set (s : Setting)
  | create (now : Time) (id source category : String) (old : CoreTrace A)
  | call (i : Nat) (env : Env W) (c : Call A)

def System.step (s : System A) : SysOp W A → Option (System A)
  | .set (.maxEvents n) => some { s with globals := s.globals.setTraceMaxEvents n }
  | .set (.stacks b) => some { s with globals := s.globals.setTraceStacks b }
  | .create now id source category old =>
    some { s with traces := s.traces ++ [newCoreTrace s.globals now id source category old] }
  | .call i env c =>
    match s.traces[i]? with
    | none => some s
    | some tr => (tr.step env c).map fun p => { s with traces := s.traces.set i p.1 }

/-- Setters, creations and calls on other traces do not change an existing trace. -/
theorem C16_existing_traces_unaffected (s s' : System A) (op : SysOp W A) (i : Nat) (tr : CoreTrace A)
    (hi : s.traces[i]? = some tr) (he : s.step op = some s')
    (hop : ∀ j env c, op = .call j env c → j ≠ i) : s'.traces[i]? = some tr := by
  cases op with
  | set x =>
    cases x <;> (simp [System.step] at he; subst he; exact hi)
  | create now id source category old =>
    simp [System.step] at he; subst he
    rw [List.getElem?_append_left]
    · exact hi
    · rw [List.getElem?_eq_some_iff] at hi; exact hi.1
  | call j env c =>
    have hj := hop j env c rfl
    simp only [System.step] at he
    cases hjt : s.traces[j]? with
    | none => rw [hjt] at he; simp at he; subst he; exact hi
    | some trj =>
      rw [hjt] at he
      simp only [Option.map_eq_some_iff] at he
      obtain ⟨p, _, rfl⟩ := he
      simp only
      rw [List.getElem?_set_ne hj]
      exact hi

/-- `SetMaxEvents` on a trace forces its argument into the range, discards nothing that is
stored, and from then on at most that many events, or those already stored, are kept. -/
theorem C16_set_max_events (settings : List Setting) (start : Time) (id source category : String)
    (old : CoreTrace A) (h₁ h₂ : Hist W A) (env₀ : Env W) (m : Int)
    (hset : limitsSet (active h₂) = []) (hact : finishedAt h₁ = none) :
    ∃ tr₁ tr₂ tr₃, (fresh settings start id source category old).run h₁ = some tr₁ ∧
      tr₁.step env₀ (.setMaxEvents m) = some (tr₂, []) ∧ tr₂.events = tr₁.events ∧
      tr₂.truncated = tr₁.truncated ∧ tr₂.run h₂ = some tr₃ ∧
      (tr₃.events.length : Int) =
        max (tr₁.events.length : Int) (min (clamped m) (tr₁.events.length + (logged h₂).length : Int)) := by
  rw [fresh_run]
  generalize freshBase settings start id source category = b
  have hf : ((Abs.new (Globals.after settings).traceMaxEvents : Abs W A).run h₁).fin = none := by
    rw [run_finishedAt rfl h₁, hact]
  generalize (Abs.new (Globals.after settings).traceMaxEvents : Abs W A).run h₁ = a at *
  refine ⟨_, _, _, rfl, step_conc b a env₀ (.setMaxEvents m), rfl, rfl, run_conc b _ h₂, ?_⟩
  simp only [Abs.conc, List.length_map]
  generalize ha₁ : a.step env₀ (.setMaxEvents m) = a₁
  have e : a.stored = a₁.stored := by rw [← ha₁]; rfl
  have hl : a₁.limit = clamped m := by rw [← ha₁]; simp [Abs.step, clamp_eq]
  have hf₁ : a₁.fin = none := by rw [← ha₁]; exact hf
  rw [e]
  clear ha₁ e hf hact
  generalize clamped m = L at hl
  induction h₂ generalizing a₁ with
  | nil => simp only [Abs.run, logged, active, logs, List.length_nil]; omega
  | cons p h ih =>
    obtain ⟨env, c⟩ := p
    cases c with
    | log kind f x cs =>
      have hset' : limitsSet (active h) = [] := by simpa [active, limitsSet] using hset
      simp only [Abs.run]
      by_cases hlt : (a₁.stored.length : Int) ≥ a₁.limit
      · have e : a₁.step env (.log kind f x cs) =
            { a₁ with errored := a₁.errored || isErr kind, trunc := a₁.trunc + 1 } := by
          simp [Abs.step, Abs.log, hf₁, hlt]
        rw [e, ih hset' _ (by exact hf₁) (by exact hl)]
        simp only [logged, active, logs, List.length_cons]
        omega
      · have e : a₁.step env (.log kind f x cs) =
            ⟨a₁.fin, a₁.errored || isErr kind, a₁.limit,
              a₁.stored ++ [{ entry := ⟨kind, f, x, cs, env⟩ }], a₁.trunc⟩ := by
          simp only [Abs.step, Abs.log, hf₁, hlt, Option.isSome_none, Bool.false_eq_true, if_false]
        rw [e, ih hset' _ (by exact hf₁) (by exact hl)]
        simp only [logged, active, logs, List.length_cons, List.length_append, List.length_nil]
        omega
    | finish =>
      obtain ⟨_, _, h3, h4⟩ := run_fin (a := a₁.step env .finish) (t := env.now) (by simp [Abs.step, hf₁]) h
      have := congrArg List.length h4
      simp only [List.length_map] at this
      simp only [Abs.run, this, logged, active, logs, List.length_nil]
      simp only [Abs.step, hf₁, Option.isSome_none, Bool.false_eq_true, if_false]
      omega
    | setMaxEvents m => simp [active, limitsSet] at hset
    | read n s =>
      have hset' : limitsSet (active h) = [] := by simpa [active, limitsSet] using hset
      have hlen : (a₁.step env (.read n s)).stored.length = a₁.stored.length := by
        simp only [Abs.step, List.length_append, List.length_map, List.length_take, List.length_drop]
        have := window_le a₁.stored.length n
        omega
      simp only [Abs.run]
      rw [ih hset' (a₁.step env (.read n s)) hf₁ hl, hlen]
      simp [logged, active, logs]

/-! ## C17 -/

/-- A trace made from any pooled object is indistinguishable from one made from a new
object, under every history; and it starts active, not errored, without events or
truncation, with the new identity and the current settings. -/
theorem C17_recycled_starts_clean (settings : List Setting) (start : Time) (id source category : String)
    (old : CoreTrace A) (h : Hist W A) :
    (fresh settings start id source category old).run h =
      (fresh settings start id source category (zeroTrace : CoreTrace A)).run h ∧
    (let tr := fresh settings start id source category old
     tr.finished = false ∧ tr.errored = false ∧ tr.events = [] ∧ tr.truncated = 0 ∧
     tr.id = id ∧ tr.source = source ∧ tr.category = category ∧ tr.start = start ∧
     tr.eventsmax = (Globals.after settings).traceMaxEvents ∧
     (∀ (env : Env W), tr.events' env = some []) ∧ (∀ now, tr.durationAt now = now.sub start)) := by
  refine ⟨rfl, ?_⟩
  refine ⟨rfl, rfl, rfl, rfl, rfl, rfl, rfl, rfl, rfl, ?_, fun _ => rfl⟩
  intro env
  rw [fresh_conc (W := W), events'_conc, read_all]
  simp [Abs.new]

/-! ## C18 -/

/-- The reported stack of every stored event: the captured frames in order, without the
outermost and without trc's own logging functions; and empty if stacks were off when
the trace was created.  It is the same at every read. -/
theorem C18_stack (settings : List Setting) (start : Time) (id source category : String)
    (old : CoreTrace A) (h : Hist W A) (env : Env W)
    (hlim : ((logged h).length : Int) ≤ (Globals.after settings).traceMaxEvents)
    (hlims : ∀ m ∈ limitsSet (active h), ((logged h).length : Int) ≤ m) :
    ∃ tr evs, (fresh settings start id source category old).run h = some tr ∧
      tr.events' env = some evs ∧
      ∀ (i : Nat) ev e, evs[i]? = some ev → (logged h)[i]? = some e →
        ((Globals.after settings).traceNoStacks = true → ev.stack = []) ∧
        ((Globals.after settings).traceNoStacks = false →
          ev.stack = ((e.callers.dropLast).filter (fun fr => !ignoreStackFrameFunction fr.function)).map
            toFrame) := by
  obtain ⟨tr, evs, h1, h2, _, h4⟩ := C11_complete_in_order settings start id source category old h hlim hlims env
  refine ⟨tr, evs, h1, h2, ?_⟩
  intro i ev e hev he
  obtain ⟨_, _, hs, _⟩ := h4 i ev e hev he
  constructor
  · intro hn; rw [hs, hn]; simp [stackOf]
  · intro hn; rw [hs, hn]; simp [stackOf]

/-- Only captured frames, in order, and none of the ignored functions. -/
theorem C18_only_captured (settings : List Setting) (callers : List StdFrame) (nostack : Bool) :
    ((stackOf nostack callers).Sublist (callers.map toFrame)) ∧
    (∀ fr ∈ stackOf nostack callers, ignoreStackFrameFunction fr.function = false) := by
  unfold stackOf
  cases nostack with
  | true => simp
  | false =>
    simp only [Bool.false_eq_true, if_false]
    constructor
    · apply List.Sublist.map
      exact (List.filter_sublist).trans (List.dropLast_sublist _)
    · intro fr hfr
      simp only [List.mem_map, List.mem_filter] at hfr
      obtain ⟨s, ⟨_, hs⟩, rfl⟩ := hfr
      simpa [toFrame] using hs

/-- Whether stacks are recorded is what the last `SetTraceStacks` said, and they are if there was none. -/
theorem C18_setting (settings : List Setting) :
    (∀ b before after, settings = before ++ .stacks b :: after → (∀ c, .stacks c ∉ after) →
      (Globals.after settings).traceNoStacks = !b) ∧
    ((∀ c, Setting.stacks c ∉ settings) → (Globals.after settings).traceNoStacks = false) := by
  have key : ∀ (l : List Setting) (g : Globals), (∀ c, Setting.stacks c ∉ l) → (l.foldl Globals.apply g).traceNoStacks = g.traceNoStacks := by
    intro l
    induction l with
    | nil => intro g _; rfl
    | cons x l ih =>
      intro g hl
      rw [List.foldl_cons, ih _ fun m hm => hl m (by simp [hm])]
      cases x with
      | maxEvents m => rfl
      | stacks b => exact absurd (by simp) (hl b)
  constructor
  · rintro b before after rfl hafter
    unfold Globals.after
    rw [List.foldl_append, List.foldl_cons, key after _ hafter]
    rfl
  · intro h
    exact key settings {} h

/-- What is ignored: functions of package trc (or below) whose name ends in `Tracef` or
`Errorf`, `trc.Region…`, and everything in package `eztrc`. -/
theorem C18_ignored (f : String) :
    ignoreStackFrameFunction f = true ↔
      (∃ r, f.toList = "github.com/peterbourgon/trc".toList ++ r) ∧
      ((∃ l, f.toList = l ++ "Tracef".toList) ∨ (∃ l, f.toList = l ++ "Errorf".toList) ∨
       (∃ r, f.toList = "github.com/peterbourgon/trc.Region".toList ++ r) ∨
       (∃ r, f.toList = "github.com/peterbourgon/trc/eztrc.".toList ++ r)) := by
  have hp : ∀ p : String, hasPrefix f p = true ↔ ∃ r, f.toList = p.toList ++ r := by
    intro p
    simp only [hasPrefix, List.isPrefixOf_iff_prefix]
    constructor
    · rintro ⟨r, h⟩; exact ⟨r, h.symm⟩
    · rintro ⟨r, h⟩; exact ⟨r, h.symm⟩
  have hs : ∀ p : String, hasSuffix f p = true ↔ ∃ r, f.toList = r ++ p.toList := by
    intro p
    simp only [hasSuffix, List.isSuffixOf_iff_suffix]
    constructor
    · rintro ⟨r, h⟩; exact ⟨r, h.symm⟩
    · rintro ⟨r, h⟩; exact ⟨r, h.symm⟩
  rw [← hp, ← hs, ← hs, ← hp, ← hp]
  unfold ignoreStackFrameFunction
  cases hasPrefix f "github.com/peterbourgon/trc" <;>
  cases hasSuffix f "Tracef" <;> cases hasSuffix f "Errorf" <;>
  cases hasPrefix f "github.com/peterbourgon/trc.Region" <;>
  cases hasPrefix f "github.com/peterbourgon/trc/eztrc." <;> simp

/-! ## Non-vacuity -/

section Examples

/-- Arguments are cells of memory; formatting shows the format and the cell. -/
instance : Sys (Nat → Nat) Nat where
  sprintf w f args := f ++ toString (args.map w)

private def at_ (t : Int) (v : Nat) : Env (Nat → Nat) := { now := { wall := 1000 + t, mono := some t }, w := fun _ => v }

private def exHist : Hist (Nat → Nat) Nat :=
  [(at_ 1 7, .log .tracef "a" [0] []), (at_ 2 8, .log .lazyErrorf "b" [0] [⟨"main.f", "/x/y.go", 3⟩, ⟨"main.main", "/x/z.go", 9⟩]),
   (at_ 3 9, .read (-1) true), (at_ 5 0, .finish), (at_ 6 0, .log .errorf "c" [] []), (at_ 9 0, .finish)]

private def exTrace : CoreTrace Nat := fresh [.maxEvents 3] { wall := 1000, mono := some 0 } "id" "src" "cat" zeroTrace

example : (exTrace.run exHist).bind (fun tr => tr.events' (at_ 7 1)) =
    some [⟨{ wall := 1001, mono := some 1 }, "a[7]", [], false⟩,
          ⟨{ wall := 1002, mono := some 2 }, "b[9]", [⟨"main.f", "/x/y.go:3"⟩], true⟩] := by rfl

example : finishedAt exHist ≠ none ∧ (logged exHist).length = 2 ∧
    (exTrace.run exHist).map (fun tr => (tr.errored, tr.durationAt (at_ 20 0).now)) = some (true, 5) := by
  refine ⟨by simp [finishedAt, exHist], by rfl, by rfl⟩

/-- A truncated trace: limit 10 (forced up from 3), 12 events logged. -/
example : ((exTrace.run ((List.range 12).map fun (i : Nat) => (at_ i i, .log .tracef "e" [0] []))).bind
    (fun tr => tr.events' (at_ 50 0))).map (fun evs => evs.map (·.what)) =
    some ["e[1]", "e[2]", "e[3]", "e[4]", "e[5]", "e[6]", "e[7]", "e[8]", "e[9]",
      "(truncated event count 2)"] := by rfl

example : (Globals.after [.stacks false, .maxEvents 3, .stacks true, .maxEvents 20000]).traceNoStacks = false ∧
    (Globals.after [.stacks false, .maxEvents 3, .stacks true, .maxEvents 20000]).traceMaxEvents = 10000 := by
  refine ⟨(C18_setting _).1 true [.stacks false, .maxEvents 3] [.maxEvents 20000] rfl (by simp),
    (C12_setting _).1 20000 [.stacks false, .maxEvents 3, .stacks true] [] rfl (by simp)⟩

example : limitsSet (active ((List.range 12).map fun (i : Nat) => (at_ i i, Call.log LogKind.tracef "e" [0] []))) = [] := by
  rfl

end Examples

end Trc.Core
