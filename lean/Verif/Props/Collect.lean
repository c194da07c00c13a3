import Verif.Props.Prefix
import Verif.Props.Ring
import Verif.Ring.Conserve

/-!
# Properties of `Collector.NewTrace`, and limits of wrappers: C24, C76, C78
-/

set_option linter.unusedSectionVars false
set_option linter.unusedVariables false
set_option linter.unusedSimpArgs false

namespace Trc.Wrap

open Core Core.Spec

/-! ## C24 -/

section
variable {W A : Type} [Sys W A] [Arg A] [Humanize]

/-- The action neither creates nor retains a trace. -/
def Act.mild : Act A → Prop
  | .make _ _ _ => False
  | .retain _ _ => False
  | _ => True

theorem logActs_mild (tr : Tr A) (kind : LogKind) (format : String) (args : List A) (stack : List StdFrame) :
    ∀ act ∈ tr.logActs kind format args stack, act.mild := by
  induction tr generalizing format args stack with
  | core a => intro act h; simp only [Tr.logActs, List.mem_singleton] at h; subst h; trivial
  | publish t ih =>
    intro act h
    simp only [Tr.logActs, List.mem_append, List.mem_singleton] at h
    rcases h with h | rfl
    · exact ih _ _ _ act h
    · trivial
  | log t id dst ih =>
    intro act h
    simp only [Tr.logActs, List.mem_cons] at h
    rcases h with rfl | h
    · trivial
    · exact ih _ _ _ act h
  | pre t f as ih => intro act h; exact ih _ _ _ act h

theorem mild_act {w w' : World A} {env : AEnv W} {act : Act A} (hm : act.mild) (h : w.act env act = some w') :
    w'.cats = w.cats ∧ w'.freed = w.freed ∧ w'.globals = w.globals ∧ (∀ b, w'.traces b = none ↔ w.traces b = none) := by
  cases act with
  | make b s c => exact hm.elim
  | retain c tr => exact hm.elim
  | write dst format args => simp only [World.act, Option.some.injEq] at h; subst h; exact ⟨rfl, rfl, rfl, fun _ => Iff.rfl⟩
  | writeDone dst id tr =>
    simp only [World.act, bind] at h
    cases hb : w.traces tr.root with
    | none => simp [hb] at h
    | some t => simp only [hb, Option.bind_some, pure, Option.some.injEq] at h; subst h; exact ⟨rfl, rfl, rfl, fun _ => Iff.rfl⟩
  | call b c =>
    simp only [World.act, bind] at h
    cases hb : w.traces b with
    | none => simp [hb] at h
    | some tb =>
      simp only [hb, Option.bind_some] at h
      cases hs : tb.step env.toEnv c with
      | none => simp [hs] at h
      | some q =>
        simp only [hs, Option.bind_some, pure, Option.some.injEq] at h
        subst h
        refine ⟨rfl, rfl, rfl, fun b' => ?_⟩
        simp only [World.set]
        split
        · rename_i e; subst e; simp [hb]
        · exact Iff.rfl
  | publish tr =>
    simp only [World.act, World.publish] at h
    split at h
    · cases hb : w.traces tr.root with
      | none => simp [hb] at h
      | some tb =>
        simp only [hb, bind, Option.bind_some] at h
        cases hs : streamEvents tb env.toEnv tr.isCore with
        | none => simp [hs] at h
        | some q =>
          simp only [hs, Option.bind_some, pure, Option.some.injEq] at h
          subst h
          refine ⟨rfl, rfl, rfl, fun b' => ?_⟩
          simp only [World.set]
          split
          · rename_i e; subst e; simp [hb]
          · exact Iff.rfl
    · obtain rfl := Option.some.inj h
      exact ⟨rfl, rfl, rfl, fun _ => Iff.rfl⟩

theorem mild_run {w w' : World A} {ex : List (AEnv W × Act A)} (hm : ∀ p ∈ ex, p.2.mild) (h : w.run ex = some w') :
    w'.cats = w.cats ∧ w'.freed = w.freed ∧ w'.globals = w.globals ∧ (∀ b, w'.traces b = none ↔ w.traces b = none) := by
  induction ex generalizing w with
  | nil => simp only [World.run, Option.some.injEq] at h; subst h; exact ⟨rfl, rfl, rfl, fun _ => Iff.rfl⟩
  | cons p ex ih =>
    obtain ⟨env, act⟩ := p
    simp only [World.run, bind] at h
    cases hs : w.act env act with
    | none => simp [hs] at h
    | some w₁ =>
      simp only [hs, Option.bind_some] at h
      obtain ⟨a1, a2, a3, a4⟩ := mild_act (hm (env, act) (by simp)) hs
      obtain ⟨b1, b2, b3, b4⟩ := ih (fun p hp => hm p (by simp [hp])) h
      exact ⟨b1.trans a1, b2.trans a2, b3.trans a3, fun b => (b4 b).trans (a4 b)⟩

/-- A decorator that wraps, and neither creates nor retains traces. -/
def Decorator.Wraps (d : Decorator A) : Prop :=
  ∀ source category id tr, (d source category id tr).1.root = tr.root ∧ ∀ act ∈ (d source category id tr).2, act.mild

theorem logDecorator_wraps (dst : Nat) : (logDecorator dst : Decorator A).Wraps :=
  fun _ _ _ tr => ⟨rfl, by intro act h; simp only [logDecorator, List.mem_singleton] at h; subst h; trivial⟩

theorem publishDecorator_wraps : (publishDecorator : Decorator A).Wraps :=
  fun _ _ _ tr => ⟨rfl, by intro act h; simp only [publishDecorator, List.mem_singleton] at h; subst h; trivial⟩

theorem decorate_wraps (source category id : String) (ds : List (Decorator A)) (hd : ∀ d ∈ ds, d.Wraps) (tr : Tr A) :
    (decorate source category id ds tr).1.root = tr.root ∧ ∀ act ∈ (decorate source category id ds tr).2, act.mild := by
  induction ds generalizing tr with
  | nil => exact ⟨rfl, by simp [decorate]⟩
  | cons d ds ih =>
    obtain ⟨h1, h2⟩ := hd d (by simp) source category id tr
    obtain ⟨h3, h4⟩ := ih (fun d hd' => hd d (by simp [hd'])) (d source category id tr).1
    refine ⟨h3.trans h1, ?_⟩
    intro act h
    simp only [decorate, List.mem_append] at h
    rcases h with h | h
    · exact h2 act h
    · exact h4 act h

/-- C24.  On a context without a trace, `NewTrace` creates one trace, with the collector's source and
the category, wraps it, retains the wrapped trace once, in that category, as its last action, and
returns a context that carries it. -/
theorem C24_creates (ctx : Ctx A) (addr : Nat) (id source category : String) (ds : List (Decorator A)) (stack : List StdFrame)
    (hctx : maybeGet ctx = none) (hd : ∀ d ∈ ds, d.Wraps) :
    ∃ ctx' tr between, newTrace ctx addr id source category ds stack =
        (ctx', tr, .make addr source category :: between ++ [.retain category tr]) ∧
      (∀ act ∈ between, act.mild) ∧ tr.root = addr ∧ maybeGet ctx' = some tr := by
  simp only [newTrace, hctx]
  obtain ⟨h1, h2⟩ := decorate_wraps source category id [publishDecorator]
    (by intro d h; simp only [List.mem_singleton] at h; subst h; exact publishDecorator_wraps) (.core addr : Tr A)
  obtain ⟨h3, h4⟩ := decorate_wraps source category id ds hd (decorate source category id [publishDecorator] (.core addr : Tr A)).1
  refine ⟨_, _, (decorate source category id [publishDecorator] (.core addr : Tr A)).2 ++
    (decorate source category id ds (decorate source category id [publishDecorator] (.core addr : Tr A)).1).2, rfl, ?_, ?_, ?_⟩
  · intro act h
    simp only [List.mem_append] at h
    rcases h with h | h
    · exact h2 act h
    · exact h4 act h
  · simp only [new, put]
    rw [h3, h1]; rfl
  · rfl

/-- C24.  The trace at a new address has the source and category given, whatever happens to it
meanwhile. -/
theorem C24_new_trace (w w' : World A) (env : AEnv W) (addr : Nat) (source category : String) (ex : List (AEnv W × Act A))
    (hm : ∀ p ∈ ex, notMake addr p.2) (h : w.run ((env, .make addr source category) :: ex) = some w') :
    ∃ t, w'.traces addr = some t ∧ t.source = source ∧ t.category = category ∧ t.id = env.id ∧ t.start = env.now := by
  simp only [World.run, World.act, bind, Option.bind_some] at h
  obtain ⟨hist, t', h1, h2, _⟩ := run_hist h (a := addr) (by simp [World.set]; rfl) hm
  rw [new_conc (W := W), run_conc] at h1
  obtain rfl := (Option.some.inj h1).symm
  exact ⟨_, h2, rfl, rfl, rfl, rfl⟩

/-- The categories as they can be, with no size change in progress. -/
structure Idle (cats : Ring.RBs (Tr A)) : Prop where
  reached : ∃ ops ds, (Ring.newRBs 1000).run ops = some (cats, ds)
  idle : cats.resizing = none

/-- C24.  Retaining a trace makes it the newest of its category, before the others in their order, and
leaves other categories alone; it never fails. -/
theorem C24_retained (w : World A) (env : AEnv W) (category : String) (tr : Tr A) (hc : Idle w.cats) :
    ∃ w' before, w.act env (.retain category tr) = some w' ∧ w.cats.contents category = some before ∧
      (∃ n, w'.cats.contents category = some (tr :: before.take n) ∧ n + 1 = w.cats.cap) ∧
      (∀ k, k ≠ category → w'.cats.contents k = w.cats.contents k) ∧ w'.traces = w.traces ∧ Idle w'.cats := by
  obtain ⟨⟨ops, ds, hr⟩, hi⟩ := hc
  obtain ⟨s, e1, e2⟩ := Ring.frep_run (Ring.frep_new (α := Tr A) 1000) ops
  rw [show ((1000 : Nat) : Int) = 1000 from rfl, hr] at e1
  obtain ⟨rfl, rfl⟩ : w.cats = s ∧ ds = _ := by simpa using e1
  generalize hf : ((Ring.Spec.Family.new 1000).run ops).1 = f at e2
  have hcap : Ring.CapInv f := by rw [← hf]; exact Ring.capInv_run (Ring.capInv_new 1000) ops
  have hok : Ring.FamOK f := by
    rw [← hf]
    have : ∀ (ops : List (Ring.MOp (Tr A))) (g : Ring.Spec.Family (Tr A)), Ring.FamOK g → Ring.FamOK (g.run ops).1 := by
      intro ops
      induction ops with
      | nil => intro g h; exact h
      | cons op ops ih => intro g h; exact ih _ (Ring.famOK_step h op)
    exact this ops _ (Ring.famOK_new (by decide))
  have hres : f.resizing = none := by rw [← e2.hres]; exact hi
  obtain ⟨s', g1, g2⟩ := Ring.frep_run e2 [.getOrCreate category, .add category tr]
  have hp := fun k => Ring.Family_push_items f hcap hres category k tr
  refine ⟨{ w with cats := s', freed := w.freed ++ (f.run [.getOrCreate category, .add category tr]).2.flatMap Tr.freed }, _, ?_, e2.contents category, ⟨f.cap - 1, ?_, ?_⟩, ?_, rfl, ⟨⟨ops ++ [.getOrCreate category, .add category tr], ?_⟩, ?_⟩⟩
  · simp [World.act, Ring.RBs.push, g1]
  · rw [g2.contents, (hp category).1, if_pos rfl]
    cases hcc : f.cap with
    | zero => have := hok.cap; omega
    | succ n => simp
  · rw [e2.hcap]; have := hok.cap; omega
  · intro k hk
    rw [g2.contents, e2.contents, (hp k).1, if_neg (Ne.symm hk)]
  · have : ∀ (l : List (Ring.MOp (Tr A))) (q : Ring.RBs (Tr A)) l', q.run (l ++ l') = (q.run l).bind fun r => (r.1.run l').map fun r' => (r'.1, r.2 ++ r'.2) := by
      intro l
      induction l with
      | nil => intro q l'; cases hq : q.run l' <;> simp [Ring.RBs.run, hq]
      | cons op l ih =>
        intro q l'
        simp only [List.cons_append, Ring.RBs.run, bind]
        cases q.step op with
        | none => rfl
        | some r =>
          simp only [Option.bind_some, ih]
          cases r.1.run l with
          | none => rfl
          | some r2 =>
            simp only [Option.bind_some, pure]
            cases r2.1.run l' with
            | none => rfl
            | some r3 => simp
    rw [this, hr]
    simp [g1]
  · show s'.resizing = none
    rw [g2.hres]
    exact (hp category).2.1

/-- C24.  On a context that carries a trace, `NewTrace` returns the context and the trace; nothing is
created or retained, no other trace is touched; the trace gets one more event, unless it is
finished or full. -/
theorem C24_nested (ctx : Ctx A) (addr : Nat) (id source category : String) (ds : List (Decorator A)) (stack : List StdFrame)
    (tr : Tr A) (hctx : maybeGet ctx = some tr) :
    ∃ acts, newTrace ctx addr id source category ds stack = (ctx, tr, acts) ∧
      ∀ (w w' : World A) (ex : List (AEnv W × Act A)), ex.map Prod.snd = acts → w.run ex = some w' →
        w'.cats = w.cats ∧ w'.freed = w.freed ∧ (∀ b, w'.traces b = none ↔ w.traces b = none) ∧
        ∀ settings start id source cat old (h : Hist W A) t,
          (fresh settings start id source cat old).run h = some t → w.traces tr.root = some t →
          ∃ t', w'.traces tr.root = some t' ∧ ∀ env : Env W, ∃ evs evs', t.events' env = some evs ∧ t'.events' env = some evs' ∧
            (t.finished = true → evs'.length = evs.length) ∧
            (t.finished = false → t.truncated = 0 → (evs.length : Int) < t.eventsmax →
              ∃ m : W, evs'.length = evs.length + 1 ∧ t'.finished = false ∧ t'.errored = t.errored ∧
                evs'.getLast?.map (fun ev => (ev.what, ev.isError)) =
                  some (Sys.sprintf m (tr.pformat ++ "(+ %s)") (tr.pargs ++ [Arg.str category]), false)) := by
  refine ⟨tr.logActs .lazyTracef "(+ %s)" [Arg.str category] stack, by simp [newTrace, hctx], ?_⟩
  intro w w' ex hex hrun
  have hmild : ∀ p ∈ ex, p.2.mild := by
    intro p hp
    exact logActs_mild tr _ _ _ _ p.2 (by rw [← hex]; exact List.mem_map_of_mem hp)
  obtain ⟨m1, m2, m3, m4⟩ := mild_run hmild hrun
  refine ⟨m1, m2, m4, ?_⟩
  intro settings start id source cat old h t hfr ht
  rw [fresh_run] at hfr
  obtain rfl := (Option.some.inj hfr).symm
  generalize freshBase settings start id source cat = b at ht ⊢
  generalize (Abs.new (Globals.after settings).traceMaxEvents : Abs W A).run h = x at ht ⊢
  have hnm : ∀ p ∈ ex, notMake tr.root p.2 := by
    intro p hp
    have := hmild p hp
    revert this
    cases p.2 <;> simp [Act.mild, notMake]
  obtain ⟨hist, t', r1, r2, r3⟩ := run_hist hrun ht hnm
  rw [run_conc] at r1
  obtain rfl := (Option.some.inj r1).symm
  refine ⟨_, r2, fun env => ⟨_, _, events'_conc _ _ env, events'_conc _ _ env, ?_⟩⟩
  have hcalls : (callsOn tr.root ex).map Prod.snd = [.log .lazyTracef (tr.pformat ++ "(+ %s)") (tr.pargs ++ [Arg.str category]) ((tr.frames .lazyTracef ++ stack).take 8)] := by
    rw [callsOn_snd, hex, logActs_calls]
  obtain ⟨e0, he0⟩ : ∃ e0, callsOn tr.root ex = [(e0, .log .lazyTracef (tr.pformat ++ "(+ %s)") (tr.pargs ++ [Arg.str category]) ((tr.frames .lazyTracef ++ stack).take 8))] := by
    cases hco : callsOn tr.root ex with
    | nil => rw [hco] at hcalls; simp at hcalls
    | cons p l =>
      rw [hco] at hcalls
      simp only [List.map_cons, List.cons.injEq, List.map_eq_nil_iff] at hcalls
      obtain ⟨h1, rfl⟩ := hcalls
      exact ⟨p.1, by rw [← h1]⟩
  have s1 := (SameBut.refl x).run hist
  rw [r3, he0] at s1
  simp only [Abs.run, Abs.step] at s1
  generalize hy : x.run hist = y at s1 ⊢
  have hnew : y.stored.length = (y.stored.map Stored.entry).length := by simp
  rw [read_all, read_all]
  refine ⟨?_, ?_⟩
  · intro hfin
    have hfin' : x.fin.isSome = true := hfin
    simp only [Abs.log, hfin', if_true] at s1
    have hl : y.stored.length = x.stored.length := by
      have := congrArg List.length s1.entries; simpa using this
    have hemp : y.stored.isEmpty = x.stored.isEmpty := by
      rw [Bool.eq_iff_iff, List.isEmpty_iff_length_eq_zero, List.isEmpty_iff_length_eq_zero, hl]
    rw [s1.trunc, hemp]
    split <;> simp [hl]
  · intro hfin htr hlim
    have hfin' : x.fin.isSome = false := hfin
    have htr' : x.trunc = 0 := by have : (x.trunc : Int) = 0 := htr; omega
    rw [htr'] at hlim
    simp only [Nat.lt_irrefl, gt_iff_lt, if_false, List.length_map] at hlim
    have hlim' : ¬ ((x.stored.length : Int) ≥ x.limit) := by
      have : (x.stored.length : Int) < x.limit := hlim
      omega
    simp only [Abs.log, hfin', Bool.false_eq_true, if_false, if_neg hlim'] at s1
    have hent := s1.entries
    simp only [List.map_append, List.map_cons, List.map_nil] at hent
    have hl : y.stored.length = x.stored.length + 1 := by
      have := congrArg List.length hent; simpa using this
    have ht0 : y.trunc = 0 := s1.trunc.trans htr'
    simp only [htr', ht0, Nat.lt_irrefl, gt_iff_lt, if_false, List.length_map]
    obtain ⟨s, hs⟩ : ∃ s, y.stored.getLast? = some s := by
      cases hyl : y.stored.getLast? with
      | none =>
        rw [List.getLast?_eq_none_iff] at hyl
        rw [hyl] at hl; simp at hl
      | some s => exact ⟨s, rfl⟩
    have hse : s.entry.kind = .lazyTracef ∧ s.entry.format = tr.pformat ++ "(+ %s)" ∧ s.entry.args = tr.pargs ++ [Arg.str category] := by
      have := congrArg List.getLast? hent
      rw [List.getLast?_map, hs] at this
      simp only [Option.map_some, List.getLast?_append, List.getLast?_singleton, Option.some_or, Option.some.injEq] at this
      rw [this]
      exact ⟨rfl, rfl, rfl⟩
    obtain ⟨_, hie, _, _, m, hw⟩ := event_reports b s env.w
    refine ⟨m, hl, ?_, ?_, ?_⟩
    · show y.fin.isSome = false
      rw [s1.fin]
      exact hfin'
    · show y.errored = x.errored
      rw [s1.errored]
      simp [isErr]
    · rw [List.getLast?_map, hs]
      simp only [Option.map_some, hw, hie, hse.1, hse.2.1, hse.2.2]
      rfl

/-! ## C76: limits set on traces of a collector -/

/-- A decorator that adds a wrapper. -/
def Decorator.Adds (d : Decorator A) : Prop := ∀ source category id tr, (d source category id tr).1.isCore = false

theorem decorate_adds (source category id : String) (ds : List (Decorator A)) (hd : ∀ d ∈ ds, d.Adds) (tr : Tr A) (h : tr.isCore = false) :
    (decorate source category id ds tr).1.isCore = false := by
  induction ds generalizing tr with
  | nil => exact h
  | cons d ds ih => exact ih (fun d hd' => hd d (by simp [hd'])) _ (hd d (by simp) source category id tr)

/-- C76 fails: `SetMaxEvents` reports failure, and does nothing, for every trace a collector creates. -/
theorem C76_set_max_events_violated (ctx : Ctx A) (addr : Nat) (id source category : String) (ds : List (Decorator A))
    (stack : List StdFrame) (max : Int) (hctx : maybeGet ctx = none) (hd : ∀ d ∈ ds, d.Adds) :
    setMaxEvents (newTrace ctx addr id source category ds stack).2.1 max = ([], false) := by
  have h : (newTrace ctx addr id source category ds stack).2.1.isCore = false := by
    simp only [newTrace, hctx]
    exact decorate_adds source category id ds hd _ rfl
  revert h
  cases (newTrace ctx addr id source category ds stack).2.1 <;> simp [setMaxEvents, Tr.isCore]

/-- C76.  It works exactly on core traces, as `New` without decorators returns them. -/
theorem C76_set_max_events_partial (tr : Tr A) (max : Int) :
    ((setMaxEvents tr max).2 = true ↔ tr = .core tr.root) ∧
    ((setMaxEvents tr max).2 = true → callsIn tr.root (setMaxEvents tr max).1 = [.setMaxEvents max]) ∧
    ((setMaxEvents tr max).2 = false → (setMaxEvents tr max).1 = []) := by
  cases tr <;> simp [setMaxEvents, Tr.root, callsIn, callOn, isRead]

/-! ## C78: publishing does not panic -/

theorem latestOf_none (finished : Bool) (events : List Event) : latestOf finished events = none ↔ finished = false ∧ events = [] := by
  cases finished with
  | true => simp [latestOf]
  | false =>
    cases events with
    | nil => simp [latestOf, Go.sliceFrom]
    | cons e es =>
      simp only [latestOf, Bool.false_eq_true, if_false, Go.sliceFrom, List.length_cons]
      simp
      try omega

/-- C78.  Publishing a trace panics exactly if someone has subscribed, the trace published is itself
a wrapper, it is active, and it has no events.  So it never does with the new trace function
that collectors have by default, which publishes the core trace. -/
theorem C78_publish_partial (w : World A) (env : AEnv W) (tr : Tr A) (settings : List Setting) (start : Time)
    (id source category : String) (old : CoreTrace A) (h : Hist W A) (t : CoreTrace A)
    (hr : (fresh settings start id source category old).run h = some t) (ht : w.traces tr.root = some t) :
    w.act env (.publish tr) = none ↔
      env.subscribed = true ∧ tr.isCore = false ∧ t.finished = false ∧ t.events' env.toEnv = some [] := by
  rw [fresh_run] at hr
  obtain rfl := (Option.some.inj hr).symm
  generalize freshBase settings start id source category = b at ht ⊢
  generalize (Abs.new (Globals.after settings).traceMaxEvents : Abs W A).run h = x at ht ⊢
  simp only [World.act, World.publish, ht, bind, Option.bind_some]
  cases env.subscribed with
  | false => simp
  | true =>
    simp only [if_true, true_and]
    unfold streamEvents
    cases hc : tr.isCore with
    | true => simp [detail_conc]
    | false =>
      simp only [Bool.false_eq_true, if_false, detail_conc, bind, Option.bind_some, true_and, events'_conc]
      cases hl : latestOf (x.conc b).finished (x.read b env.toEnv (-1) true) with
      | none =>
        obtain ⟨h1, h2⟩ := (latestOf_none _ _).mp hl
        simp [h1, h2]
      | some e =>
        simp only [Option.bind_some, pure]
        constructor
        · intro hh; simp at hh
        · rintro ⟨h1, h2⟩
          have := (latestOf_none _ _).mpr ⟨h1, Option.some.inj h2⟩
          rw [this] at hl; simp at hl

end

section
open Fmt
variable {W A : Type} [Render W A] [Arg A] [Humanize]

/-- C24.  The event says "(+ category)", after the prefixes of the trace. -/
theorem C24_text (hr : RendersStrings W A) (base tr : Tr A) (ps : List (String × List A)) (hu : Under base tr ps)
    (hb : base.unprefixed) (hf : Fits ps) (category : String) (m : W) :
    sprintf m (tr.pformat ++ "(+ %s)") (tr.pargs ++ [Arg.str category]) = prefixTexts m ps ++ "(+ " ++ category ++ ")" := by
  obtain ⟨u1, _, u3⟩ := under_text (W := W) hu hb hf
  rw [sprintf_append m _ _ _ _ u1, u3 m]
  have : sprintf m "(+ %s)" [(Arg.str category : A)] =
      String.ofList ('(' :: '+' :: ' ' :: (Render.arg m [] 's' (Arg.str category : A) ++ [')'])) := rfl
  rw [this, hr]
  have : String.ofList ('(' :: '+' :: ' ' :: (category.toList ++ [')'])) = "(+ " ++ category ++ ")" := by
    apply String.toList_injective
    simp
  rw [this]
  simp [String.append_assoc]

end

end Trc.Wrap

namespace Trc.Wrap.Witness

open Core Core.Spec Fmt

def run1 (acts : List (Act String)) (subscribed : Bool) : Option (World String) :=
  ({ cats := Ring.newRBs 10 } : World String).run (acts.map fun act => ({ env 2 with subscribed }, act))

/-- C24: a collector with a log decorator creates a trace, which is then the only one. -/
example : (run1 (newTrace .background 0 "id" "src" "cat" [logDecorator 1] []).2.2 true).map (fun w =>
      (w.lines, (w.traces 0).map (·.source), (w.cats.bufs.keys))) =
    some ([(1, "id started, source 'src', category 'cat'\n")], some "src", ["cat"]) := rfl

/-- C24: and nested, it adds an event. -/
example : let c := newTrace .background 0 "id" "src" "cat" [logDecorator 1] []
    (run1 (c.2.2 ++ (newTrace c.1 5 "id5" "src" "other" [logDecorator 1] []).2.2) true).map (fun w =>
      ((w.traces 0).bind fun t => (t.events' (env 3).toEnv).map fun evs => evs.map (·.what), (w.traces 5).isNone, w.cats.bufs.keys)) =
    some (some ["(+ other)"], true, ["cat"]) := rfl

example : Idle (Ring.newRBs 1000 : Ring.RBs (Tr String)) := ⟨⟨[], [], rfl⟩, rfl⟩

/-- C78 fails: a new trace function that puts a log decorator on before the collector's publisher makes
the creation of a trace panic as soon as someone has subscribed. -/
theorem C78_publish_violated :
    let p := new (.background : Ctx String) 0 "id" "src" "cat" [logDecorator 1, publishDecorator]
    (run1 p.2.2 false).isSome = true ∧ run1 p.2.2 true = none := ⟨rfl, rfl⟩

end Trc.Wrap.Witness
