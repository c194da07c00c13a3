import Verif.Props.Easy

/-!
# C119: functions that make traces and call each other

A function that makes a trace with `NewTrace` and finishes it when it returns, as the middleware does, may be
called by another such function.  `NewTrace` then gives it the trace of its caller, and its `Finish` is the end of
that trace.
-/

set_option linter.unusedVariables false
set_option linter.unusedSimpArgs false

namespace Trc.Wrap

open Core Core.Spec Fmt

section
variable {A : Type} [Arg A]

/-! ## Programs -/

/-- What a function does that is given a context: it logs with the trace that `Get` returns (`log`), and calls
functions that do so, namely ones that make a trace for the category at first and finish it when they return
(`traced`: `ctx, tr := c.NewTrace(ctx, category); defer tr.Finish()`, trcweb/middleware.go:25-26), ones that make
a region (`region`: `ctx, tr, finish := Region(ctx, name); defer finish()`, helpers.go:54-60), and ones that put
a prefix (`pre`: helpers.go:90-94).  Each is followed by the rest of the function.  `addr` and `id` are for a trace
that would be made, `took` is the duration that is logged at the end of a region. -/
inductive Fn (A : Type) where
  | skip
  | log (kind : LogKind) (format : String) (args : List A) (stack : List StdFrame) (rest : Fn A)
  | traced (addr : Nat) (id source category : String) (ds : List (Decorator A)) (stack : List StdFrame) (body rest : Fn A)
  | region (name : String) (stack : List StdFrame) (took : String) (body rest : Fn A)
  | pre (format : String) (args : List A) (body rest : Fn A)

/-- The actions of a program in a context; `orphan` is the address where `Get` would make orphans. -/
def Fn.acts (orphan : Nat) (ctx : Ctx A) : Fn A → List (Act A)
  | .skip => []
  | .log kind format args stack rest =>
    (get ctx orphan).2 ++ (get ctx orphan).1.logActs kind format args stack ++ rest.acts orphan ctx
  | .traced addr id source category ds stack body rest =>
    let new := newTrace ctx addr id source category ds stack
    new.2.2 ++ body.acts orphan new.1 ++ new.2.1.finishActs ++ rest.acts orphan ctx
  | .region name stack took body rest =>
    let r := Wrap.region ctx orphan orphan name stack
    r.2.2.1 ++ body.acts orphan r.1 ++ r.2.2.2 took ++ rest.acts orphan ctx
  | .pre format args body rest =>
    let p := prefixed ctx orphan format args
    p.2.2 ++ body.acts orphan p.1 ++ rest.acts orphan ctx

/-! ## What a program says -/

/-- What a program says in order, and when (`none`) a function that made a trace returns; for a context with a trace and the
prefixes put so far. -/
def Fn.steps (orphan : Nat) (ctx : Ctx A) (ps : List (String × List A)) : Fn A → List (Option (Line A))
  | .skip => []
  | .log kind format args stack rest => some ⟨ctx, ps, orphan, kind, format, args, stack, true⟩ :: rest.steps orphan ctx ps
  | .traced _ _ _ category _ stack body rest =>
    some ⟨ctx, ps, orphan, .lazyTracef, "(+ %s)", [Arg.str category], stack, true⟩ ::
      (body.steps orphan ctx ps ++ none :: rest.steps orphan ctx ps)
  | .region name stack took body rest =>
    some ⟨ctx, ps, orphan, .lazyTracef, "→ " ++ name, [], stack, true⟩ ::
      (body.steps orphan (prefixed ctx orphan "·" []).1 (ps ++ [("·", [])]) ++
        some ⟨ctx, ps, orphan, .lazyTracef, "← " ++ name ++ " [%s]", [Arg.str took], stack, true⟩ :: rest.steps orphan ctx ps)
  | .pre format args body rest =>
    body.steps orphan (prefixed ctx orphan format args).1 (ps ++ [(format, args)]) ++ rest.steps orphan ctx ps

/-- All that is said. -/
def spoken (steps : List (Option (Line A))) : List (Line A) := steps.filterMap id

/-- What is said before a function that made a trace returns. -/
def kept (steps : List (Option (Line A))) : List (Line A) := spoken (steps.takeWhile Option.isSome)

/-- The prefixes in a program and their arguments fit each other. -/
def Fn.fits : Fn A → Prop
  | .skip => True
  | .log _ _ _ _ rest => rest.fits
  | .traced _ _ _ _ _ _ body rest => body.fits ∧ rest.fits
  | .region _ _ _ body rest => body.fits ∧ rest.fits
  | .pre format args body rest => Fits [(format, args)] ∧ body.fits ∧ rest.fits

/-- The call on the trace for a step. -/
def stepCall : Option (Line A) → Call A
  | some l => l.said.call
  | none => .finish

theorem fits_append {ps qs : List (String × List A)} (h1 : Fits ps) (h2 : Fits qs) : Fits (ps ++ qs) := by
  intro p hp
  rcases List.mem_append.mp hp with h | h
  · exact h1 p h
  · exact h2 p h

theorem fits_dot : Fits ([("·", [])] : List (String × List A)) := by
  intro p hp
  rw [List.mem_singleton.mp hp]
  exact ⟨by show Takes (trimSpace "·") 0; decide +kernel, fun _ => rfl⟩

/-- The steps are through contexts below that of the program. -/
theorem steps_below {ctx₀ : Ctx A} (orphan : Nat) (p : Fn A) (hp : p.fits) {ctx : Ctx A} {ps : List (String × List A)}
    (h : Below ctx₀ ctx ps) (hf : Fits ps) : ∀ l, some l ∈ p.steps orphan ctx ps → Below ctx₀ l.ctx l.prefixes ∧ Fits l.prefixes := by
  induction p generalizing ctx ps with
  | skip => intro l hl; cases hl
  | log kind format args stack rest ih =>
    intro l hl
    rcases List.mem_cons.mp hl with hl | hl
    · obtain rfl := Option.some.inj hl; exact ⟨h, hf⟩
    · exact ih hp h hf l hl
  | traced addr id source category ds stack body rest ihb ihr =>
    intro l hl
    rcases List.mem_cons.mp hl with hl | hl
    · obtain rfl := Option.some.inj hl; exact ⟨h, hf⟩
    · rcases List.mem_append.mp hl with hl | hl
      · exact ihb hp.1 h hf l hl
      · rcases List.mem_cons.mp hl with hl | hl
        · cases hl
        · exact ihr hp.2 h hf l hl
  | region name stack took body rest ihb ihr =>
    intro l hl
    rcases List.mem_cons.mp hl with hl | hl
    · obtain rfl := Option.some.inj hl; exact ⟨h, hf⟩
    · rcases List.mem_append.mp hl with hl | hl
      · exact ihb hp.1 (.pre orphan "·" [] h) (fits_append hf fits_dot) l hl
      · rcases List.mem_cons.mp hl with hl | hl
        · obtain rfl := Option.some.inj hl; exact ⟨h, hf⟩
        · exact ihr hp.2 h hf l hl
  | pre format args body rest ihb ihr =>
    intro l hl
    rcases List.mem_append.mp hl with hl | hl
    · exact ihb hp.2.1 (.pre orphan format args h) (fits_append hf hp.1) l hl
    · exact ihr hp.2.2 h hf l hl

/-- A line logged with the trace of its context. -/
theorem line_concerns {W : Type} [Render W A] {ctx₀ : Ctx A} {tr : Tr A} (h₀ : maybeGet ctx₀ = some tr) (hu : tr.unprefixed) (l : Line A)
    (hd : l.direct = true) (h : Below ctx₀ l.ctx l.prefixes) (hf : Fits l.prefixes) :
    l.acts.filter (·.concerns tr.root) = [.call tr.root l.said.call] := by
  obtain ⟨tr', h3, h4⟩ := below_under h₀ h
  have h5 : get l.ctx l.orphan = (tr', []) := by simp [get, h3]
  have hr : tr'.root = tr.root := (under_text (W := W) h4 hu hf).2.1
  have := logActs_concerns tr' l.kind l.format l.args l.stack
  rw [hr] at this
  simp only [Line.acts, hd, if_true, h5, List.nil_append, this]
  simp [Said.call, Line.said, h5, hd, Op.deco]

/-- The actions of a program on the trace of its context are its steps. -/
theorem acts_steps {W : Type} [Render W A] {ctx₀ : Ctx A} {tr : Tr A} (h₀ : maybeGet ctx₀ = some tr) (hu : tr.unprefixed) (orphan : Nat)
    (p : Fn A) (hp : p.fits) {ctx : Ctx A} {ps : List (String × List A)} (h : Below ctx₀ ctx ps) (hf : Fits ps) :
    (p.acts orphan ctx).filter (·.concerns tr.root) = (p.steps orphan ctx ps).map fun s => .call tr.root (stepCall s) := by
  induction p generalizing ctx ps with
  | skip => rfl
  | log kind format args stack rest ih =>
    have := line_concerns (W := W) h₀ hu ⟨ctx, ps, orphan, kind, format, args, stack, true⟩ rfl h hf
    simp only [Line.acts, if_true] at this
    simp only [Fn.acts, Fn.steps, List.filter_append _ (rest.acts orphan ctx), this, ih hp h hf, List.map_cons]
    rfl
  | traced addr id source category ds stack body rest ihb ihr =>
    have := line_concerns (W := W) h₀ hu ⟨ctx, ps, orphan, .lazyTracef, "(+ %s)", [Arg.str category], stack, true⟩ rfl h hf
    obtain ⟨tr', h3, h4⟩ := below_under h₀ h
    have h5 : get ctx orphan = (tr', []) := by simp [get, h3]
    have hr : tr'.root = tr.root := (under_text (W := W) h4 hu hf).2.1
    have hfin := finishActs_concerns tr'
    rw [hr] at hfin
    simp only [Line.acts, if_true, h5, List.nil_append] at this
    have hn : newTrace ctx addr id source category ds stack = (ctx, tr', tr'.logActs .lazyTracef "(+ %s)" [Arg.str category] stack) := by
      simp [newTrace, h3]
    simp only [Fn.acts, Fn.steps, hn, List.filter_append, this, hfin, ihb hp.1 h hf, ihr hp.2 h hf, List.map_cons, List.map_append]
    simp [stepCall]
  | region name stack took body rest ihb ihr =>
    have g1 := line_concerns (W := W) h₀ hu ⟨ctx, ps, orphan, .lazyTracef, "→ " ++ name, [], stack, true⟩ rfl h hf
    have g2 := line_concerns (W := W) h₀ hu ⟨ctx, ps, orphan, .lazyTracef, "← " ++ name ++ " [%s]", [Arg.str took], stack, true⟩ rfl h hf
    obtain ⟨tr', h3, h4⟩ := below_under h₀ h
    have h5 : get ctx orphan = (tr', []) := by simp [get, h3]
    have h6 : (prefixed ctx orphan "·" []).2.2 = [] := by
      simp only [prefixed, h5]
      split <;> rfl
    simp only [Line.acts, if_true, h5, List.nil_append] at g1 g2
    simp only [Fn.acts, Fn.steps, Wrap.region, h5, h6, List.nil_append, List.filter_append, g1, g2,
      ihb hp.1 (.pre orphan "·" [] h) (fits_append hf fits_dot), ihr hp.2 h hf, List.map_cons, List.map_append]
    simp [stepCall]
  | pre format args body rest ihb ihr =>
    obtain ⟨tr', h3, h4⟩ := below_under h₀ h
    have h5 : get ctx orphan = (tr', []) := by simp [get, h3]
    have h6 : (prefixed ctx orphan format args).2.2 = [] := by
      simp only [prefixed, h5]
      split <;> rfl
    simp only [Fn.acts, Fn.steps, h6, List.nil_append, List.filter_append,
      ihb hp.2.1 (.pre orphan format args h) (fits_append hf hp.1), ihr hp.2.2 h hf, List.map_append]

theorem steps_direct (orphan : Nat) (p : Fn A) (ctx : Ctx A) (ps : List (String × List A)) :
    ∀ l, some l ∈ p.steps orphan ctx ps → l.direct = true := by
  induction p generalizing ctx ps with
  | skip => intro l hl; cases hl
  | log kind format args stack rest ih =>
    intro l hl
    rcases List.mem_cons.mp hl with hl | hl
    · obtain rfl := Option.some.inj hl; rfl
    · exact ih _ _ l hl
  | traced addr id source category ds stack body rest ihb ihr =>
    intro l hl
    rcases List.mem_cons.mp hl with hl | hl
    · obtain rfl := Option.some.inj hl; rfl
    · rcases List.mem_append.mp hl with hl | hl
      · exact ihb _ _ l hl
      · rcases List.mem_cons.mp hl with hl | hl
        · cases hl
        · exact ihr _ _ l hl
  | region name stack took body rest ihb ihr =>
    intro l hl
    rcases List.mem_cons.mp hl with hl | hl
    · obtain rfl := Option.some.inj hl; rfl
    · rcases List.mem_append.mp hl with hl | hl
      · exact ihb _ _ l hl
      · rcases List.mem_cons.mp hl with hl | hl
        · obtain rfl := Option.some.inj hl; rfl
        · exact ihr _ _ l hl
  | pre format args body rest ihb ihr =>
    intro l hl
    rcases List.mem_append.mp hl with hl | hl
    · exact ihb _ _ l hl
    · exact ihr _ _ l hl

/-! ## Lists of steps -/

/-- Steps are what is kept and then, if a function that made a trace returns at all, the rest. -/
theorem steps_split (steps : List (Option (Line A))) :
    ∃ rest, steps = (kept steps).map some ++ rest ∧ (∀ s ∈ rest.head?, s = none) ∧ (rest = [] ↔ none ∉ steps) ∧
      spoken steps = kept steps ++ spoken rest := by
  induction steps with
  | nil => exact ⟨[], rfl, by simp, by simp, rfl⟩
  | cons s steps ih =>
    cases s with
    | none => exact ⟨none :: steps, rfl, by simp, by simp, rfl⟩
    | some l =>
      obtain ⟨rest, h1, h2, h3, h4⟩ := ih
      refine ⟨rest, ?_, h2, by simp [h3], ?_⟩
      · show some l :: steps = some l :: ((kept steps).map some ++ rest)
        rw [← h1]
      · show l :: spoken steps = l :: (kept steps ++ spoken rest)
        rw [h4]

/-- Nothing is spoken after a function that made a trace has returned. -/
def Last (steps : List (Option (Line A))) : Prop := ∀ before after, steps = before ++ none :: after → spoken after = []

theorem kept_spoken_iff (steps : List (Option (Line A))) : kept steps = spoken steps ↔ Last steps := by
  obtain ⟨rest, h1, h2, -, h4⟩ := steps_split steps
  rw [h4]
  constructor
  · intro h before after hs
    have hr : spoken rest = [] := by
      have := congrArg List.length h
      simp only [List.length_append] at this
      exact List.eq_nil_of_length_eq_zero (by omega)
    have key : ∀ (ls : List (Line A)) (before : List (Option (Line A))), ls.map some ++ rest = before ++ none :: after →
        ∃ b, rest = b ++ none :: after := by
      intro ls
      induction ls with
      | nil => intro before h; exact ⟨before, h⟩
      | cons l ls ih =>
        intro before h
        cases before with
        | nil => simp at h
        | cons b before => exact ih before (by simpa using (List.cons.inj h).2)
    obtain ⟨b, hb⟩ := key _ before (h1 ▸ hs)
    rw [hb] at hr
    simp only [spoken, List.filterMap_append, List.append_eq_nil_iff, List.filterMap_cons, id_eq] at hr
    exact hr.2
  · intro h
    cases rest with
    | nil => simp [spoken]
    | cons s rest =>
      obtain rfl : s = none := h2 s (by simp)
      have := h _ rest h1
      show _ = _ ++ spoken rest
      rw [this, List.append_nil]

end

/-! ## C119 -/

section
variable {W A : Type} [Render W A] [Arg A] [Humanize]

/-- A function makes a trace on a context without one, does what `body` does, and has returned or not (`fin`), with
`tr.Finish` deferred; other goroutines do anything else meanwhile and later, but create fewer traces in the category
afterwards than its size; and then someone searches for the ID of the trace. -/
structure TracedRun (W A : Type) [Render W A] [Arg A] [Humanize] where
  fin : Bool
  settings : List Setting
  cap : Nat
  /-- the context of the function, and the trace it makes -/
  ctx : Ctx A
  hctx : maybeGet ctx = none
  a : Nat
  id : String
  source : String
  category : String
  ds : List (Decorator A)
  hd : ∀ d ∈ ds, d.Tame
  stack : List StdFrame
  ctx' : Ctx A
  tr : Tr A
  acts : List (Act A)
  hnew : newTrace ctx a id source category ds stack = (ctx', tr, acts)
  /-- what it does -/
  body : Fn A
  hbody : body.fits
  orphan : Nat
  hmax : ((kept (body.steps orphan ctx' [])).length : Int) ≤ (Globals.after settings).traceMaxEvents
  /-- what happens -/
  ex : List (AEnv W × Act A)
  w : World A
  hrun : ({ globals := Globals.after settings, cats := Ring.newRBs (cap : Int) } : World A).run ex = some w
  hmine : (ex.map Prod.snd).filter (·.concerns a) = (acts ++ body.acts orphan ctx' ++ if fin then tr.finishActs else []).filter (·.concerns a)
  hid : ∀ env, (env, .make a source category) ∈ ex → env.id = id
  hrecent : ∀ before env after, ex = before ++ (env, .retain category tr) :: after → after.countP (fun p => p.2.retainsIn category) < cap
  /-- the search -/
  compile : Compile
  srt : List Static → List Static
  hs : SortOK srt
  name : String
  req : SearchRequest
  hreq : req.filter = { ids := [id] }
  view : Tr A → Look → Static
  hview : ∀ look, ShownIn (W := W) w a (view tr look)
  hothers : ∀ v look, v.root ≠ a → (view v look).id ≠ id
  rings : List (Ring.RB (Tr A))
  hrings : rings.Perm (w.cats.bufs.map Prod.snd)

/-- What the function says while it has its trace, and when functions that made a trace return, itself excepted. -/
def TracedRun.steps (r : TracedRun W A) : List (Option (Line A)) := r.body.steps r.orphan r.ctx' []

/-- The search returns the trace, and no other. -/
def TracedRun.found (r : TracedRun W A) (st : Static) : Prop :=
  ∃ res, search r.compile r.srt r.name r.req r.view r.rings = some res ∧ res.traces = [st] ∧ res.matchCount = 1 ∧
    st.id = r.id ∧ st.source = r.source ∧ st.category = r.category

/-- The events of the trace are lines, in order, with their texts, times and frames, for the calls `calls`. -/
def Events (st : Static) (lines : List (Line A)) (calls : List (Env W × Call A)) : Prop :=
  st.events.length = lines.length ∧ calls.length = lines.length ∧ (st.errored = true ↔ ∃ l ∈ lines, isErr l.kind = true) ∧
  ∀ (i : Nat) ev l c, st.events[i]? = some ev → lines[i]? = some l → calls[i]? = some c →
    ev.isError = isErr l.kind ∧ ev.when_ = c.1.now ∧ ev.stack <+: programFrames l.stack ∧
    ∃ m : W, ev.what = prefixTexts m l.prefixes ++ sprintf m l.format l.args ∧ (isLazy l.kind = false → m = c.1.w)

/-- C119, exactly.  A search shows an event for each line that is said before the first function that made a trace
returns, and no other; the trace is finished if such a function has returned, the outer one or another, and
its duration ends there. -/
theorem C119_trace_exact (r : TracedRun W A) : ∃ st start calls ended, r.found st ∧
    (start, Act.make r.a r.source r.category) ∈ r.ex ∧ callsOn r.a r.ex = calls ++ ended ∧ st.started = start.now ∧
    Events st (kept r.steps) calls ∧
    (st.finished = true ↔ r.fin = true ∨ none ∈ r.steps) ∧
    (st.finished = true → ended ≠ []) ∧ (∀ e ∈ ended.head?, e.2 = .finish ∧ st.duration = e.1.now.sub start.now) ∧
    (none ∉ r.steps → ended.map Prod.snd = if r.fin then [.finish] else []) := by
  obtain ⟨fin, settings, cap, ctx, hctx, a, id, source, category, ds, hd, stack, ctx', tr, acts, hnew, body, hbody, orphan, hmax, ex, w,
    hrun, hmine, hid, hrecent, compile, srt, hs, name, req, hreq, view, hview, hothers, rings, hrings⟩ := r
  simp only [TracedRun.steps, TracedRun.found]
  obtain ⟨ctx₁, tr₁, acts₁, e0, hg, hroot, hunp, hacts⟩ := newTrace_spec ctx hctx a id source category ds hd stack
  rw [hnew] at e0
  obtain ⟨rfl, rfl, rfl⟩ : ctx' = ctx₁ ∧ tr = tr₁ ∧ acts = acts₁ := by simpa using e0
  have hnil : Fits ([] : List (String × List A)) := fun p hp => by cases hp
  have hst := acts_steps (W := W) hg hunp orphan body hbody (.here (ctx₀ := ctx')) hnil
  have hbel := steps_below orphan body hbody (.here (ctx₀ := ctx')) hnil
  have hdir := steps_direct orphan body ctx' []
  have hlines : ∀ l ∈ kept (body.steps orphan ctx' []), some l ∈ body.steps orphan ctx' [] := by
    intro l hl
    simp only [kept, spoken, List.mem_filterMap, id_eq, exists_eq_right] at hl
    exact (List.takeWhile_sublist _).subset hl
  rw [hroot] at hst
  obtain ⟨steps, hsteps⟩ : ∃ s, body.steps orphan ctx' [] = s := ⟨_, rfl⟩
  rw [hsteps] at hst hbel hdir hlines hmax ⊢
  obtain ⟨rest, r1, r2, r3, r4⟩ := steps_split steps
  have hfc : (if fin then tr.finishActs else []).filter (·.concerns a) = (ending fin).map (Act.call a) := by
    cases fin with
    | true =>
      have := finishActs_concerns tr
      rw [hroot] at this
      exact this
    | false => rfl
  have hlc : ∀ ls : List (Line A), (∀ l ∈ ls, some l ∈ steps) →
      (ls.flatMap Line.acts).filter (·.concerns a) = (ls.map some).map fun s => Act.call a (stepCall s) := by
    intro ls
    induction ls with
    | nil => intro _; rfl
    | cons l ls ih =>
      intro h
      have h1 := h l (by simp)
      have := line_concerns (W := W) hg hunp l (hdir l h1) (hbel l h1).1 (hbel l h1).2
      rw [hroot] at this
      rw [List.flatMap_cons, List.filter_append, this, ih fun l' h' => h l' (by simp [h'])]
      rfl
  have hmine' : (ex.map Prod.snd).filter (·.concerns a) = (acts ++ (kept steps).flatMap Line.acts).filter (·.concerns a) ++
      (rest.map stepCall ++ ending fin).map (Act.call a) := by
    rw [hmine, List.filter_append, List.filter_append, List.filter_append, hst, hfc, hlc _ hlines]
    conv => lhs; rw [r1]
    simp
  have hend : Ending (rest.map stepCall ++ ending fin) := by
    constructor
    · intro c hc
      cases rest with
      | nil => exact (ending_ok fin).1 c (by simpa using hc)
      | cons s rest =>
        obtain rfl : s = none := r2 s (by simp)
        simpa [stepCall, eq_comm] using hc
    · intro c hc
      rcases List.mem_append.mp hc with h | h
      · obtain ⟨s, -, rfl⟩ := List.mem_map.mp h
        cases s <;> simp [stepCall, isRead, Said.call, Op.deco]
      · exact (ending_ok fin).2 c h
  obtain ⟨res, st, start, calls, ended, h1, h2, h3, h4, h5, h6, h7, h8, h9, h10, h11, h12, h13, h14, h15, h16⟩ :=
    found_tail _ hend settings cap ctx hctx a id source category ds hd _ ctx' tr acts hnew (kept steps)
      (fun l hl => hbel l (hlines l hl)) hmax ex w hrun hmine' hid hrecent compile srt hs name req hreq view hview hothers rings hrings
  have hfin : st.finished = true ↔ rest.map stepCall ++ ending fin ≠ [] := by
    rw [h7]
    cases rest.map stepCall ++ ending fin <;> simp
  refine ⟨st, start, calls, ended, ⟨res, h1, h2, h3, h4, h5, h6⟩, h8, h9, h12, ⟨h15, h10, h14, h16⟩, ?_, ?_, ?_, ?_⟩
  · rw [hfin]
    have e1 : ending fin = ([] : List (Call A)) ↔ fin = false := by cases fin <;> simp [ending]
    simp only [ne_eq, List.append_eq_nil_iff, List.map_eq_nil_iff, r3, e1]
    cases fin <;> simp
  · intro hf hn
    subst hn
    exact hfin.mp hf h11.symm
  · intro e he
    exact ⟨ending_finish hend h11 e he, h13 e he⟩
  · intro hn
    rw [h11, r3.mpr hn]
    rfl

/-- C119, what is true.  If nothing is said after a called function that made a trace returns (when such a call is the last
thing to do, or regions are made instead), every line that was said is an event of the trace; and without such
calls, the trace is finished by the function that made it, at the time it returns. -/
theorem C119_trace_partial (r : TracedRun W A) (hlast : Last r.steps) : ∃ st start calls ended, r.found st ∧
    (start, Act.make r.a r.source r.category) ∈ r.ex ∧ callsOn r.a r.ex = calls ++ ended ∧ st.started = start.now ∧
    Events st (spoken r.steps) calls ∧
    (none ∉ r.steps → st.finished = r.fin ∧ (ended.map Prod.snd = if r.fin then [.finish] else []) ∧
      ∀ e ∈ ended, st.duration = e.1.now.sub start.now) := by
  obtain ⟨st, start, calls, ended, h1, h2, h3, h4, h5, h6, h7, h8, h9⟩ := C119_trace_exact r
  rw [(kept_spoken_iff r.steps).mpr hlast] at h5
  refine ⟨st, start, calls, ended, h1, h2, h3, h4, h5, ?_⟩
  intro hn
  have h10 := h9 hn
  refine ⟨?_, h10, ?_⟩
  · have : st.finished = true ↔ r.fin = true := by rw [h6]; simp [hn]
    exact Bool.eq_iff_iff.mpr this
  · intro e he
    refine (h8 e ?_).2
    cases ended with
    | nil => cases he
    | cons q l =>
      have : l = [] := by
        have := congrArg List.length h10
        have h11 : (if r.fin then [.finish] else [] : List (Call A)).length ≤ 1 := by split <;> simp
        simp only [List.map_cons, List.length_cons, List.length_map] at this
        exact List.eq_nil_of_length_eq_zero (by omega)
      subst this
      rw [List.mem_singleton.mp he]
      rfl

/-- C119 is false: whenever a called function that makes a trace has returned, and something is said then, the
trace misses it. -/
theorem C119_trace_violated (r : TracedRun W A) (hlast : ¬ Last r.steps) :
    ∃ st, r.found st ∧ st.events.length < (spoken r.steps).length := by
  obtain ⟨st, start, calls, ended, h1, h2, h3, h4, h5, h6, h7, h8, h9⟩ := C119_trace_exact r
  refine ⟨st, h1, ?_⟩
  rw [h5.1]
  obtain ⟨rest, r1, r2, r3, r4⟩ := steps_split r.steps
  rw [r4, List.length_append]
  have : spoken rest ≠ [] := fun h => hlast ((kept_spoken_iff r.steps).mp (by rw [r4, h, List.append_nil]))
  have := List.length_pos_of_ne_nil this
  omega

/-- And the trace is shown as finished, while the function that made it still runs. -/
theorem C119_early_violated (r : TracedRun W A) (hfin : r.fin = false) (hcall : none ∈ r.steps) :
    ∃ st, r.found st ∧ st.finished = true := by
  obtain ⟨st, start, calls, ended, h1, h2, h3, h4, h5, h6, h7, h8, h9⟩ := C119_trace_exact r
  exact ⟨st, h1, h6.mpr (.inr hcall)⟩

end

end Trc.Wrap

/-! ## Example -/

namespace Trc.Wrap.Witness.Nested

open Core Core.Spec Fmt

def at_ (n : Int) (id : String) : AEnv Unit := { now := ⟨n, none⟩, w := (), id, subscribed := true }

/-- A handler in the middleware calls a function that makes a trace, too, and logs again; both make regions. -/
def inner : Fn String := .region "r" (stack 3) "1ms" (.log .tracef "in %s" ["x"] (stack 3) .skip) .skip

def body : Fn String :=
  .log .tracef "before" [] (stack 3) (.traced 5 "i" "default" "inner" [] (stack 3) inner (.log .errorf "after" [] (stack 3) .skip))

/-- The same, but the function makes only a region. -/
def better : Fn String := .log .tracef "before" [] (stack 3) (.region "inner" (stack 3) "2ms" inner (.log .errorf "after" [] (stack 3) .skip))

def mine : Ctx String × Tr String × List (Act String) := newTrace .background 0 "m" "default" "cat" [logDecorator 1] (stack 2)

def run (b : Fn String) (fin : Bool) : List (AEnv Unit × Act String) :=
  mine.2.2.map (fun act => (at_ 1 "m", act)) ++ (b.acts 9 mine.1).map (fun act => (at_ 2 "", act)) ++
  (if fin then mine.2.1.finishActs else []).map (fun act => (at_ 3 "", act))

def final (b : Fn String) (fin : Bool) : Option (World String) :=
  ({ globals := Globals.after [], cats := Ring.newRBs ((10 : Nat) : Int) } : World String).run (run b fin)

def seen (b : Fn String) (fin : Bool) : Option (CoreTrace String × List Event) := do
  let w ← final b fin
  let t ← w.traces 0
  let evs ← t.events' (at_ 9 "").toEnv
  return (t, evs)

def shown (b : Fn String) (fin : Bool) (v : Tr String) (_ : Look) : Static :=
  if v.root = 0 then ((seen b fin).map fun p => staticOf p.1 (at_ 9 "").now p.2).getD default else default

theorem shown_mine (b : Fn String) (fin : Bool) (w : World String) (hw : final b fin = some w) (hseen : (seen b fin).isSome = true) (look : Look) :
    ShownIn (W := Unit) w 0 (shown b fin mine.2.1 look) := by
  obtain ⟨⟨t, evs⟩, hs⟩ := Option.isSome_iff_exists.mp hseen
  have hs' := hs
  unfold seen at hs'
  rw [hw] at hs'
  obtain ⟨w', hw', hs'⟩ := Option.bind_eq_some_iff.mp hs'
  obtain rfl := Option.some.inj hw'
  obtain ⟨t', ht, hs'⟩ := Option.bind_eq_some_iff.mp hs'
  obtain ⟨evs', he, hs'⟩ := Option.bind_eq_some_iff.mp hs'
  obtain ⟨rfl, rfl⟩ := Prod.mk.inj (Option.some.inj hs')
  refine ⟨t', (at_ 9 "").toEnv, evs', ht, he, ?_⟩
  have h0 : mine.2.1.root = 0 := rfl
  unfold shown
  rw [if_pos h0, hs]
  rfl

def wrong (p : AEnv Unit × Act String) : Bool :=
  match p.2 with
  | .make 0 _ _ => p.1.id != "m"
  | _ => false

/-- The hypotheses are met by any program that stays within the limit. -/
def traced (b : Fn String) (hb : b.fits) (fin : Bool) (w : World String) (hw : final b fin = some w) (hseen : (seen b fin).isSome = true)
    (hmax : ((kept (b.steps 9 mine.1 [])).length : Int) ≤ (Globals.after []).traceMaxEvents)
    (hids : (run b fin).any wrong = false) (hcount : (run b fin).countP (fun p => p.2.retainsIn "cat") = 1) : TracedRun Unit String where
  fin := fin
  settings := []
  cap := 10
  ctx := .background
  hctx := rfl
  a := 0
  id := "m"
  source := "default"
  category := "cat"
  ds := [logDecorator 1]
  hd := by intro d hd; rw [List.mem_singleton.mp hd]; exact logDecorator_tame 1
  stack := stack 2
  ctx' := mine.1
  tr := mine.2.1
  acts := mine.2.2
  hnew := by rw [mine]
  body := b
  hbody := hb
  orphan := 9
  hmax := hmax
  ex := run b fin
  w := w
  hrun := by rw [final] at hw; exact hw
  hmine := by unfold run; simp only [List.map_append, List.map_map, Function.comp_def, List.map_id']
  hid := by
    intro e he
    have h := List.any_eq_false.mp hids _ he
    simpa [wrong] using h
  hrecent := by
    intro before e after h
    rw [h, List.countP_append, List.countP_cons] at hcount
    omega
  compile := fun _ => .error ""
  srt := sortNewest
  hs := sortNewest_ok
  name := "s"
  req := { filter := { ids := ["m"] } }
  hreq := rfl
  view := shown b fin
  hview := shown_mine b fin w hw hseen
  hothers := by
    intro v look hv
    unfold shown
    rw [if_neg hv]
    decide
  rings := w.cats.bufs.map Prod.snd
  hrings := List.Perm.refl _

theorem body_some : (final body true).isSome = true := by decide +kernel

theorem better_some : (final better true).isSome = true := by decide +kernel

/-- Five of six lines are kept: the trace ends when the inner function returns. -/
example : ∃ (r : TracedRun Unit String) (st : Static), r.body = body ∧ r.found st ∧ st.events.length < (spoken r.steps).length := by
  obtain ⟨w, hw⟩ := Option.isSome_iff_exists.mp body_some
  obtain ⟨st, h1, h2⟩ := C119_trace_violated (traced body ⟨⟨trivial, trivial⟩, trivial⟩ true w hw (by decide +kernel) (by decide) (by decide +kernel) (by decide +kernel))
    (by
      intro h
      have h' := h ((body.steps 9 mine.1 []).take 5) [_] rfl
      cases h')
  exact ⟨_, st, rfl, h1, h2⟩

/-- With a region, all seven are. -/
example : ∃ (r : TracedRun Unit String) (st : Static), r.body = better ∧ r.found st ∧ st.events.length = 7 ∧ st.finished = true := by
  obtain ⟨w, hw⟩ := Option.isSome_iff_exists.mp better_some
  obtain ⟨st, start, calls, ended, h1, -, -, -, h5, h6⟩ :=
    C119_trace_partial (traced better ⟨⟨trivial, trivial⟩, trivial⟩ true w hw (by decide +kernel) (by decide) (by decide +kernel) (by decide +kernel))
    (by
      refine (kept_spoken_iff _).mp rfl)
  exact ⟨_, st, rfl, h1, h5.1, (h6 (by
    show (none : Option (Line String)) ∉ better.steps 9 mine.1 []
    intro h
    have : (better.steps 9 mine.1 []).any Option.isNone = true := List.any_eq_true.mpr ⟨_, h, rfl⟩
    exact absurd this (by decide))).1⟩

example : (seen body true).map (fun p => (p.2.map fun ev => ev.what, p.1.duration)) =
    some (["before", "(+ inner)", "→ r", "· in x", "← r [1ms]"], 1) := by decide +kernel

example : (seen better true).map (fun p => (p.2.map fun ev => ev.what, p.1.duration)) =
    some (["before", "→ inner", "· → r", "· · in x", "· ← r [1ms]", "← inner [2ms]", "after"], 2) := by decide +kernel

end Trc.Wrap.Witness.Nested
