import Verif.Props.Wrap

/-!
# Properties of prefixes and regions: C56, C58

Texts are formatted with the model of `fmt.Sprintf` in `Verif/Wrap/Fmt.lean`.
-/

set_option linter.unusedSectionVars false
set_option linter.unusedVariables false
set_option linter.unusedSimpArgs false

namespace Trc.Wrap

open Core Core.Spec Fmt

/-- A logging call through a trace. -/
structure Said (A : Type) where
  tr : Tr A
  kind : LogKind
  format : String
  args : List A
  stack : List StdFrame

section
variable {W A : Type} [Sys W A] [Arg A] [Humanize]

def Said.acts (s : Said A) : List (Act A) := s.tr.logActs s.kind s.format s.args s.stack

def Said.call (s : Said A) : Call A := (Op.log s.kind s.format s.args s.stack).deco s.tr

theorem said_calls (a : Nat) (said : List (Said A)) (h : ∀ s ∈ said, s.tr.root = a) :
    callsIn a (said.flatMap Said.acts) = said.map Said.call := by
  have := program_calls a (said.map fun s => (s.tr, Op.log s.kind s.format s.args s.stack)) (by
    intro p hp
    simp only [List.mem_map] at hp
    obtain ⟨s, hs, rfl⟩ := hp
    exact h s hs)
  rw [List.flatMap_map, List.map_map] at this
  exact this

theorem logs_said (said : List (Said A)) (envs : List (Env W)) :
    limitsSet (active (envs.zip (said.map Said.call))) = [] ∧
    ∀ (i : Nat) e s, (logged (envs.zip (said.map Said.call)))[i]? = some e → said[i]? = some s →
      some e = (envs[i]?).map fun env => Item.deco ⟨s.tr, s.kind, s.format, s.args, s.stack, env⟩ := by
  induction said generalizing envs with
  | nil => cases envs <;> simp [active, limitsSet]
  | cons s said ih =>
    cases envs with
    | nil => simp [active, limitsSet, logged, logs]
    | cons env envs =>
      obtain ⟨h1, h2⟩ := ih envs
      simp only [List.map_cons, List.zip_cons_cons]
      refine ⟨by simpa [Said.call, Op.deco, active, limitsSet] using h1, ?_⟩
      intro i e s' he hs
      cases i with
      | zero =>
        simp only [Said.call, Op.deco, logged, active, logs, List.getElem?_cons_zero, Option.some.injEq] at he hs
        subst he hs
        rfl
      | succ i =>
        simp only [Said.call, Op.deco, logged, active, logs, List.getElem?_cons_succ] at he hs
        simpa using h2 i e s' he hs

theorem logged_said_length (said : List (Said A)) (envs : List (Env W)) (h : envs.length = said.length) :
    (logged (envs.zip (said.map Said.call))).length = said.length := by
  induction said generalizing envs with
  | nil => cases envs <;> rfl
  | cons s said ih =>
    cases envs with
    | nil => simp at h
    | cons env envs =>
      have := ih envs (by simpa using h)
      simpa [Said.call, Op.deco, logged, active, logs] using this

/-- The events of a trace after logging calls through wrappers. -/
theorem said_events (settings : List Setting) (start : Time) (id source category : String) (old : CoreTrace A)
    (w w' : World A) (ex : List (AEnv W × Act A)) (said : List (Said A)) (a : Nat)
    (hroot : ∀ s ∈ said, s.tr.root = a)
    (hex : callsIn a (ex.map Prod.snd) = callsIn a (said.flatMap Said.acts))
    (hm : ∀ p ∈ ex, notMake a p.2) (hrun : w.run ex = some w')
    (ht : w.traces a = some (fresh settings start id source category old))
    (hlen : (said.length : Int) ≤ (Globals.after settings).traceMaxEvents) (env : Env W) :
    ∃ t evs, w'.traces a = some t ∧ t.events' env = some evs ∧ evs.length = said.length ∧
      (callsOn a ex).length = said.length ∧
      ∀ (i : Nat) ev s c, evs[i]? = some ev → said[i]? = some s → (callsOn a ex)[i]? = some c →
        Reports (Globals.after settings).traceNoStacks ev (Item.deco ⟨s.tr, s.kind, s.format, s.args, s.stack, c.1⟩) := by
  rw [fresh_conc (W := W)] at ht
  obtain ⟨h, t', r1, r2, r3⟩ := run_hist hrun ht hm
  rw [run_conc] at r1
  obtain rfl := (Option.some.inj r1).symm
  refine ⟨_, _, r2, events'_conc _ _ env, ?_⟩
  have hc : callsOn a ex = ((callsOn a ex).map Prod.fst).zip (said.map Said.call) := by
    rw [← said_calls a said hroot, ← hex, ← callsOn_snd]
    exact (zip_fst_snd _).symm
  have hcl : (callsOn a ex).length = said.length := by
    have h1 := congrArg List.length (callsOn_snd a ex)
    rw [hex, said_calls a said hroot] at h1
    simpa using h1
  obtain ⟨g1, g2⟩ := logs_said said ((callsOn a ex).map Prod.fst)
  have g3 := logged_said_length said ((callsOn a ex).map Prod.fst) (by simpa using hcl)
  rw [← hc] at g1 g2 g3
  have s1 := (SameBut.refl (Abs.new (Globals.after settings).traceMaxEvents : Abs W A)).run h
  rw [r3] at s1
  obtain ⟨e1, e2⟩ := run_stored_all (a := (Abs.new (Globals.after settings).traceMaxEvents : Abs W A)) rfl
    said.length (callsOn a ex) (by rw [g1]; simp) hlen (by simp [Abs.new, g3]) rfl
  simp only [Abs.new, List.map_nil, List.nil_append] at e1
  generalize hx : (Abs.new (Globals.after settings).traceMaxEvents : Abs W A).run h = x at s1 r2 ⊢
  have k1 : x.stored.map Stored.entry = logged (callsOn a ex) := s1.entries.trans e1
  have k2 : x.trunc = 0 := s1.trunc.trans e2
  rw [read_all]
  simp only [k2, Nat.lt_irrefl, gt_iff_lt, if_false, List.length_map]
  refine ⟨by rw [← g3, ← k1]; simp, hcl, ?_⟩
  intro i ev s c hev hs hcc
  simp only [List.getElem?_map, Option.map_eq_some_iff] at hev
  obtain ⟨st, hst, rfl⟩ := hev
  have he : (logged (callsOn a ex))[i]? = some st.entry := by rw [← k1]; simp [hst]
  have := g2 i st.entry s he hs
  simp only [List.getElem?_map, hcc, Option.map_some, Option.some.injEq] at this
  rw [← this]
  exact event_reports (freshBase settings start id source category) st env.w

/-- The stack reported through wrappers, for callers that are not in this package. -/
theorem stack_through (tr : Tr A) (kind : LogKind) (stack : List StdFrame)
    (hs : ∀ fr ∈ stack, ignoreStackFrameFunction fr.function = false) :
    stackOf false ((tr.frames kind ++ stack).take 8) = ((stack.take (8 - tr.depth)).dropLast).map toFrame := by
  have hi := frames_ignored tr kind
  have hl := frames_length tr kind
  unfold stackOf
  simp only [Bool.false_eq_true, if_false]
  congr 1
  rw [List.take_append, hl]
  have hkeep : ∀ l : List StdFrame, (∀ fr ∈ l, fr ∈ stack) → l.filter (fun fr => !ignoreStackFrameFunction fr.function) = l := by
    intro l h
    rw [List.filter_eq_self]
    intro fr hfr
    simp [hs fr (h fr hfr)]
  have hdrop : ∀ l : List StdFrame, (∀ fr ∈ l, fr ∈ tr.frames kind) → l.filter (fun fr => !ignoreStackFrameFunction fr.function) = [] := by
    intro l h
    rw [List.filter_eq_nil_iff]
    intro fr hfr
    simp [hi fr (h fr hfr)]
  by_cases hy : stack.take (8 - tr.depth) = []
  · rw [hy, List.append_nil, List.dropLast_nil]
    exact hdrop _ fun fr hfr => List.mem_of_mem_take ((List.dropLast_sublist _).subset hfr)
  · rw [List.dropLast_append_of_ne_nil hy, List.filter_append, hdrop _ (fun fr hfr => List.mem_of_mem_take hfr), List.nil_append]
    exact hkeep _ fun fr hfr => List.mem_of_mem_take ((List.dropLast_sublist _).subset hfr)

/-- C59, exactly what becomes of the stacks of calls from outside this package: each wrapper costs one of the eight
frames that are captured, and the last one captured is not shown.  So the stack is that of a core trace exactly if there
is no wrapper, or the callers and the wrappers are no more than eight, or there is but one caller. -/
theorem C59_stack_exact (settings : List Setting) (start : Time) (id source category : String) (old : CoreTrace A)
    (w w' : World A) (ex : List (AEnv W × Act A)) (said : List (Said A)) (a : Nat)
    (hroot : ∀ s ∈ said, s.tr.root = a)
    (hex : callsIn a (ex.map Prod.snd) = callsIn a (said.flatMap Said.acts))
    (hm : ∀ p ∈ ex, notMake a p.2) (hrun : w.run ex = some w')
    (ht : w.traces a = some (fresh settings start id source category old))
    (hlen : (said.length : Int) ≤ (Globals.after settings).traceMaxEvents)
    (hstacks : (Globals.after settings).traceNoStacks = false)
    (hs : ∀ s ∈ said, ∀ fr ∈ s.stack, ignoreStackFrameFunction fr.function = false) (env : Env W) :
    ∃ t evs, w'.traces a = some t ∧ t.events' env = some evs ∧ evs.length = said.length ∧
      ∀ (i : Nat) ev s, evs[i]? = some ev → said[i]? = some s →
        ev.stack = ((s.stack.take (8 - s.tr.depth)).dropLast).map toFrame ∧
        (ev.stack = ((s.stack.take 8).dropLast).map toFrame ↔
          s.tr.depth = 0 ∨ s.stack.length ≤ 1 ∨ s.stack.length + s.tr.depth ≤ 8) := by
  obtain ⟨t, evs, h1, h2, h3, h4, h5⟩ := said_events settings start id source category old w w' ex said a hroot hex hm hrun ht hlen env
  refine ⟨t, evs, h1, h2, h3, fun i ev s hev hsi => ?_⟩
  have hi : i < said.length := (List.getElem?_eq_some_iff.mp hsi).1
  obtain ⟨c, hc⟩ : ∃ c, (callsOn a ex)[i]? = some c := ⟨_, List.getElem?_eq_getElem (by omega)⟩
  obtain ⟨_, _, r3, _⟩ := h5 i ev s c hev hsi hc
  rw [hstacks] at r3
  have e := r3.trans (stack_through s.tr s.kind s.stack (hs s (List.mem_of_getElem? hsi)))
  refine ⟨e, ?_⟩
  rw [e]
  constructor
  · intro h
    have := congrArg List.length h
    simp only [List.length_map, List.length_dropLast, List.length_take] at this
    omega
  · intro h
    congr 1
    rcases h with h | h | h
    · rw [h]
    · have k : ∀ l : List StdFrame, l.length ≤ 1 → l.dropLast = [] := by
        intro l hl
        exact List.eq_nil_of_length_eq_zero (by rw [List.length_dropLast]; omega)
      rw [k _ (by rw [List.length_take]; omega), k _ (by rw [List.length_take]; omega)]
    · rw [List.take_of_length_le (by omega), List.take_of_length_le (by omega)]

end

variable {W A : Type} [Render W A] [Arg A] [Humanize]

/-! ## C56 -/

/-- The trace is the base, with prefixes put on by `Prefix`, outermost first, each on a context that
carries the trace so far. -/
inductive Under (base : Tr A) : Tr A → List (String × List A) → Prop
  | base : Under base base []
  | pre {tr : Tr A} {ps : List (String × List A)} (ctx : Ctx A) (orphan : Nat) (format : String) (args : List A) :
    Under base tr ps → maybeGet ctx = some tr → Under base (prefixed ctx orphan format args).2.1 (ps ++ [(format, args)])

/-- The text of a prefix: formatted without surrounding space, and a space; nothing if blank. -/
def prefixText (w : W) (p : String × List A) : String :=
  if trimSpace p.1 = "" then "" else sprintf w (trimSpace p.1) p.2 ++ " "

/-- The text of nested prefixes. -/
def prefixTexts (w : W) : List (String × List A) → String
  | [] => ""
  | p :: ps => prefixText w p ++ prefixTexts w ps

theorem prefixTexts_append (w : W) (ps qs : List (String × List A)) :
    prefixTexts w (ps ++ qs) = prefixTexts w ps ++ prefixTexts w qs := by
  induction ps with
  | nil => simp [prefixTexts]
  | cons p ps ih => simp [prefixTexts, ih, String.append_assoc]

/-- The verbs of each prefix take its arguments. -/
def Fits (ps : List (String × List A)) : Prop := ∀ p ∈ ps, Takes (trimSpace p.1) p.2.length ∧ (trimSpace p.1 = "" → p.2 = [])

theorem under_text {base tr : Tr A} {ps : List (String × List A)} (h : Under base tr ps) (hb : base.unprefixed)
    (hf : Fits ps) : Takes tr.pformat tr.pargs.length ∧ tr.root = base.root ∧
      ∀ w : W, sprintf w tr.pformat tr.pargs = prefixTexts w ps := by
  induction h with
  | base =>
    obtain ⟨e1, e2⟩ := unprefixed_nil hb
    rw [e1, e2]
    exact ⟨rfl, rfl, fun w => rfl⟩
  | @pre tr ps ctx orphan format args hu hg ih =>
    obtain ⟨i1, i2, i3⟩ := ih (fun p hp => hf p (by simp [hp]))
    obtain ⟨f1, f2⟩ := hf (format, args) (by simp)
    simp only [prefixed, get, hg]
    by_cases he : trimSpace format = ""
    · simp only [if_pos he]
      refine ⟨i1, i2, fun w => ?_⟩
      rw [i3 w, prefixTexts_append]
      simp [prefixTexts, prefixText, he]
    · simp only [if_neg he, put, Tr.pformat, Tr.pargs, Tr.root]
      have ht : Takes (trimSpace format ++ " ") args.length := takes_append f1 (takes_plain " " (by decide))
      refine ⟨by rw [List.length_append]; exact takes_append i1 ht, i2, fun w => ?_⟩
      rw [sprintf_append w _ _ _ _ i1, i3 w, prefixTexts_append]
      have e2 : sprintf w (trimSpace format ++ " ") args = sprintf w (trimSpace format) args ++ " " := by
        have := sprintf_append w (trimSpace format) " " args [] f1
        rw [List.append_nil] at this
        rw [this, sprintf_plain w " " (by decide)]
      simp [prefixTexts, prefixText, he, e2]

/-- C56.  Logging calls go through traces that `Prefix` made, any number of times and in any way, from
traces around the core trace at `a`, up to its event limit; the actions on `a` are those of these
calls, and anything else may happen in between.  Then the events are those calls', in order, and
the text of each is that of the prefixes of the trace it was logged through (none for the original
traces), outermost first, followed by its own; formatted at the call unless it was lazy. -/
theorem C56_prefix (settings : List Setting) (start : Time) (id source category : String) (old : CoreTrace A)
    (w w' : World A) (ex : List (AEnv W × Act A)) (said : List (Said A)) (a : Nat)
    (hroot : ∀ s ∈ said, s.tr.root = a)
    (hex : callsIn a (ex.map Prod.snd) = callsIn a (said.flatMap Said.acts))
    (hm : ∀ p ∈ ex, notMake a p.2) (hrun : w.run ex = some w')
    (ht : w.traces a = some (fresh settings start id source category old))
    (hlen : (said.length : Int) ≤ (Globals.after settings).traceMaxEvents) (env : Env W) :
    ∃ t evs, w'.traces a = some t ∧ t.events' env = some evs ∧ evs.length = said.length ∧
      (callsOn a ex).length = said.length ∧
      ∀ (i : Nat) ev s c, evs[i]? = some ev → said[i]? = some s → (callsOn a ex)[i]? = some c →
        ev.isError = isErr s.kind ∧ ev.when_ = c.1.now ∧
        ∀ base ps, Under base s.tr ps → base.unprefixed → Fits ps →
          ∃ m : W, ev.what = prefixTexts m ps ++ sprintf m s.format s.args ∧ (isLazy s.kind = false → m = c.1.w) := by
  obtain ⟨t, evs, h1, h2, h3, h4, h5⟩ := said_events settings start id source category old w w' ex said a hroot hex hm hrun ht hlen env
  refine ⟨t, evs, h1, h2, h3, h4, ?_⟩
  intro i ev s c he hs hc
  have r := h5 i ev s c he hs hc
  refine ⟨r.2.1, r.1, ?_⟩
  intro base ps hu hb hf
  obtain ⟨u1, u2, u3⟩ := under_text (W := W) hu hb hf
  have key : ∀ m : W, (Sys.sprintf m (Item.deco (W := W) ⟨s.tr, s.kind, s.format, s.args, s.stack, c.1⟩).format
      (Item.deco (W := W) ⟨s.tr, s.kind, s.format, s.args, s.stack, c.1⟩).args) = prefixTexts m ps ++ sprintf m s.format s.args := by
    intro m
    show sprintf m (s.tr.pformat ++ s.format) (s.tr.pargs ++ s.args) = _
    rw [sprintf_append m _ _ _ _ u1, u3 m]
  cases hz : isLazy s.kind with
  | false => exact ⟨c.1.w, (r.2.2.2.1 hz).trans (key _), fun _ => rfl⟩
  | true =>
    obtain ⟨m, hm⟩ := r.2.2.2.2
    exact ⟨m, hm.trans (key m), fun h => by simp at h⟩

/-! ## C58 -/

/-- A program that logs and uses regions and prefixes, in the way of
`ctx, tr, finish := trc.Region(ctx, name); defer finish()`. -/
inductive Prog (A : Type) where
  | done
  | log (kind : LogKind) (format : String) (args : List A) (stack : List StdFrame) (next : Prog A)
  | region (name : String) (took : String) (stack : List StdFrame) (body next : Prog A)
  | pre (format : String) (args : List A) (body next : Prog A)

/-- What it does, on a context; the orphans are those `Get` would make. -/
def Prog.acts (ctx : Ctx A) (orphan : Nat) : Prog A → List (Act A)
  | .done => []
  | .log kind format args stack next =>
    (get ctx orphan).2 ++ (get ctx orphan).1.logActs kind format args stack ++ next.acts ctx orphan
  | .region name took stack body next =>
    let r := Wrap.region ctx orphan orphan name stack
    r.2.2.1 ++ body.acts r.1 orphan ++ r.2.2.2 took ++ next.acts ctx orphan
  | .pre format args body next =>
    let p := prefixed ctx orphan format args
    p.2.2 ++ body.acts p.1 orphan ++ next.acts ctx orphan

/-- The text that brackets are to have. -/
def enter (name : String) : String := "→ " ++ name
def leave (name took : String) : String := "← " ++ name ++ " [" ++ took ++ "]"

/-- The texts of the events a program is to log: those of a region's body between the brackets of
the region, with one more dot. -/
def Prog.lines : Prog A → List (W → String)
  | .done => []
  | .log _ format args _ next => (fun m => sprintf m format args) :: next.lines
  | .region name took _ body next =>
    (fun _ => enter name) :: body.lines.map (fun l m => "· " ++ l m) ++ (fun _ => leave name took) :: next.lines
  | .pre format args body next => body.lines.map (fun l m => prefixText m (format, args) ++ l m) ++ next.lines

/-- Region names have no percent sign; prefixes have the arguments their verbs take. -/
def Prog.ok : Prog A → Prop
  | .done => True
  | .log _ _ _ _ next => next.ok
  | .region name _ _ body next => '%' ∉ name.toList ∧ body.ok ∧ next.ok
  | .pre format args body next => Takes (trimSpace format) args.length ∧ (trimSpace format = "" → args = []) ∧ body.ok ∧ next.ok

/-- The logging calls of a program. -/
def Prog.said (ctx : Ctx A) (tr : Tr A) (orphan : Nat) : Prog A → List (Said A)
  | .done => []
  | .log kind format args stack next => ⟨tr, kind, format, args, stack⟩ :: next.said ctx tr orphan
  | .region name took stack body next =>
    let p := prefixed ctx orphan "·" []
    ⟨tr, .lazyTracef, "→ " ++ name, [], stack⟩ :: body.said p.1 p.2.1 orphan ++
      ⟨tr, .lazyTracef, "← " ++ name ++ " [%s]", [Arg.str took], stack⟩ :: next.said ctx tr orphan
  | .pre format args body next =>
    let p := prefixed ctx orphan format args
    body.said p.1 p.2.1 orphan ++ next.said ctx tr orphan

theorem maybeGet_prefixed {ctx : Ctx A} {tr : Tr A} (h : maybeGet ctx = some tr) (orphan : Nat) (format : String) (args : List A) :
    maybeGet (prefixed ctx orphan format args).1 = some (prefixed ctx orphan format args).2.1 ∧
      (prefixed ctx orphan format args).2.2 = [] := by
  simp only [prefixed, get, h]
  by_cases he : trimSpace format = ""
  · simp [he, h]
  · simp [he, put, maybeGet, Ctx.value]

theorem prog_acts (ctx : Ctx A) (tr : Tr A) (orphan : Nat) (p : Prog A) (h : maybeGet ctx = some tr) :
    p.acts ctx orphan = (p.said ctx tr orphan).flatMap Said.acts := by
  induction p generalizing ctx tr with
  | done => rfl
  | log kind format args stack next ih => simp [Prog.acts, Prog.said, get, h, ih ctx tr h, Said.acts]
  | region name took stack body next ih1 ih2 =>
    obtain ⟨m1, m2⟩ := maybeGet_prefixed h orphan "·" []
    simp only [Prog.acts, Prog.said, Wrap.region, List.flatMap_cons, List.flatMap_append, ih1 _ _ m1, ih2 _ _ h, m2, get, h,
      Said.acts, List.nil_append]
    simp [List.append_assoc]
  | pre format args body next ih1 ih2 =>
    obtain ⟨m1, m2⟩ := maybeGet_prefixed h orphan format args
    simp only [Prog.acts, Prog.said, List.flatMap_append, ih1 _ _ m1, ih2 _ _ h, m2, List.nil_append]

/-- How a string is rendered by `%s`. -/
def RendersStrings (W A : Type) [Render W A] [Arg A] : Prop :=
  ∀ (w : W) (s : String), Render.arg w [] 's' (Arg.str s : A) = s.toList

theorem trim_dot : trimSpace "·" = "·" := by decide

/-- What was said under given prefixes has the given text after those prefixes. -/
def Reads (base : Tr A) (ps : List (String × List A)) (s : Said A) (l : W → String) : Prop :=
  ∃ qs, Under base s.tr qs ∧ Fits qs ∧ ∀ m : W, prefixTexts m qs ++ sprintf m s.format s.args = prefixTexts m ps ++ l m

theorem Match.map_right {α β γ : Type} {R : α → γ → Prop} {l : List α} {l' : List β} {f : β → γ}
    (h : Match (fun x y => R x (f y)) l l') : Match R l (l'.map f) := by
  refine ⟨by simp [h.1], fun i x y hx hy => ?_⟩
  simp only [List.getElem?_map, Option.map_eq_some_iff] at hy
  obtain ⟨z, hz, rfl⟩ := hy
  exact h.2 i x z hx hz

theorem Match.cons {α β : Type} {R : α → β → Prop} {x : α} {y : β} {l : List α} {l' : List β} (hxy : R x y) (h : Match R l l') :
    Match R (x :: l) (y :: l') := by
  refine ⟨by simp [h.1], fun i a b ha hb => ?_⟩
  cases i with
  | zero =>
    simp only [List.getElem?_cons_zero, Option.some.injEq] at ha hb
    subst ha hb; exact hxy
  | succ i =>
    simp only [List.getElem?_cons_succ] at ha hb
    exact h.2 i a b ha hb

theorem leave_text (hr : RendersStrings W A) (m : W) (name took : String) (h : '%' ∉ name.toList) :
    sprintf m ("← " ++ name ++ " [%s]") [(Arg.str took : A)] = leave name took := by
  have h1 : '%' ∉ ("← " ++ name ++ " [").toList := by
    simp only [String.toList_append, List.mem_append, not_or]
    exact ⟨⟨by decide, h⟩, by decide⟩
  have e : "← " ++ name ++ " [%s]" = ("← " ++ name ++ " [") ++ ("%s" ++ "]") := by
    simp only [String.append_assoc]; rfl
  have := sprintf_append m ("← " ++ name ++ " [") ("%s" ++ "]") ([] : List A) [Arg.str took] (takes_plain _ h1)
  rw [List.nil_append] at this
  rw [e, this, sprintf_plain m _ h1]
  have t := sprintf_append m "%s" "]" [(Arg.str took : A)] [] (show Takes "%s" 1 by decide)
  rw [List.append_nil] at t
  rw [t, sprintf_plain m "]" (by decide)]
  have k : sprintf m "%s" [(Arg.str took : A)] = took := by
    have : sprintf m "%s" [(Arg.str took : A)] = String.ofList (Render.arg m [] 's' (Arg.str took : A) ++ []) := rfl
    rw [this, hr, List.append_nil, String.ofList_toList]
  rw [k]
  simp [leave, String.append_assoc]

theorem enter_text (m : W) (name : String) (h : '%' ∉ name.toList) : sprintf (A := A) m ("→ " ++ name) [] = enter name := by
  rw [sprintf_plain m _ (by simp only [String.toList_append, List.mem_append, not_or]; exact ⟨by decide, h⟩)]
  rfl

/-- Texts of what was said. -/
theorem prog_texts (hr : RendersStrings W A) (base : Tr A) (hb : base.unprefixed) (ctx : Ctx A) (tr : Tr A) (orphan : Nat)
    (ps : List (String × List A)) (p : Prog A) (h : maybeGet ctx = some tr) (hu : Under base tr ps) (hf : Fits ps) (hok : p.ok) :
    Match (Reads (W := W) base ps) (p.said ctx tr orphan) p.lines := by
  induction p generalizing ctx tr ps with
  | done => exact ⟨rfl, by simp [Prog.said]⟩
  | log kind format args stack next ih =>
    exact Match.cons ⟨ps, hu, hf, fun m => rfl⟩ (ih ctx tr ps h hu hf hok)
  | region name took stack body next ih1 ih2 =>
    obtain ⟨m1, m2⟩ := maybeGet_prefixed h orphan "·" []
    obtain ⟨k1, k2, k3⟩ := hok
    have hf' : Fits (ps ++ [("·", ([] : List A))]) := by
      intro q hq
      rcases List.mem_append.mp hq with hq | hq
      · exact hf q hq
      · simp only [List.mem_singleton] at hq; subst hq; exact ⟨(show Takes (trimSpace "·") 0 by decide), fun _ => rfl⟩
    simp only [Prog.said, Prog.lines]
    refine Match.append (Match.cons ⟨ps, hu, hf, fun m => by rw [enter_text m name k1]⟩ ?_)
      (Match.cons ⟨ps, hu, hf, fun m => by rw [leave_text hr m name took k1]⟩ (ih2 ctx tr ps h hu hf k3))
    apply Match.map_right
    refine (ih1 _ _ _ m1 (Under.pre ctx orphan "·" [] hu h) hf' k2).mono fun s l hsl => ?_
    obtain ⟨qs, u1, u2, u3⟩ := hsl
    refine ⟨qs, u1, u2, fun m => ?_⟩
    rw [u3 m, prefixTexts_append]
    have : prefixTexts m [("·", ([] : List A))] = "· " := by
      simp only [prefixTexts, prefixText, trim_dot]
      rw [if_neg (by decide), sprintf_plain m "·" (by decide)]
      rfl
    rw [this, String.append_assoc]
  | pre format args body next ih1 ih2 =>
    obtain ⟨m1, m2⟩ := maybeGet_prefixed h orphan format args
    obtain ⟨k1, k1', k2, k3⟩ := hok
    have hf' : Fits (ps ++ [(format, args)]) := by
      intro q hq
      rcases List.mem_append.mp hq with hq | hq
      · exact hf q hq
      · simp only [List.mem_singleton] at hq; subst hq; exact ⟨k1, k1'⟩
    simp only [Prog.said, Prog.lines]
    refine Match.append (Match.map_right ?_) (ih2 ctx tr ps h hu hf k3)
    refine (ih1 _ _ _ m1 (Under.pre ctx orphan format args hu h) hf' k2).mono fun s l hsl => ?_
    obtain ⟨qs, u1, u2, u3⟩ := hsl
    refine ⟨qs, u1, u2, fun m => ?_⟩
    rw [u3 m, prefixTexts_append]
    simp [prefixTexts, String.append_assoc]

theorem said_roots (base : Tr A) (hb : base.unprefixed) {s : Said A} {ps : List (String × List A)} {l : W → String}
    (h : Reads (W := W) base ps s l) : s.tr.root = base.root := by
  obtain ⟨qs, u1, u2, u3⟩ := h
  exact (under_text (W := W) u1 hb u2).2.1

/-- C58.  A program of logging calls, regions and prefixes, nested in any way, runs on a context that
carries a trace `base` around the core trace at `a`; anything else may happen in between.  Then the
events of `a` are, in order, those of the program, where the events of the body of each region come
between its arrows, with one more dot in front. -/
theorem C58_regions_partial (hr : RendersStrings W A) (settings : List Setting) (start : Time) (id source category : String)
    (old : CoreTrace A) (w w' : World A) (ex : List (AEnv W × Act A)) (ctx : Ctx A) (base : Tr A) (orphan : Nat) (p : Prog A)
    (hctx : maybeGet ctx = some base) (hb : base.unprefixed) (hok : p.ok)
    (hex : callsIn base.root (ex.map Prod.snd) = callsIn base.root (p.acts ctx orphan))
    (hm : ∀ p ∈ ex, notMake base.root p.2) (hrun : w.run ex = some w')
    (ht : w.traces base.root = some (fresh settings start id source category old))
    (hlen : (p.lines.length (α := W → String) : Int) ≤ (Globals.after settings).traceMaxEvents) (env : Env W) :
    ∃ t evs, w'.traces base.root = some t ∧ t.events' env = some evs ∧
      Match (fun ev (l : W → String) => ∃ m : W, ev.what = l m) evs p.lines := by
  rw [prog_acts ctx base orphan p hctx] at hex
  have hmatch := prog_texts hr base hb ctx base orphan [] p hctx Under.base (by intro q hq; simp at hq) hok
  have hroot : ∀ s ∈ p.said ctx base orphan, s.tr.root = base.root := by
    intro s hs
    obtain ⟨i, hi, rfl⟩ := List.getElem_of_mem hs
    have hi' : i < (p.lines (W := W)).length := hmatch.1 ▸ hi
    exact said_roots base hb (hmatch.2 i _ _ (List.getElem?_eq_getElem hi) (List.getElem?_eq_getElem hi'))
  obtain ⟨t, evs, h1, h2, h3, h4, h5⟩ := C56_prefix settings start id source category old w w' ex _ base.root hroot hex hm hrun ht
    (by rw [hmatch.1]; exact hlen) env
  refine ⟨t, evs, h1, h2, h3.trans hmatch.1, ?_⟩
  intro i ev l hev hl
  have hi : i < evs.length := (List.getElem?_eq_some_iff.mp hev).1
  have hs : i < (p.said ctx base orphan).length := h3 ▸ hi
  have hc : i < (callsOn base.root ex).length := by rw [h4]; exact hs
  obtain ⟨_, _, k⟩ := h5 i ev _ _ hev (List.getElem?_eq_getElem hs) (List.getElem?_eq_getElem hc)
  obtain ⟨qs, u1, u2, u3⟩ := hmatch.2 i _ l (List.getElem?_eq_getElem hs) hl
  obtain ⟨m, hm', _⟩ := k base qs u1 hb u2
  refine ⟨m, ?_⟩
  rw [hm', u3 m]
  simp [prefixTexts]

end Trc.Wrap

namespace Trc.Wrap.Witness

open Core Core.Spec Fmt

/-- A case of `C59_stack_exact`: through three wrappers, the stack of six callers is short of one. -/
example : ∃ e e', events (.core 0) (stack 6) = some [e] ∧ events (.log (.publish (.pre (.core 0) "" [])) "id" 1) (stack 6) = some [e'] ∧
    e.stack.length = 5 ∧ e'.stack.length = 4 ∧ (∀ fr ∈ stack 6, ignoreStackFrameFunction fr.function = false) :=
  ⟨_, _, rfl, rfl, rfl, rfl, by decide⟩

/-- The texts of the events after a program on a new trace. -/
def run (ctx : Ctx String) (p : Prog String) : Option (List String) :=
  ((({} : World String).run ((env 1, .make 0 "s" "c") :: (p.acts ctx 1).map fun act => (env 2, act))).bind fun w =>
    (w.traces 0).bind fun t => t.events' (env 3).toEnv).map fun evs => evs.map (·.what)

def ctx : Ctx String := (put .background (.publish (.core 0))).1

def prog : Prog String :=
  .log .tracef "a %s" ["1"] [] <|
  .region "outer" "5ms" [] (.log .errorf "b" [] [] <| .region "inner" "1ms" [] (.pre "p:%s" ["q"] (.log .lazyTracef "c%%" [] [] .done) .done) <| .done) <|
  .log .tracef "d" [] [] .done

/-- A run of `C58_regions_partial`, and its conclusion. -/
example : run ctx prog = some ["a 1", "→ outer", "· b", "· → inner", "· · p:q c%", "· ← inner [1ms]", "← outer [5ms]", "d"] ∧
    prog.ok ∧ prog.lines.map (fun l => l ()) = ["a 1", "→ outer", "· b", "· → inner", "· · p:q c%", "· ← inner [1ms]", "← outer [5ms]", "d"] ∧
    maybeGet ctx = some (.publish (.core 0)) ∧ RendersStrings Unit String := by
  refine ⟨rfl, ?_, rfl, rfl, fun _ _ => rfl⟩
  simp only [prog, Prog.ok, and_true, true_and]
  exact ⟨by decide, by decide, by decide, by decide⟩

/-- C58 fails for names with percent signs. -/
theorem C58_name_violated : run ctx (.region "100%s" "5ms" [] .done .done) =
    some ["→ 100%!s(MISSING)", "← 1005ms [%!s(MISSING)]"] := rfl

/-- C58 fails on contexts without a trace: the region's arrows and its body go to different orphans. -/
theorem C58_orphan_violated (name took : String) :
    (region (.background : Ctx String) 5 6 name []).2.1.root = 6 ∧
    callsIn 6 ((region (.background : Ctx String) 5 6 name []).2.2.1 ++ (region (.background : Ctx String) 5 6 name []).2.2.2 took) = [] := by
  refine ⟨by simp [region, prefixed, get, maybeGet, Ctx.value, trim_dot, put, Tr.root], ?_⟩
  simp [region, prefixed, get, maybeGet, Ctx.value, trim_dot, put, Tr.root, Tr.logActs, callsIn, callOn]

end Trc.Wrap.Witness
