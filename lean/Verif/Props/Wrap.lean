import Verif.Wrap.Lemmas

/-!
# Properties of wrappers, contexts and `Collector.NewTrace`: C24, C56, C58–C60

An execution is a list of actions with their circumstances; `callsIn a acts` are the calls that a
list of actions makes on the core trace at `a`.
-/

set_option linter.unusedSectionVars false
set_option linter.unusedVariables false
set_option linter.unusedSimpArgs false

namespace Trc.Wrap

open Core Core.Spec

/-! ## C60: contexts -/

section
variable {A : Type}

/-- The traces put on the path to a context, from the root. -/
def puts : Ctx A → List (Tr A)
  | .background => []
  | .withValue p .trace (.trace tr) => puts p ++ [tr]
  | .withValue p _ _ => puts p
  | .derived p => puts p

/-- Contexts as code outside of the package can make them: under the key of this package, which
is not exported, only `Put` puts values. -/
inductive Made : Ctx A → Prop
  | background : Made .background
  | put {p : Ctx A} (tr : Tr A) : Made p → Made (put p tr).1
  | other {p : Ctx A} (n : Nat) (v : Val A) : Made p → Made (.withValue p (.other n) v)
  | derived {p : Ctx A} : Made p → Made (.derived p)

/-- C60.  `MaybeGet` returns the trace most recently put on the path, and reports none if there is
none; `Get` returns that trace, doing nothing, or a new orphan, which it puts nowhere. -/
theorem C60_innermost (ctx : Ctx A) (h : Made ctx) :
    maybeGet ctx = (puts ctx).getLast? ∧
    (∀ orphan tr, (puts ctx).getLast? = some tr → get ctx orphan = (tr, [])) ∧
    (puts ctx = [] → ∀ orphan, get ctx orphan = (.core orphan, [.make orphan "" "(orphan)"])) := by
  have key : maybeGet ctx = (puts ctx).getLast? := by
    induction h with
    | background => rfl
    | put tr hp ih => simp [put, maybeGet, Ctx.value, puts]
    | other n v hp ih => exact ih
    | derived hp ih => exact ih
  refine ⟨key, ?_, ?_⟩
  · intro orphan tr hl; simp [get, key, hl]
  · intro hp orphan; simp [get, key, hp]

/-- C60.  Putting a trace, or deriving in any other way, never changes what the parent returns; the
derived context returns the trace put into it. -/
theorem C60_put (p : Ctx A) (tr : Tr A) (n : Nat) (v : Val A) :
    maybeGet (put p tr).1 = some tr ∧ (put p tr).2 = tr ∧ (∃ q, (put p tr).1 = .withValue p .trace q) ∧
    maybeGet (.withValue p (.other n) v) = maybeGet p ∧ maybeGet (.derived p) = maybeGet p :=
  ⟨rfl, rfl, ⟨_, rfl⟩, rfl, rfl⟩

end

variable {W A : Type} [Sys W A] [Arg A] [Humanize]

/-- C60.  An orphan is a new, active trace without events, and making it changes no collector. -/
theorem C60_orphan (w : World A) (env : AEnv W) (orphan : Nat) :
    ∃ w' t, w.act env (.make orphan "" "(orphan)") = some w' ∧ w'.traces orphan = some t ∧
      t.finished = false ∧ t.errored = false ∧ t.events = [] ∧ t.category = "(orphan)" ∧ t.source = "" ∧ w'.cats = w.cats ∧
      ∀ b, b ≠ orphan → w'.traces b = w.traces b := by
  refine ⟨_, _, rfl, by simp [World.set]; rfl, rfl, rfl, rfl, rfl, rfl, rfl, ?_⟩
  intro b hb
  simp [World.set, hb]

/-! ## C59: wrappers are transparent -/

/-- The calls a client makes. -/
inductive Op (A : Type) where
  | log (kind : LogKind) (format : String) (args : List A) (stack : List StdFrame)
  | finish

/-- What a call does, through a given trace. -/
def Op.acts (tr : Tr A) : Op A → List (Act A)
  | .log kind format args stack => tr.logActs kind format args stack
  | .finish => tr.finishActs

/-- The same call on a trace without wrappers. -/
def Op.plain : Op A → Call A
  | .log kind format args stack => .log kind format args (stack.take 8)
  | .finish => .finish

/-- The call that reaches the core trace. -/
def Op.deco (tr : Tr A) : Op A → Call A
  | .log kind format args stack =>
    .log kind (tr.pformat ++ format) (tr.pargs ++ args) ((tr.frames kind ++ stack).take 8)
  | .finish => .finish

theorem op_calls (tr : Tr A) (op : Op A) : callsIn tr.root (op.acts tr) = [op.deco tr] := by
  cases op with
  | log kind format args stack => exact logActs_calls tr kind format args stack
  | finish => exact finishActs_calls tr

theorem program_calls (a : Nat) (program : List (Tr A × Op A)) (h : ∀ p ∈ program, p.1.root = a) :
    callsIn a (program.flatMap fun p => p.2.acts p.1) = program.map fun p => p.2.deco p.1 := by
  induction program with
  | nil => rfl
  | cons p l ih =>
    simp only [List.flatMap_cons, callsIn_append, List.map_cons]
    rw [ih (fun q hq => h q (by simp [hq])), ← h p (by simp), op_calls]
    rfl

/-- A logging call with the trace it goes through. -/
structure Item (W A : Type) where
  tr : Tr A
  kind : LogKind
  format : String
  args : List A
  stack : List StdFrame
  env : Env W

def Item.deco (i : Item W A) : Entry W A :=
  { kind := i.kind, format := i.tr.pformat ++ i.format, args := i.tr.pargs ++ i.args
    callers := (i.tr.frames i.kind ++ i.stack).take 8, env := i.env }

def Item.plain (i : Item W A) : Entry W A :=
  { kind := i.kind, format := i.format, args := i.args, callers := i.stack.take 8, env := i.env }

/-- The item is a call of the program. -/
def Item.From (i : Item W A) (program : List (Tr A × Op A)) : Prop :=
  (i.tr, Op.log i.kind i.format i.args i.stack) ∈ program

/-- Abstract states that hold the same calls, with and without wrappers. -/
structure Pair (program : List (Tr A × Op A)) (a b : Abs W A) : Prop where
  fin : a.fin = b.fin
  errored : a.errored = b.errored
  limit : a.limit = b.limit
  trunc : a.trunc = b.trunc
  items : ∃ l : List (Item W A), a.stored.map Stored.entry = l.map Item.deco ∧
    b.stored.map Stored.entry = l.map Item.plain ∧ ∀ i ∈ l, i.From program

theorem Pair.step {program : List (Tr A × Op A)} {a b : Abs W A} (h : Pair program a b) (env : Env W)
    (tr : Tr A) (op : Op A) (hp : (tr, op) ∈ program) :
    Pair program (a.step env (op.deco tr)) (b.step env op.plain) := by
  obtain ⟨l, hl1, hl2, hl3⟩ := h.items
  have hlen : a.stored.length = b.stored.length := by
    have h1 := congrArg List.length hl1
    have h2 := congrArg List.length hl2
    simp only [List.length_map] at h1 h2
    omega
  cases op with
  | finish =>
    simp only [Op.deco, Op.plain, Abs.step, h.fin]
    split
    · exact h
    · exact ⟨rfl, h.errored, h.limit, h.trunc, h.items⟩
  | log kind f x st =>
    simp only [Op.deco, Op.plain, Abs.step, Abs.log, h.fin, h.limit, hlen, h.errored]
    by_cases h1 : b.fin.isSome = true
    · rw [if_pos h1, if_pos h1]; exact h
    · rw [if_neg h1, if_neg h1]
      by_cases h2 : (b.stored.length : Int) ≥ b.limit
      · rw [if_pos h2, if_pos h2]
        exact ⟨rfl, rfl, rfl, by simp [h.trunc], h.items⟩
      · rw [if_neg h2, if_neg h2]
        refine ⟨rfl, rfl, rfl, h.trunc, l ++ [⟨tr, kind, f, x, st, env⟩], ?_, ?_, ?_⟩
        · simp [hl1, Item.deco]
        · simp [hl2, Item.plain]
        · intro i hi
          rcases List.mem_append.mp hi with hi | hi
          · exact hl3 i hi
          · simp only [List.mem_singleton] at hi; subst hi; exact hp

theorem Pair.run {program₀ : List (Tr A × Op A)} (program : List (Tr A × Op A)) (envs : List (Env W)) {a b : Abs W A}
    (h : Pair program₀ a b) (hs : ∀ p ∈ program, p ∈ program₀) :
    Pair program₀ (a.run (envs.zip (program.map fun p => p.2.deco p.1))) (b.run (envs.zip (program.map fun p => p.2.plain))) := by
  induction program generalizing a b envs with
  | nil => simpa [Abs.run] using h
  | cons p l ih =>
    cases envs with
    | nil => simpa [Abs.run] using h
    | cons env envs =>
      simp only [List.map_cons, List.zip_cons_cons, Abs.run]
      exact ih envs (h.step env p.1 p.2 (hs p (by simp))) (fun q hq => hs q (by simp [hq]))

theorem frame_ignored (type : String) (kind : LogKind) (ht : type = "publishTrace" ∨ type = "logTrace" ∨ type = "prefixTrace") :
    ignoreStackFrameFunction (frame type kind).function = true := by
  rcases ht with rfl | rfl | rfl <;> cases kind <;> decide

theorem frames_ignored (tr : Tr A) (kind : LogKind) :
    ∀ fr ∈ tr.frames kind, ignoreStackFrameFunction fr.function = true := by
  induction tr with
  | core a => simp [Tr.frames]
  | publish t ih =>
    intro fr hfr
    rcases List.mem_append.mp hfr with h | h
    · exact ih fr h
    · simp only [List.mem_singleton] at h; subst h; exact frame_ignored _ _ (by simp)
  | log t id dst ih =>
    intro fr hfr
    rcases List.mem_append.mp hfr with h | h
    · exact ih fr h
    · simp only [List.mem_singleton] at h; subst h; exact frame_ignored _ _ (by simp)
  | pre t f as ih =>
    intro fr hfr
    rcases List.mem_append.mp hfr with h | h
    · exact ih fr h
    · simp only [List.mem_singleton] at h; subst h; exact frame_ignored _ _ (by simp)

/-- Wrappers only cost frames at the far end of a reported stack. -/
theorem stack_prefix (nostack : Bool) (frames stack : List StdFrame)
    (hf : ∀ fr ∈ frames, ignoreStackFrameFunction fr.function = true) :
    stackOf nostack ((frames ++ stack).take 8) <+: stackOf nostack (stack.take 8) := by
  unfold stackOf
  cases nostack with
  | true => simp
  | false =>
    simp only [Bool.false_eq_true, if_false]
    apply List.IsPrefix.map
    have e : (((frames ++ stack).take 8).dropLast).filter (fun fr => !ignoreStackFrameFunction fr.function) =
        ((stack.take (8 - frames.length)).dropLast).filter (fun fr => !ignoreStackFrameFunction fr.function) := by
      have hnil : ∀ l : List StdFrame, (∀ fr ∈ l, fr ∈ frames) → l.filter (fun fr => !ignoreStackFrameFunction fr.function) = [] := by
        intro l hl
        rw [List.filter_eq_nil_iff]
        intro fr hfr
        simp [hf fr (hl fr hfr)]
      rw [List.take_append]
      by_cases hy : stack.take (8 - frames.length) = []
      · rw [hy, List.append_nil, hnil]
        · rfl
        · intro fr hfr
          exact (List.take_sublist _ _).subset ((List.dropLast_sublist _).subset hfr)
      · rw [List.dropLast_append_of_ne_nil hy, List.filter_append, hnil _ (fun fr h => (List.take_sublist _ _).subset h), List.nil_append]
    rw [e]
    apply List.IsPrefix.filter
    rw [List.dropLast_eq_take, List.dropLast_eq_take, List.take_take, List.take_take, List.length_take, List.length_take]
    apply List.take_prefix_take_left
    omega

theorem stack_equal (nostack : Bool) (frames stack : List StdFrame)
    (hf : ∀ fr ∈ frames, ignoreStackFrameFunction fr.function = true) (hne : stack ≠ []) (hl : frames.length + stack.length ≤ 8) :
    stackOf nostack ((frames ++ stack).take 8) = stackOf nostack (stack.take 8) := by
  unfold stackOf
  cases nostack with
  | true => simp
  | false =>
    simp only [Bool.false_eq_true, if_false]
    rw [List.take_of_length_le (by simp; omega), List.take_of_length_le (by omega), List.dropLast_append_of_ne_nil hne, List.filter_append]
    have : frames.filter (fun fr => !ignoreStackFrameFunction fr.function) = [] := by
      rw [List.filter_eq_nil_iff]
      intro fr hfr
      simp [hf fr hfr]
    rw [this, List.nil_append]

/-- Formatting that does not depend on when it happens. -/
def Stable (W : Type) {A : Type} [Sys W A] (format : String) (args : List A) : Prop :=
  ∀ w w' : W, Sys.sprintf w format args = Sys.sprintf w' format args

theorem zip_fst_snd {α β : Type} (l : List (α × β)) : (l.map Prod.fst).zip (l.map Prod.snd) = l := by
  induction l with
  | nil => rfl
  | cons p l ih => simp [ih]

theorem pair_of_execution {w w' : World A} {ex : List (AEnv W × Act A)} {program : List (Tr A × Op A)} {a : Nat}
    {b : Base} {limit : Int} (hroot : ∀ p ∈ program, p.1.root = a)
    (hex : callsIn a (ex.map Prod.snd) = callsIn a (program.flatMap fun p => p.2.acts p.1))
    (hm : ∀ p ∈ ex, notMake a p.2) (hrun : w.run ex = some w')
    (ht : w.traces a = some ((Abs.new (W := W) limit).conc b)) :
    ∃ x : Abs W A, w'.traces a = some (x.conc b) ∧
      Pair program x ((Abs.new limit).run (((callsOn a ex).map Prod.fst).zip (program.map fun p => p.2.plain))) := by
  obtain ⟨h, t', r1, r2, r3⟩ := run_hist hrun ht hm
  rw [run_conc] at r1
  obtain rfl := (Option.some.inj r1).symm
  refine ⟨_, r2, ?_⟩
  have hc : callsOn a ex = ((callsOn a ex).map Prod.fst).zip (program.map fun p => p.2.deco p.1) := by
    rw [← program_calls a program hroot, ← hex, ← callsOn_snd]
    exact (zip_fst_snd _).symm
  have s1 := (SameBut.refl (Abs.new limit : Abs W A)).run h
  rw [r3] at s1
  have s2 := Pair.run (program₀ := program) program ((callsOn a ex).map Prod.fst)
    (a := Abs.new limit) (b := Abs.new limit) ⟨rfl, rfl, rfl, rfl, [], rfl, rfl, by simp⟩ (fun p hp => hp)
  rw [← hc] at s2
  obtain ⟨l, i1, i2, i3⟩ := s2.items
  exact ⟨s1.fin.trans s2.fin, s1.errored.trans s2.errored, s1.limit.trans s2.limit, s1.trunc.trans s2.trunc,
    l, s1.entries.trans i1, i2, i3⟩

/-- Two lists that agree position by position. -/
def Match {α β : Type} (R : α → β → Prop) (l : List α) (l' : List β) : Prop :=
  l.length = l'.length ∧ ∀ (i : Nat) x y, l[i]? = some x → l'[i]? = some y → R x y

theorem Match.drop {α β : Type} {R : α → β → Prop} {l : List α} {l' : List β} (h : Match R l l') (n : Nat) :
    Match R (l.drop n) (l'.drop n) := by
  refine ⟨by simp [h.1], fun i x y hx hy => ?_⟩
  rw [List.getElem?_drop] at hx hy
  exact h.2 _ x y hx hy

theorem Match.append {α β : Type} {R : α → β → Prop} {l m : List α} {l' m' : List β} (h : Match R l l') (k : Match R m m') :
    Match R (l ++ m) (l' ++ m') := by
  refine ⟨by simp [h.1, k.1], fun i x y hx hy => ?_⟩
  rw [List.getElem?_append] at hx hy
  rw [h.1] at hx
  split at hx
  · rename_i hi; rw [if_pos hi] at hy; exact h.2 _ x y hx hy
  · rename_i hi; rw [if_neg hi] at hy; exact k.2 _ x y hx hy

theorem Match.mono {α β : Type} {R S : α → β → Prop} {l : List α} {l' : List β} (h : Match R l l') (k : ∀ x y, R x y → S x y) :
    Match S l l' := ⟨h.1, fun i x y hx hy => k x y (h.2 i x y hx hy)⟩

/-- An event of a trace used through wrappers and the corresponding one of a trace used without. -/
def Mirrors (program : List (Tr A × Op A)) (nostack : Bool) (ev ev' : Event) : Prop :=
  ∃ i : Item W A, i.From program ∧ Reports nostack ev i.deco ∧ Reports nostack ev' i.plain

/-- What a read returns with and without wrappers. -/
theorem Pair.read {program : List (Tr A × Op A)} {x y : Abs W A} (h : Pair program x y) (b : Base) (env : Env W) :
    Match (fun ev ev' => Mirrors (W := W) program b.nostack ev ev' ∨ ev = ev')
      (x.read b env (-1) true) (y.read b env (-1) true) := by
  obtain ⟨l, h1, h2, h3⟩ := h.items
  have hx : x.stored.length = l.length := by simpa using congrArg List.length h1
  have hy : y.stored.length = l.length := by simpa using congrArg List.length h2
  have main : Match (fun ev ev' => Mirrors (W := W) program b.nostack ev ev' ∨ ev = ev')
      (x.stored.map fun s => s.event b env.w true) (y.stored.map fun s => s.event b env.w true) := by
    refine ⟨by simp [hx, hy], fun i ev ev' he he' => Or.inl ?_⟩
    simp only [List.getElem?_map, Option.map_eq_some_iff] at he he'
    obtain ⟨s, hs, rfl⟩ := he
    obtain ⟨s', hs', rfl⟩ := he'
    have hi : i < l.length := by
      rw [← hx]
      exact (List.getElem?_eq_some_iff.mp hs).1
    have e1 : s.entry = (l[i]).deco := by
      have := congrArg (fun q => q[i]?) h1
      simp only [List.getElem?_map, hs, Option.map_some] at this
      rw [List.getElem?_eq_getElem hi] at this
      exact Option.some.inj this
    have e2 : s'.entry = (l[i]).plain := by
      have := congrArg (fun q => q[i]?) h2
      simp only [List.getElem?_map, hs', Option.map_some] at this
      rw [List.getElem?_eq_getElem hi] at this
      exact Option.some.inj this
    exact ⟨l[i], h3 _ (List.getElem_mem hi), e1 ▸ event_reports b s env.w, e2 ▸ event_reports b s' env.w⟩
  rw [read_all, read_all, h.trunc]
  split
  · refine (main.drop 1).append ?_
    have : x.stored.isEmpty = y.stored.isEmpty := by
      rw [Bool.eq_iff_iff, List.isEmpty_iff_length_eq_zero, List.isEmpty_iff_length_eq_zero, hx, hy]
    rw [this]
    refine ⟨rfl, fun i ev ev' he he' => Or.inr ?_⟩
    rw [he] at he'
    exact Option.some.inj he'
  · exact main

/-- No prefix anywhere. -/
def Tr.unprefixed : Tr A → Prop
  | .core _ => True
  | .publish t => t.unprefixed
  | .log t _ _ => t.unprefixed
  | .pre _ _ _ => False

theorem unprefixed_nil {tr : Tr A} (h : tr.unprefixed) : tr.pformat = "" ∧ tr.pargs = [] := by
  induction tr with
  | core a => exact ⟨rfl, rfl⟩
  | publish t ih => exact ih h
  | log t id dst ih => exact ih h
  | pre t f as ih => exact h.elim

/-- The number of wrappers. -/
def Tr.depth : Tr A → Nat
  | .core _ => 0
  | .publish t => t.depth + 1
  | .log t _ _ => t.depth + 1
  | .pre t _ _ => t.depth + 1

theorem frames_length (tr : Tr A) (kind : LogKind) : (tr.frames kind).length = tr.depth := by
  induction tr <;> simp_all [Tr.frames, Tr.depth]

/-- C59.  A program makes calls through traces that all wrap the core trace at `a`, in any way.  The
actions on `a` in the execution are those of the program, in order; any other actions (of other
traces, subscribers' publishing reads, `Events` calls) are interleaved at will.  Then the wrapped trace
reports exactly what a core trace would after the program's calls on it, made at the same times,
apart from prefixes; stacks may miss frames at their outer end, and do not if few wrappers and
frames are on the stack. -/
theorem C59_transparent_partial (settings : List Setting) (start : Time) (id source category : String) (old : CoreTrace A)
    (w w' : World A) (ex : List (AEnv W × Act A)) (program : List (Tr A × Op A)) (a : Nat)
    (hroot : ∀ p ∈ program, p.1.root = a)
    (hex : callsIn a (ex.map Prod.snd) = callsIn a (program.flatMap fun p => p.2.acts p.1))
    (hm : ∀ p ∈ ex, notMake a p.2) (hrun : w.run ex = some w')
    (ht : w.traces a = some (fresh settings start id source category old)) :
    ∃ t u, w'.traces a = some t ∧
      (fresh settings start id source category old).run
        (((callsOn a ex).map Prod.fst).zip (program.map fun p => p.2.plain)) = some u ∧
      (callsOn a ex).length = program.length ∧
      t.id = u.id ∧ t.source = u.source ∧ t.category = u.category ∧ t.start = u.start ∧
      t.finished = u.finished ∧ t.errored = u.errored ∧ t.truncated = u.truncated ∧ t.eventsmax = u.eventsmax ∧
      (∀ now, t.durationAt now = u.durationAt now) ∧
      ∀ env : Env W, ∃ evs evs', t.events' env = some evs ∧ u.events' env = some evs' ∧
        Match (fun ev ev' => ev = ev' ∨ ∃ tr kind format args stack,
            (tr, Op.log kind format args stack) ∈ program ∧
            ev.when_ = ev'.when_ ∧ ev.isError = ev'.isError ∧ ev.stack <+: ev'.stack ∧
            (stack ≠ [] → tr.depth + stack.length ≤ 8 → ev.stack = ev'.stack) ∧
            (tr.unprefixed → isLazy kind = false ∨ Stable W format args → ev.what = ev'.what)) evs evs' := by
  rw [fresh_conc (W := W)] at ht
  obtain ⟨x, hx, hp⟩ := pair_of_execution hroot hex hm hrun ht
  refine ⟨_, _, hx, fresh_run _ _ _ _ _ _ _, ?_, rfl, rfl, rfl, rfl, ?_, hp.errored, ?_, hp.limit, ?_, ?_⟩
  · have h1 := congrArg List.length (callsOn_snd a ex)
    rw [hex, program_calls a program hroot] at h1
    simpa using h1
  · simp [Abs.conc, hp.fin]
  · simp [Abs.conc, hp.trunc]
  · intro now
    simp only [CoreTrace.durationAt, Abs.conc, hp.fin]
    rfl
  · intro env
    refine ⟨_, _, events'_conc _ _ env, events'_conc _ _ env, (hp.read _ env).mono fun ev ev' h => ?_⟩
    rcases h with ⟨i, hi, r1, r2⟩ | h
    · refine Or.inr ⟨i.tr, i.kind, i.format, i.args, i.stack, hi, r1.1.trans r2.1.symm, r1.2.1.trans r2.2.1.symm, ?_, ?_, ?_⟩
      · rw [r1.2.2.1, r2.2.2.1]
        exact stack_prefix _ _ _ (frames_ignored _ _)
      · intro hne hl
        rw [r1.2.2.1, r2.2.2.1]
        exact stack_equal _ _ _ (frames_ignored _ _) hne (by rw [frames_length]; exact hl)
      · intro hu hs
        obtain ⟨e1, e2⟩ := unprefixed_nil hu
        obtain ⟨w1, k1⟩ := r1.2.2.2.2
        obtain ⟨w2, k2⟩ := r2.2.2.2.2
        rcases hs with hs | hs
        · rw [r1.2.2.2.1 hs, r2.2.2.2.1 hs]
          simp [Item.deco, Item.plain, e1, e2]
        · rw [k1, k2]
          simp only [Item.deco, Item.plain, e1, e2]
          rw [String.empty_append, List.nil_append]
          exact hs w1 w2
    · exact Or.inl h

/-- C59.  Dropped, a trace decorated for logging or publishing is freed as its core trace is: the core
trace is freed exactly once, and nothing else. -/
theorem C59_freed (tr : Tr A) (h : tr.unprefixed) : tr.freed = [tr.root] := by
  induction tr with
  | core a => rfl
  | publish t ih => exact ih h
  | log t id dst ih => exact ih h
  | pre t f as ih => exact h.elim

/-- C59, an exception: a trace that a prefix was put on (which `NewTrace` never retains) has no
`Free`, so nothing is freed. -/
theorem C59_freed_prefix (t : Tr A) (format : String) (args : List A) : (Tr.pre t format args).freed = [] := rfl

end Trc.Wrap

namespace Trc.Wrap.Witness

open Core Core.Spec Fmt

instance : Humanize := ⟨fun _ => "1s"⟩

def env (n : Int) : AEnv Unit := { now := ⟨n, none⟩, w := (), id := "id", subscribed := false }
def stack (n : Nat) : List StdFrame := (List.range n).map fun i => ⟨"main.f", "main.go", i⟩

/-- One logging call through the given trace, after making a core trace at 0. -/
def ex (tr : Tr String) (stack : List StdFrame) : List (AEnv Unit × Act String) :=
  (env 1, .make 0 "s" "c") :: (tr.logActs .tracef "x" [] stack).map fun act => (env 2, act)

def events (tr : Tr String) (stack : List StdFrame) : Option (List Event) :=
  ((({} : World String).run (ex tr stack)).bind fun w => w.traces 0).bind fun t => t.events' (env 3).toEnv

/-- C59 fails for stacks: with eight frames below, the event of a published trace misses the
seventh. -/
theorem C59_stack_violated : ∃ e e', events (.core 0) (stack 9) = some [e] ∧ events (.publish (.core 0)) (stack 9) = some [e'] ∧
    e.stack.length = 7 ∧ e'.stack.length = 6 :=
  ⟨_, _, rfl, rfl, rfl, rfl⟩

def program : List (Tr String × Op String) :=
  [(.log (.publish (.core 0)) "id" 1, .log .tracef "a %s" ["x"] (stack 3)), (.publish (.core 0), .log .errorf "b" [] (stack 3)),
   (.pre (.publish (.core 0)) "p " [], .log .lazyTracef "c" [] []), (.publish (.core 0), .finish)]

/-- The hypotheses of `C59_transparent_partial` are met: three wrappings, an interleaved read, and
other traces. -/
example : ∃ w w' : World String, ∃ e : List (AEnv Unit × Act String),
    callsIn 0 (e.map Prod.snd) = callsIn 0 (program.flatMap fun p => p.2.acts p.1) ∧
    (∀ p ∈ program, p.1.root = 0) ∧ (∀ p ∈ e, notMake 0 p.2) ∧ w.run e = some w' ∧
    w.traces 0 = some (fresh [] ⟨1, none⟩ "id" "s" "c" zeroTrace) ∧ e.length = 11 := by
  refine ⟨{ traces := fun b => if b = 0 then some (fresh [] ⟨1, none⟩ "id" "s" "c" zeroTrace) else none }, _,
    (env 2, .call 0 (.read 3 true)) :: (env 2, .make 1 "" "") ::
      (program.flatMap fun p => p.2.acts p.1).map fun act => ({ env 3 with subscribed := true }, act), rfl, ?_, ?_, rfl, rfl, rfl⟩
  · simp [program, Tr.root]
  · intro p hp
    have : p.2 = .make 1 "" "" ∨ ∀ b s c, p.2 ≠ .make b s c := by
      simp only [program, List.flatMap_cons, List.flatMap_nil, Op.acts, Tr.logActs, Tr.finishActs, logEvent] at hp
      simp at hp
      rcases hp with rfl | rfl | h | h | h | h | h | h | h | h | h <;> simp_all
    rcases this with h | h
    · rw [h]; simp [notMake]
    · revert h; cases p.2 <;> simp [notMake]

end Trc.Wrap.Witness
