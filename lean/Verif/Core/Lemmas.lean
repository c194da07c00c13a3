import Verif.Core.Spec

/-! # The core trace refines an abstract machine over stored log entries -/

set_option linter.unusedSectionVars false
set_option linter.unusedVariables false
set_option linter.unusedSimpArgs false

namespace Trc.Core

open Spec

variable {W A : Type} [Sys W A]

/-- A stored event: its logging call, the memory at its first read, whether its stack was
read. -/
structure Stored (W A : Type) where
  entry : Entry W A
  firstRead : Option W := none
  stackRead : Bool := false

/-- What never changes about a trace. -/
structure Base where
  source : String
  id : String
  category : String
  start : Time
  nostack : Bool

/-- The abstract state of a trace. -/
structure Abs (W A : Type) where
  fin : Option Time
  errored : Bool
  limit : Int
  stored : List (Stored W A)
  trunc : Nat

def Stored.text (s : Stored W A) (w : W) : String :=
  if isLazy s.entry.kind then Sys.sprintf (s.firstRead.getD w) s.entry.format s.entry.args
  else Sys.sprintf s.entry.env.w s.entry.format s.entry.args

def Stored.event (b : Base) (s : Stored W A) (w : W) (stacks : Bool) : Event :=
  { when_ := s.entry.env.now, what := s.text w
    stack := if stacks then stackOf b.nostack s.entry.callers else []
    isError := isErr s.entry.kind }

def Stored.mark (s : Stored W A) (w : W) (stacks : Bool) : Stored W A :=
  { s with firstRead := some (s.firstRead.getD w), stackRead := s.stackRead || stacks }

def Stored.str (s : Stored W A) : NullString :=
  if isLazy s.entry.kind then
    match s.firstRead with
    | none => zeroNullString
    | some w => { valid := true, value := Sys.sprintf w s.entry.format s.entry.args }
  else { valid := true, value := Sys.sprintf s.entry.env.w s.entry.format s.entry.args }

/-- The concrete event of a stored entry. -/
def Stored.conc (b : Base) (s : Stored W A) : CoreEvent A :=
  { when_ := s.entry.env.now
    what := { fmt := s.entry.format, args := s.entry.args, str := s.str }
    pcs := if b.nostack then [] else s.entry.callers
    stack := if s.stackRead then stackOf b.nostack s.entry.callers else []
    iserr := isErr s.entry.kind }

/-- The concrete trace of an abstract state. -/
def Abs.conc (b : Base) (a : Abs W A) : CoreTrace A :=
  { source := b.source, id := b.id, category := b.category, start := b.start
    errored := a.errored
    finished := a.fin.isSome
    duration := match a.fin with | none => 0 | some t => t.sub b.start
    nostackflag := if b.nostack then flagNoStack else 0
    events := a.stored.map (Stored.conc b)
    eventsmax := a.limit
    truncated := a.trunc }

/-- The number of newest events `EventsDetail(n, _)` looks at. -/
def window (len : Nat) (n : Int) : Nat := if n ≤ 0 ∨ n > len then len else n.toNat

def Abs.log (a : Abs W A) (e : Entry W A) : Abs W A :=
  if a.fin.isSome then a
  else
    let a := { a with errored := a.errored || isErr e.kind }
    if (a.stored.length : Int) ≥ a.limit then { a with trunc := a.trunc + 1 }
    else { a with stored := a.stored ++ [{ entry := e }] }

def clamp (m : Int) : Int := if m < 10 then 10 else if m > 10000 then 10000 else m

def Abs.step (a : Abs W A) (env : Env W) : Call A → Abs W A
  | .log kind format args callers => a.log { kind, format, args, callers, env }
  | .finish => if a.fin.isSome then a else { a with fin := some env.now }
  | .setMaxEvents m => { a with limit := clamp m }
  | .read n stacks =>
    let k := a.stored.length - window a.stored.length n
    { a with stored := a.stored.take k ++ (a.stored.drop k).map (fun s => s.mark env.w stacks) }

/-- What a read shows. -/
def Abs.read (b : Base) (a : Abs W A) (env : Env W) (n : Int) (stacks : Bool) : List Event :=
  let k := a.stored.length - window a.stored.length n
  let evs := (a.stored.drop k).map (fun s => s.event b env.w stacks)
  if a.trunc > 0 then evs.drop 1 ++ (if evs.isEmpty then [] else [truncatedNotice env.now a.trunc])
  else evs

def Abs.out (b : Base) (a : Abs W A) (env : Env W) : Call A → List Event
  | .read n stacks => a.read b env n stacks
  | _ => []

def Abs.run (a : Abs W A) : Hist W A → Abs W A
  | [] => a
  | (env, c) :: h => (a.step env c).run h

/-! ## Refinement -/

theorem framesLoop_spec (rest : List StdFrame) (fr : StdFrame) (acc : List Frame) :
    framesLoop fr (!rest.isEmpty) rest acc =
      acc ++ (((fr :: rest).dropLast).filter fun fr => !ignoreStackFrameFunction fr.function).map toFrame := by
  induction rest generalizing fr acc with
  | nil => simp [framesLoop]
  | cons x xs ih =>
    unfold framesLoop
    simp only [List.isEmpty_cons, Bool.not_false, Bool.true_eq_false, if_false, List.dropLast_cons₂]
    rw [ih]
    by_cases h : ignoreStackFrameFunction fr.function <;> simp [h]

theorem getStack_conc (b : Base) (s : Stored W A) :
    (s.conc b).getStack = (stackOf b.nostack s.entry.callers,
      { s.conc b with stack := stackOf b.nostack s.entry.callers }) := by
  unfold CoreEvent.getStack Stored.conc
  cases hb : b.nostack with
  | true => simp [stackOf]
  | false =>
    cases hc : s.entry.callers with
    | nil => simp [stackOf]
    | cons fr rest =>
      simp only [Bool.false_eq_true, if_false]
      cases hs : s.stackRead with
      | false =>
        simp [framesLoop_spec, stackOf]
      | true =>
        simp only [if_true]
        split
        · rfl
        · rename_i h
          have : stackOf false (fr :: rest) = [] := by
            cases h' : stackOf false (fr :: rest) with
            | nil => rfl
            | cons => rw [h'] at h; simp at h
          rw [this, framesLoop_spec]
          unfold stackOf at this
          simp only [Bool.false_eq_true, if_false] at this
          rw [this]; simp

theorem string_conc (b : Base) (s : Stored W A) (w : W) (z : Stringer A)
    (h : z = { fmt := s.entry.format, args := s.entry.args, str := s.str }) (stacks : Bool) :
    z.string w = (s.text w, { fmt := s.entry.format, args := s.entry.args, str := (s.mark w stacks).str }) := by
  subst h
  unfold Stringer.string Stored.str Stored.text Stored.mark
  cases hl : isLazy s.entry.kind with
  | false => simp [hl]
  | true =>
    cases hf : s.firstRead with
    | none => simp [zeroNullString, hl]
    | some w' => simp [hl]

theorem snapshot_conc (b : Base) (s : Stored W A) (w : W) (stacks : Bool) :
    (s.conc b).snapshot w stacks = (s.event b w stacks, (s.mark w stacks).conc b) := by
  unfold CoreEvent.snapshot
  cases stacks with
  | false =>
    simp only [Bool.false_eq_true, if_false]
    rw [string_conc b s w (s.conc b).what rfl false]
    simp [Stored.event, Stored.conc, Stored.mark]
  | true =>
    simp only [if_true, getStack_conc]
    rw [string_conc b s w (s.conc b).what rfl true]
    simp [Stored.event, Stored.conc, Stored.mark]

theorem snapshotEvents_conc (b : Base) (l : List (Stored W A)) (w : W) (stacks : Bool) :
    snapshotEvents w stacks (l.map (Stored.conc b)) =
      (l.map (fun s => s.event b w stacks), (l.map (fun s => s.mark w stacks)).map (Stored.conc b)) := by
  induction l with
  | nil => rfl
  | cons s l ih => simp only [List.map_cons, snapshotEvents, snapshot_conc, ih]

theorem newCoreEvent_conc (b : Base) (env : Env W) (kind : LogKind) (format : String) (args : List A)
    (callers : List StdFrame) (flags : UInt8)
    (h : flags = (match kind with
      | .tracef => flagNormal ||| (if b.nostack then flagNoStack else 0)
      | .lazyTracef => flagLazy ||| (if b.nostack then flagNoStack else 0)
      | .errorf => flagError ||| (if b.nostack then flagNoStack else 0)
      | .lazyErrorf => flagLazy ||| flagError ||| (if b.nostack then flagNoStack else 0))) :
    newCoreEvent env flags format args callers =
      Stored.conc b { entry := { kind, format, args, callers, env } } := by
  subst h
  obtain ⟨_, _, _, _, nostack⟩ := b
  cases kind <;> cases nostack <;>
    simp +decide [newCoreEvent, Stored.conc, flagNormal, flagLazy, flagError, flagNoStack, isErr, isLazy,
      Stored.str, newLazyStringer, newNormalStringer]

theorem detailCount_window (len : Nat) (n : Int) : detailCount len n = window len n := by
  unfold detailCount window
  split
  · rfl
  · rename_i h
    simp only [not_or] at h
    omega

theorem window_le (len : Nat) (n : Int) : window len n ≤ len := by
  unfold window
  split <;> omega

theorem step_conc (b : Base) (a : Abs W A) (env : Env W) (c : Call A) :
    (a.conc b).step env c = some ((a.step env c).conc b, a.out b env c) := by
  cases c with
  | log kind format args callers =>
    have key : (a.conc b).step env (.log kind format args callers) =
        some ((a.log { kind, format, args, callers, env }).conc b, []) := by
      have hnew := newCoreEvent_conc b env kind format args callers
      cases hf : a.fin with
      | some t =>
        cases kind <;>
          simp [CoreTrace.step, CoreTrace.tracef, CoreTrace.lazyTracef, CoreTrace.errorf,
            CoreTrace.lazyErrorf, Abs.conc, Abs.log, hf]
      | none =>
        by_cases hl : (a.stored.length : Int) ≥ a.limit
        · cases kind <;>
            simp [CoreTrace.step, CoreTrace.tracef, CoreTrace.lazyTracef, CoreTrace.errorf,
              CoreTrace.lazyErrorf, Abs.conc, Abs.log, hf, hl, isErr]
        · cases kind <;>
            simp [CoreTrace.step, CoreTrace.tracef, CoreTrace.lazyTracef, CoreTrace.errorf,
              CoreTrace.lazyErrorf, Abs.conc, Abs.log, hf, hl, isErr] <;>
            exact hnew _ rfl
    exact key
  | finish =>
    simp only [CoreTrace.step, CoreTrace.finish, Abs.step, Abs.out]
    cases hf : a.fin with
    | some t => simp [Abs.conc, hf]
    | none => simp [Abs.conc, hf]
  | setMaxEvents m =>
    simp only [CoreTrace.step, CoreTrace.setMaxEvents, Abs.step, Abs.out, clamp, traceMaxEventsMin,
      traceMaxEventsMax, Abs.conc]
    by_cases h1 : m < 10
    · simp [h1]
    · by_cases h2 : m > 10000 <;> simp [h1, h2]
  | read n stacks =>
    simp only [CoreTrace.step, Abs.out]
    have hlen : (a.conc b).events.length = a.stored.length := by simp [Abs.conc]
    have hw := window_le a.stored.length n
    generalize hk : a.stored.length - window a.stored.length n = k
    have hk' : ((a.stored.length : Int) - detailCount a.stored.length n) = (k : Int) := by
      rw [detailCount_window]; omega
    have hkle : k ≤ a.stored.length := by omega
    have e1 : Go.sliceFrom (a.conc b).events (k : Int) = some ((a.stored.drop k).map (Stored.conc b)) := by
      unfold Go.sliceFrom
      rw [hlen, if_pos (by omega)]
      simp [Abs.conc, List.map_drop]
    have e2 : Go.sliceTo (a.conc b).events (k : Int) = some ((a.stored.take k).map (Stored.conc b)) := by
      unfold Go.sliceTo
      rw [hlen, if_pos (by omega)]
      simp [Abs.conc, List.map_take]
    have e3 : ((a.conc b).truncated > 0) ↔ a.trunc > 0 := by simp [Abs.conc]
    unfold CoreTrace.eventsDetail
    simp only [hlen, hk', e1, e2, bind, Option.bind_some, snapshotEvents_conc, e3]
    have hst : ({ (a.conc b) with events := (a.stored.take k).map (Stored.conc b) ++
        ((a.stored.drop k).map (fun s => s.mark env.w stacks)).map (Stored.conc b) } : CoreTrace A)
        = (a.step env (.read n stacks)).conc b := by
      simp [Abs.step, Abs.conc, hk]
    rw [hst]
    by_cases ht : a.trunc > 0
    · simp only [ht, if_true]
      have e4 : Go.sliceFrom ((a.stored.drop k).map (fun s => s.event b env.w stacks) ++
          [truncatedNotice env.now (a.conc b).truncated]) 1 = some (a.read b env n stacks) := by
        unfold Go.sliceFrom
        rw [if_pos (by simp; omega)]
        congr 1
        unfold Abs.read
        simp only [hk, ht, if_true]
        cases hd : (a.stored.drop k).map (fun s => s.event b env.w stacks) with
        | nil => simp
        | cons x xs => simp [Abs.conc]
      rw [e4]
      rfl
    · simp only [ht, if_false]
      simp [Abs.read, hk, ht]

theorem run_conc (b : Base) (a : Abs W A) (h : Hist W A) :
    (a.conc b).run h = some ((a.run h).conc b) := by
  induction h generalizing a with
  | nil => rfl
  | cons p h ih =>
    obtain ⟨env, c⟩ := p
    simp only [CoreTrace.run, step_conc, Abs.run, bind, Option.bind_some]
    exact ih _

/-- The abstract state of a new trace. -/
def Abs.new (limit : Int) : Abs W A := { fin := none, errored := false, limit, stored := [], trunc := 0 }

theorem new_conc (g : Globals) (now : Time) (id source category : String) (old : CoreTrace A) :
    newCoreTrace g now id source category old =
      (Abs.new (W := W) g.traceMaxEvents).conc
        { source, id, category, start := now, nostack := g.traceNoStacks } := by
  simp [newCoreTrace, Abs.conc, Abs.new]

/-! ## The abstract machine over histories -/

theorem run_append (a : Abs W A) (h₁ h₂ : Hist W A) : a.run (h₁ ++ h₂) = (a.run h₁).run h₂ := by
  induction h₁ generalizing a with
  | nil => rfl
  | cons p h ih => exact ih _

theorem step_fin {a : Abs W A} {t : Time} (h : a.fin = some t) (env : Env W) (c : Call A) :
    (a.step env c).fin = some t ∧ (a.step env c).errored = a.errored ∧
      (a.step env c).trunc = a.trunc ∧
      (a.step env c).stored.map Stored.entry = a.stored.map Stored.entry := by
  cases c with
  | log => simp [Abs.step, Abs.log, h]
  | finish => simp [Abs.step, h]
  | setMaxEvents => simp [Abs.step, h]
  | read n stacks =>
    refine ⟨h, rfl, rfl, ?_⟩
    simp only [Abs.step]
    rw [List.map_append, List.map_map]
    have : (Stored.entry ∘ fun s : Stored W A => s.mark env.w stacks) = Stored.entry := rfl
    rw [this, ← List.map_append, List.take_append_drop]

theorem run_fin {a : Abs W A} {t : Time} (h : a.fin = some t) (hist : Hist W A) :
    (a.run hist).fin = some t ∧ (a.run hist).errored = a.errored ∧
      (a.run hist).trunc = a.trunc ∧
      (a.run hist).stored.map Stored.entry = a.stored.map Stored.entry := by
  induction hist generalizing a with
  | nil => exact ⟨h, rfl, rfl, rfl⟩
  | cons p hist ih =>
    obtain ⟨env, c⟩ := p
    obtain ⟨h1, h2, h3, h4⟩ := step_fin h env c
    obtain ⟨i1, i2, i3, i4⟩ := ih h1
    exact ⟨i1, i2.trans h2, i3.trans h3, i4.trans h4⟩

theorem run_finishedAt {a : Abs W A} (h : a.fin = none) (hist : Hist W A) :
    (a.run hist).fin = finishedAt hist := by
  induction hist generalizing a with
  | nil => exact h
  | cons p hist ih =>
    obtain ⟨env, c⟩ := p
    cases c with
    | log kind f x cs =>
      refine ih ?_
      simp only [Abs.step, Abs.log, h]
      simp only [Option.isSome_none, Bool.false_eq_true, if_false]
      split <;> simp [h]
    | finish =>
      simp only [finishedAt, Abs.run]
      exact (run_fin (a := a.step env .finish) (by simp [Abs.step, h]) hist).1
    | setMaxEvents m => exact ih h
    | read n s => exact ih h

theorem run_errored {a : Abs W A} (h : a.fin = none) (hist : Hist W A) :
    (a.run hist).errored = (a.errored || (logged hist).any (fun e => isErr e.kind)) := by
  induction hist generalizing a with
  | nil => simp [Abs.run, logged, logs, active]
  | cons p hist ih =>
    obtain ⟨env, c⟩ := p
    cases c with
    | log kind f x cs =>
      have h1 : (a.step env (.log kind f x cs)).fin = none := by
        simp only [Abs.step, Abs.log, h, Option.isSome_none, Bool.false_eq_true, if_false]
        split <;> simp [h]
      have h2 : (a.step env (.log kind f x cs)).errored = (a.errored || isErr kind) := by
        simp only [Abs.step, Abs.log, h, Option.isSome_none, Bool.false_eq_true, if_false]
        split <;> simp
      simp only [Abs.run]
      rw [ih h1, h2]
      simp [logged, active, logs, Bool.or_assoc]
    | finish =>
      simp only [Abs.run, logged, active, logs]
      rw [(run_fin (a := a.step env .finish) (t := env.now) (by simp [Abs.step, h]) hist).2.1]
      simp [Abs.step, h]
    | setMaxEvents m => exact ih h
    | read n s => exact ih h

/-- Every event logged before `Finish` is either stored or counted. -/
theorem run_count {a : Abs W A} (h : a.fin = none) (hist : Hist W A) :
    (a.run hist).stored.length + (a.run hist).trunc =
      a.stored.length + a.trunc + (logged hist).length := by
  induction hist generalizing a with
  | nil => simp [Abs.run, logged, logs, active]
  | cons p hist ih =>
    obtain ⟨env, c⟩ := p
    cases c with
    | log kind f x cs =>
      have h1 : (a.step env (.log kind f x cs)).fin = none := by
        simp only [Abs.step, Abs.log, h, Option.isSome_none, Bool.false_eq_true, if_false]
        split <;> simp [h]
      have h2 : (a.step env (.log kind f x cs)).stored.length + (a.step env (.log kind f x cs)).trunc
          = a.stored.length + a.trunc + 1 := by
        simp only [Abs.step, Abs.log, h, Option.isSome_none, Bool.false_eq_true, if_false]
        split <;> simp <;> omega
      simp only [Abs.run]
      rw [ih h1, h2]
      simp [logged, active, logs]
      omega
    | finish =>
      obtain ⟨_, _, h3, h4⟩ := run_fin (a := a.step env .finish) (t := env.now) (by simp [Abs.step, h]) hist
      have := congrArg List.length h4
      simp only [List.length_map] at this
      simp only [Abs.run, logged, active, logs, h3, this, List.length_nil]
      simp [Abs.step, h]
    | setMaxEvents m => exact ih h
    | read n s =>
      simp only [Abs.run]
      rw [ih (a := a.step env (.read n s)) h]
      have : (a.step env (.read n s)).stored.length = a.stored.length := by
        simp only [Abs.step, List.length_append, List.length_map, List.length_take, List.length_drop]
        have := window_le a.stored.length n
        omega
      rw [this]
      rfl

/-- The history never changes the event limit. -/
def noSetMax : Hist W A → Prop
  | [] => True
  | (_, .setMaxEvents _) :: _ => False
  | _ :: h => noSetMax h

/-- With a constant limit the stored events are the first `limit` logged ones. -/
theorem run_stored {a : Abs W A} (h : a.fin = none) (M : Nat) (hM : a.limit = M)
    (hist : Hist W A) (hn : noSetMax (active hist)) (hinv : a.stored.length ≤ M)
    (htr : 0 < a.trunc → a.stored.length = M) :
    (a.run hist).stored.map Stored.entry = (a.stored.map Stored.entry ++ logged hist).take M ∧
    (a.run hist).stored.length ≤ M ∧ (0 < (a.run hist).trunc → (a.run hist).stored.length = M) := by
  induction hist generalizing a with
  | nil =>
    simp only [Abs.run, logged, logs, active, List.append_nil]
    exact ⟨by rw [List.take_of_length_le (by simpa using hinv)], hinv, htr⟩
  | cons p hist ih =>
    obtain ⟨env, c⟩ := p
    cases c with
    | log kind f x cs =>
      have hn' : noSetMax (active hist) := by simpa [active, noSetMax] using hn
      have h1 : (a.step env (.log kind f x cs)).fin = none := by
        simp only [Abs.step, Abs.log, h, Option.isSome_none, Bool.false_eq_true, if_false]
        split <;> simp [h]
      have h2 : (a.step env (.log kind f x cs)).limit = M := by
        simp only [Abs.step, Abs.log, h, Option.isSome_none, Bool.false_eq_true, if_false]
        split <;> simp [hM]
      by_cases hl : (a.stored.length : Int) ≥ a.limit
      · have e : a.step env (.log kind f x cs) =
            { a with errored := a.errored || isErr kind, trunc := a.trunc + 1 } := by
          simp [Abs.step, Abs.log, h, hl]
        have hlen : a.stored.length = M := by omega
        have := ih h1 h2 hn' (by rw [e]; exact hinv) (by rw [e]; intro _; exact hlen)
        simp only [Abs.run]
        refine ⟨?_, this.2⟩
        rw [this.1, e]
        simp only [logged, active, logs]
        rw [List.take_append_of_le_length (by simp; omega), List.take_append_of_le_length (by simp; omega)]
      · have e : a.step env (.log kind f x cs) =
            { a with errored := a.errored || isErr kind,
                     stored := a.stored ++ [{ entry := ⟨kind, f, x, cs, env⟩ }] } := by
          simp only [Abs.step, Abs.log, h, hl, Option.isSome_none, Bool.false_eq_true, if_false]
        have hlen : a.stored.length < M := by omega
        have ht0 : a.trunc = 0 := by
          cases ht : a.trunc with
          | zero => rfl
          | succ n => have := htr (by omega); omega
        have := ih h1 h2 hn' (by rw [e]; simp; omega) (by rw [e]; simp [ht0])
        simp only [Abs.run]
        refine ⟨?_, this.2⟩
        rw [this.1, e]
        simp [logged, active, logs]
    | finish =>
      obtain ⟨_, _, h3, h4⟩ := run_fin (a := a.step env .finish) (t := env.now) (by simp [Abs.step, h]) hist
      have h5 := congrArg List.length h4
      simp only [List.length_map] at h5
      have e : a.step env .finish = { a with fin := some env.now } := by simp [Abs.step, h]
      rw [e] at h3 h4 h5
      simp only [Abs.run, e]
      refine ⟨?_, by rw [h5]; exact hinv, by rw [h3, h5]; exact htr⟩
      rw [h4]
      simp only [logged, active, logs, List.append_nil]
      rw [List.take_of_length_le (by simpa using hinv)]
    | setMaxEvents m => simp [active, noSetMax] at hn
    | read n s =>
      have hn' : noSetMax (active hist) := by simpa [active, noSetMax] using hn
      have hlen : (a.step env (.read n s)).stored.length = a.stored.length := by
        simp only [Abs.step, List.length_append, List.length_map, List.length_take, List.length_drop]
        have := window_le a.stored.length n
        omega
      have hent : (a.step env (.read n s)).stored.map Stored.entry = a.stored.map Stored.entry := by
        simp only [Abs.step]
        rw [List.map_append, List.map_map]
        have : (Stored.entry ∘ fun s' : Stored W A => s'.mark env.w s) = Stored.entry := rfl
        rw [this, ← List.map_append, List.take_append_drop]
      have := ih (a := a.step env (.read n s)) h hM hn' (by rw [hlen]; exact hinv) (by rw [hlen]; exact htr)
      simp only [Abs.run]
      rw [hent] at this
      exact this

end Trc.Core
