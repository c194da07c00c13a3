import Verif.Props.Heap
import Mathlib.Data.List.Forall2

/-!
# C114: looking at traces does not change them

All theorems are about `St.run` from program start, as those of `Verif/Props/Heap.lean`. Searches and streams look at
traces by reading their events, in any order, any number of times, and with or without stacks.
-/

set_option linter.unusedSectionVars false
set_option linter.unusedVariables false
set_option linter.unusedSimpArgs false

namespace Trc.Heap

open Trc.Core Trc.Core.Spec
open Trc.Ring (RBs MOp FRep FamOK)

variable {W A : Type} [Sys W A]

/-! ## Statement -/

/-- A read of the events of a trace. -/
def isRead : Act W A → Bool
  | .call _ _ (.read _ _) _ => true
  | _ => false

/-- The same program, if nobody looks. -/
def withoutReads (acts : List (Act W A)) : List (Act W A) := acts.filter fun a => !isRead a

/-- The arguments of the lazy events of the trace at `a` are left alone after the call, so that it does not matter when
they are formatted. -/
def Steady (acts : List (Act W A)) (a : Nat) : Prop :=
  ∀ env kind format args callers ch, .call a env (.log kind format args callers) ch ∈ acts → isLazy kind = true →
    ∀ w w' : W, Sys.sprintf w format args = Sys.sprintf w' format args

/-- What a read of the trace at `a` shows. -/
def shownAt (s : St W A) (a : Nat) (env : Env W) (n : Int) (stacks : Bool) (ch : Choice) : Option (List Event) :=
  (s.heap.call a ch env (.read n stacks)).map fun p => p.1.map p.2.view

/-- No read of all events, as searches make them, is among the calls. -/
def NoFullLook (h : Hist W A) : Prop := ∀ env n stacks, (env, Call.read n stacks) ∈ h → 0 < n

/-- `w` is how things were when an event was first looked at, given the calls after it was logged, if the next look
is made when they are as in `now`. Reads of some events only may have shown it, or not. -/
def FirstLook (after : Hist W A) (now w : W) : Prop :=
  (w = now ∧ NoFullLook after) ∨
  ∃ l₁ env n stacks l₂, after = l₁ ++ (env, Call.read n stacks) :: l₂ ∧ env.w = w ∧ NoFullLook l₁

/-- An event `ev` shown of the trace at `a` after looks, and the event `ev'` shown if there were none before. They have
the same time, stack and error mark. If it is not the notice about truncated events, then it is from a call to log:
unless that is lazy, both have the text as of the call; otherwise `ev` has the arguments as they were at the first look,
and `ev'` as they are now. -/
def SameLook (acts : List (Act W A)) (a : Nat) (look : Env W) (ev ev' : Event) : Prop :=
  ev'.when_ = ev.when_ ∧ ev'.stack = ev.stack ∧ ev'.isError = ev.isError ∧
  ((ev'.what = ev.what ∧ ev.when_ = look.now ∧
      ∃ k : Int, 0 < k ∧ ev.what = "(truncated event count " ++ toString k ++ ")") ∨
   ∃ before env kind format args callers after,
    callsAt a acts = before ++ (env, Call.log kind format args callers) :: after ∧ env.now = ev.when_ ∧
    (isLazy kind = false → ev.what = Sys.sprintf env.w format args ∧ ev'.what = Sys.sprintf env.w format args) ∧
    (isLazy kind = true → ∃ w, FirstLook after look.w w ∧
      ev.what = Sys.sprintf w format args ∧ ev'.what = Sys.sprintf look.w format args))

/-! ## Histories -/

/-- A history without its reads. -/
def unread (h : Hist W A) : Hist W A := h.filter fun p => match p.2 with | .read _ _ => false | _ => true

/-- The same entries. -/
structure SameEntries (a a' : Abs W A) : Prop where
  fin : a'.fin = a.fin
  errored : a'.errored = a.errored
  limit : a'.limit = a.limit
  trunc : a'.trunc = a.trunc
  entries : a'.stored.map Stored.entry = a.stored.map Stored.entry

theorem SameEntries.length {a a' : Abs W A} (h : SameEntries a a') : a'.stored.length = a.stored.length := by
  have := congrArg List.length h.entries
  simpa using this

theorem sameEntries_read {a a' : Abs W A} (h : SameEntries a a') (env : Env W) (n : Int) (stacks : Bool) :
    SameEntries (a.step env (.read n stacks)) a' := by
  refine ⟨h.fin, h.errored, h.limit, h.trunc, ?_⟩
  rw [h.entries]
  simp only [Abs.step]
  rw [List.map_append, List.map_map]
  have : (Stored.entry ∘ fun s' : Stored W A => s'.mark env.w stacks) = Stored.entry := rfl
  rw [this, ← List.map_append, List.take_append_drop]

theorem sameEntries_step {a a' : Abs W A} (h : SameEntries a a') (env : Env W) (c : Call A)
    (hc : ∀ n stacks, c ≠ .read n stacks) : SameEntries (a.step env c) (a'.step env c) := by
  cases c with
  | log kind format args callers =>
    simp only [Abs.step, Abs.log, h.fin, h.length, h.limit, h.trunc, h.errored]
    split
    · exact h
    · split
      · exact ⟨rfl, rfl, rfl, rfl, h.entries⟩
      · exact ⟨rfl, rfl, rfl, rfl, by simp [h.entries]⟩
  | finish =>
    simp only [Abs.step, h.fin]
    split
    · exact h
    · exact ⟨rfl, h.errored, h.limit, h.trunc, h.entries⟩
  | setMaxEvents m => exact ⟨h.fin, h.errored, rfl, h.trunc, h.entries⟩
  | read n stacks => exact (hc n stacks rfl).elim

theorem sameEntries_run (h : Hist W A) {a a' : Abs W A} (hs : SameEntries a a') :
    SameEntries (a.run h) (a'.run (unread h)) := by
  induction h generalizing a a' with
  | nil => exact hs
  | cons p h ih =>
    obtain ⟨env, c⟩ := p
    cases c with
    | read n stacks => exact ih (sameEntries_read hs env n stacks)
    | log kind format args callers => exact ih (sameEntries_step hs env _ (by simp))
    | finish => exact ih (sameEntries_step hs env _ (by simp))
    | setMaxEvents m => exact ih (sameEntries_step hs env _ (by simp))

theorem forall₂_of_map_eq {α β : Type} {e : α → β} {Q : α → α → Prop} : ∀ {l l' : List α}, l'.map e = l.map e →
    (∀ x ∈ l, ∀ x' ∈ l', e x' = e x → Q x x') → List.Forall₂ Q l l'
  | [], [], _, _ => .nil
  | [], x' :: l', h, _ => by simp at h
  | x :: l, [], h, _ => by simp at h
  | x :: l, x' :: l', h, hq => by
    simp only [List.map_cons, List.cons.injEq] at h
    exact .cons (hq x (by simp) x' (by simp) h.1)
      (forall₂_of_map_eq h.2 fun y hy y' hy' => hq y (by simp [hy]) y' (by simp [hy']))

/-- What a read shows is determined by the entries, up to what holds for each. -/
theorem read_rel {a a' : Abs W A} (h : SameEntries a a') (b : Base) (env : Env W) (n : Int) (stacks : Bool)
    (R : Event → Event → Prop) (hR : ∀ k, 0 < k → R (truncatedNotice env.now k) (truncatedNotice env.now k))
    (hs : ∀ s ∈ a.stored, ∀ s' ∈ a'.stored, s'.entry = s.entry →
      R (s.event b env.w stacks) (s'.event b env.w stacks)) :
    List.Forall₂ R (a.read b env n stacks) (a'.read b env n stacks) := by
  have key : ∀ k, List.Forall₂ R ((a.stored.drop k).map (fun s => s.event b env.w stacks))
      ((a'.stored.drop k).map (fun s => s.event b env.w stacks)) := by
    intro k
    rw [List.forall₂_map_left_iff, List.forall₂_map_right_iff]
    refine List.forall₂_drop k ?_
    exact forall₂_of_map_eq h.entries fun s hs' s' hs'' he => hs s hs' s' hs'' he
  unfold Abs.read
  simp only [h.trunc, h.length]
  split
  · rename_i htr
    have hk := key (a.stored.length - window a.stored.length n)
    refine List.rel_append (List.forall₂_drop 1 hk) ?_
    generalize (a.stored.drop (a.stored.length - window a.stored.length n)).map
      (fun s => s.event b env.w stacks) = x at hk
    generalize (a'.stored.drop (a.stored.length - window a.stored.length n)).map
      (fun s => s.event b env.w stacks) = y at hk
    cases hk with
    | nil => exact .nil
    | cons _ _ => exact .cons (hR _ (by omega)) .nil
  · exact key _

/-- When an entry was first read, in a history. -/
def First (h : Hist W A) : Option W → Prop
  | none => NoFullLook h
  | some w => ∃ l₁ env n stacks l₂, h = l₁ ++ (env, Call.read n stacks) :: l₂ ∧ env.w = w ∧ NoFullLook l₁

theorem First.cons {h : Hist W A} {g : Option W} (hf : First h g) (env : Env W) (c : Call A)
    (hc : ∀ n stacks, c = .read n stacks → 0 < n) : First ((env, c) :: h) g := by
  have key : ∀ l : Hist W A, NoFullLook l → NoFullLook ((env, c) :: l) := by
    intro l hl env' n stacks hm
    rcases List.mem_cons.mp hm with e | hm
    · exact hc n stacks (Prod.mk.inj e).2.symm
    · exact hl env' n stacks hm
  cases g with
  | none => exact key h hf
  | some w =>
    obtain ⟨l₁, env', n, stacks, l₂, rfl, hw, hl⟩ := hf
    exact ⟨(env, c) :: l₁, env', n, stacks, l₂, rfl, hw, key l₁ hl⟩

/-- How the first read goes on from `f`. -/
def Goes (f : Option W) (h : Hist W A) (g : Option W) : Prop :=
  match f with
  | none => First h g
  | some w => g = some w

theorem Goes.cons {f : Option W} {h : Hist W A} {g : Option W} (hf : Goes f h g) (env : Env W) (c : Call A)
    (hc : ∀ n stacks, c = .read n stacks → 0 < n) : Goes f ((env, c) :: h) g := by
  cases f with
  | none => exact First.cons hf env c hc
  | some w => exact hf

theorem first_mem (h : Hist W A) {a : Abs W A} {s : Stored W A} (hs : s ∈ (a.run h).stored) :
    (∃ s' ∈ a.stored, s'.entry = s.entry ∧ Goes s'.firstRead h s.firstRead) ∨
    ∃ before after, h = before ++ (s.entry.env, .log s.entry.kind s.entry.format s.entry.args s.entry.callers) :: after ∧
      First after s.firstRead := by
  induction h generalizing a with
  | nil =>
    refine .inl ⟨s, hs, rfl, ?_⟩
    cases hf : s.firstRead with
    | none => intro env n stacks hm; cases hm
    | some w => rfl
  | cons p h ih =>
    obtain ⟨env, c⟩ := p
    simp only [Abs.run] at hs
    rcases ih hs with ⟨s', hs', he, hg⟩ | ⟨before, after, rfl, hf⟩
    · cases c with
      | log kind format args callers =>
        have hc : ∀ n stacks, Call.log kind format args callers = .read n stacks → 0 < n := by intro n st e; cases e
        simp only [Abs.step, Abs.log] at hs'
        split at hs'
        · exact .inl ⟨s', hs', he, hg.cons _ _ hc⟩
        · split at hs'
          · exact .inl ⟨s', hs', he, hg.cons _ _ hc⟩
          · rcases List.mem_append.mp hs' with hs' | hs'
            · exact .inl ⟨s', hs', he, hg.cons _ _ hc⟩
            · obtain rfl := List.mem_singleton.mp hs'
              right
              rw [← he]
              exact ⟨[], h, rfl, hg⟩
      | finish =>
        have hc : ∀ n stacks, (Call.finish : Call A) = .read n stacks → 0 < n := by intro n st e; cases e
        simp only [Abs.step] at hs'
        split at hs' <;> exact .inl ⟨s', hs', he, hg.cons _ _ hc⟩
      | setMaxEvents m =>
        have hc : ∀ n stacks, (Call.setMaxEvents m : Call A) = .read n stacks → 0 < n := by intro n st e; cases e
        exact .inl ⟨s', hs', he, hg.cons _ _ hc⟩
      | read n stacks =>
        simp only [Abs.step] at hs'
        rcases List.mem_append.mp hs' with hs' | hs'
        · refine .inl ⟨s', List.mem_of_mem_take hs', he, hg.cons _ _ ?_⟩
          intro n' stacks' e
          obtain ⟨rfl, -⟩ := Call.read.inj e
          by_cases hn : n ≤ 0
          · simp [window, hn] at hs'
          · omega
        · obtain ⟨s₀, h0, rfl⟩ := List.mem_map.mp hs'
          refine .inl ⟨s₀, List.mem_of_mem_drop h0, he, ?_⟩
          simp only [Stored.mark, Goes] at hg
          cases hf : s₀.firstRead with
          | some w => rw [hf] at hg; exact hg
          | none =>
            rw [hf] at hg
            rw [hg]
            exact ⟨[], env, n, stacks, h, rfl, rfl, by intro env n stacks hm; cases hm⟩
    · exact .inr ⟨(env, c) :: before, after, rfl, hf⟩

theorem never_read (h : Hist W A) {a : Abs W A} (ha : ∀ s ∈ a.stored, s.firstRead = none) :
    ∀ s ∈ (a.run (unread h)).stored, s.firstRead = none := by
  induction h generalizing a with
  | nil => exact ha
  | cons p h ih =>
    obtain ⟨env, c⟩ := p
    cases c with
    | read n stacks => exact ih ha
    | log kind format args callers =>
      refine ih ?_
      intro s hs
      simp only [Abs.step, Abs.log] at hs
      split at hs
      · exact ha s hs
      · split at hs
        · exact ha s hs
        · rcases List.mem_append.mp hs with hs | hs
          · exact ha s hs
          · obtain rfl := List.mem_singleton.mp hs; rfl
    | finish =>
      refine ih ?_
      intro s hs
      simp only [Abs.step] at hs
      split at hs <;> exact ha s hs
    | setMaxEvents m => exact ih ha

/-! ## Memory -/

/-- What does not depend on who looks. -/
structure Skel (h h' : Heap A) : Prop where
  traces : h'.traces = h.traces
  nextT : h'.nextT = h.nextT
  nextE : h'.nextE = h.nextE
  nextS : h'.nextS = h.nextS
  tracePool : h'.tracePool = h.tracePool
  eventPool : h'.eventPool = h.eventPool
  strPool : h'.strPool = h.strPool
  n : h'.n = h.n
  what : ∀ e, (h'.events e).what = (h.events e).what

/-- Closes goals that two memories look the same which follow from the same about `k`, field by field. -/
local macro "skel_tac" k:term : tactic => `(tactic| (
  constructor <;> first
    | rfl | exact ($k).traces | exact ($k).nextT | exact ($k).nextE | exact ($k).nextS | exact ($k).tracePool
    | exact ($k).eventPool | exact ($k).strPool | exact ($k).n | exact ($k).what))

theorem skel_newCoreTrace {h h' : Heap A} (k : Skel h h') (g : Globals) (c : Option Nat) (now : Time)
    (id source category : String) :
    Skel (h.newCoreTrace g c now id source category).1 (h'.newCoreTrace g c now id source category).1 ∧
    (h'.newCoreTrace g c now id source category).2 = (h.newCoreTrace g c now id source category).2 := by
  unfold Heap.newCoreTrace
  simp only [k.tracePool, k.traces, k.n, k.nextT]
  split
  · exact ⟨by skel_tac k, rfl⟩
  · exact ⟨by skel_tac k, rfl⟩

theorem skel_getStr {h h' : Heap A} (k : Skel h h') (c : Option Nat) :
    Skel (h.getStr c).1 (h'.getStr c).1 ∧ (h'.getStr c).2 = (h.getStr c).2 := by
  unfold Heap.getStr
  simp only [k.strPool, k.n, k.nextS]
  split
  · exact ⟨by skel_tac k, rfl⟩
  · exact ⟨by skel_tac k, rfl⟩

theorem skel_getEvent {h h' : Heap A} (k : Skel h h') (c : Option Nat) :
    Skel (h.getEvent c).1 (h'.getEvent c).1 ∧ (h'.getEvent c).2 = (h.getEvent c).2 := by
  unfold Heap.getEvent
  simp only [k.eventPool, k.n, k.nextE]
  split
  · exact ⟨by skel_tac k, rfl⟩
  · refine ⟨?_, rfl⟩
    have hw : ∀ e, (upd h'.events h.nextE zeroEvent e).what = (upd h.events h.nextE zeroEvent e).what := ?_
    · constructor <;> first
        | rfl | exact k.traces | exact k.nextT | exact k.nextS | exact k.tracePool | exact k.eventPool
        | exact k.strPool | exact hw
    intro e
    simp only [upd]
    split
    · rfl
    · exact k.what e

theorem skel_newCoreEvent {h h' : Heap A} (k : Skel h h') (ch : Choice) (env : Env W) (flags : UInt8) (format : String)
    (args : List A) (callers : List StdFrame) :
    Skel (h.newCoreEvent ch env flags format args callers).1 (h'.newCoreEvent ch env flags format args callers).1 ∧
    (h'.newCoreEvent ch env flags format args callers).2 = (h.newCoreEvent ch env flags format args callers).2 := by
  unfold Heap.newCoreEvent Heap.newStringer
  simp only
  have k1 : Skel { h with n := { h.n with eventNew := h.n.eventNew + 1 } }
      { h' with n := { h'.n with eventNew := h'.n.eventNew + 1 } } :=
    ⟨k.traces, k.nextT, k.nextE, k.nextS, k.tracePool, k.eventPool, k.strPool, by simp only [k.n], k.what⟩
  obtain ⟨k2, e2⟩ := skel_getEvent k1 ch.event
  rw [e2]
  generalize Heap.getEvent { h with n := { h.n with eventNew := h.n.eventNew + 1 } } ch.event = p at *
  generalize Heap.getEvent { h' with n := { h'.n with eventNew := h'.n.eventNew + 1 } } ch.event = p' at *
  have k3 : Skel { p.1 with n := { p.1.n with strNew := p.1.n.strNew + 1 } }
      { p'.1 with n := { p'.1.n with strNew := p'.1.n.strNew + 1 } } :=
    ⟨k2.traces, k2.nextT, k2.nextE, k2.nextS, k2.tracePool, k2.eventPool, k2.strPool, by simp only [k2.n], k2.what⟩
  obtain ⟨k4, e4⟩ := skel_getStr k3 ch.str
  rw [e4]
  refine ⟨⟨k4.traces, k4.nextT, k4.nextE, k4.nextS, k4.tracePool, k4.eventPool, k4.strPool, k4.n, ?_⟩, rfl⟩
  intro e
  simp only [upd]
  split
  · rfl
  · exact k4.what e

theorem skel_traces {h h' : Heap A} (k : Skel h h') (t : Nat → HTrace) :
    Skel { h with traces := t } { h' with traces := t } :=
  ⟨rfl, k.nextT, k.nextE, k.nextS, k.tracePool, k.eventPool, k.strPool, k.n, k.what⟩

theorem skel_logEvent {h h' : Heap A} (k : Skel h h') (a : Nat) (ch : Choice) (env : Env W) (flags : UInt8)
    (format : String) (args : List A) (callers : List StdFrame) :
    Skel (h.logEvent a ch env flags format args callers) (h'.logEvent a ch env flags format args callers) := by
  unfold Heap.logEvent
  simp only [k.traces]
  split
  · exact skel_traces k _
  · obtain ⟨k1, e1⟩ := skel_newCoreEvent k ch env (flags ||| (h.traces a).nostackflag) format args callers
    simp only [e1, k1.traces]
    exact skel_traces k1 _

theorem skel_log {h h' : Heap A} (k : Skel h h') (a : Nat) (ch : Choice) (env : Env W) (kind : LogKind)
    (format : String) (args : List A) (callers : List StdFrame) :
    Skel (h.log a ch env kind format args callers) (h'.log a ch env kind format args callers) := by
  unfold Heap.log
  simp only [k.traces]
  split
  · exact k
  · cases kind with
    | tracef => exact skel_logEvent k a ch env _ format args callers
    | lazyTracef => exact skel_logEvent k a ch env _ format args callers
    | errorf => exact skel_logEvent (skel_traces k _) a ch env _ format args callers
    | lazyErrorf => exact skel_logEvent (skel_traces k _) a ch env _ format args callers

theorem skel_freeEvents (es : List Nat) {h h' t : Heap A} (k : Skel h h') (ht : h.freeEvents es = some t) :
    ∃ t', h'.freeEvents es = some t' ∧ Skel t t' := by
  induction es generalizing h h' with
  | nil =>
    simp only [Heap.freeEvents, Option.some.injEq] at ht
    subst ht
    exact ⟨h', rfl, k⟩
  | cons e es ih =>
    simp only [Heap.freeEvents, Heap.freeEvent, Option.bind_eq_bind, Option.bind_eq_some_iff, Option.pure_def,
      Option.some.injEq] at ht
    obtain ⟨u, ⟨z, hz, hu⟩, ht⟩ := ht
    have hz' : (h'.events e).what = some z := by rw [k.what]; exact hz
    subst hu
    simp only [Heap.freeEvents, Heap.freeEvent, hz', Option.bind_eq_bind, Option.bind_some, Option.pure_def]
    refine ih ?_ ht
    refine ⟨k.traces, k.nextT, k.nextE, k.nextS, k.tracePool, by simp only [k.eventPool],
      by simp only [k.strPool], by simp only [k.n], ?_⟩
    intro x
    simp only [upd]
    split
    · rfl
    · exact k.what x

theorem skel_free {h h' t : Heap A} (k : Skel h h') (a : Nat) (ht : h.free a = some t) :
    ∃ t', h'.free a = some t' ∧ Skel t t' := by
  unfold Heap.free at ht ⊢
  simp only [k.traces]
  split at ht
  · rename_i hf
    simp only [hf, if_true]
    simp only [Option.some.injEq] at ht
    subst ht
    exact ⟨_, rfl, rfl, k.nextT, k.nextE, k.nextS, k.tracePool, k.eventPool, k.strPool,
      by simp only [k.n], k.what⟩
  · rename_i hf
    simp only [Option.bind_eq_bind, Option.bind_eq_some_iff, Option.pure_def, Option.some.injEq] at ht
    obtain ⟨u, hu, ht⟩ := ht
    obtain ⟨u', hu', k'⟩ := skel_freeEvents _ k hu
    subst ht
    simp only [hf, hu', Option.bind_eq_bind, Option.bind_some, Option.pure_def]
    exact ⟨_, rfl, by simp only [k'.traces], k'.nextT, k'.nextE, k'.nextS, by simp only [k'.tracePool], k'.eventPool,
      k'.strPool, by simp only [k'.n], k'.what⟩

/-! ## Programs -/

/-- A record of use, without its reads. -/
def Ghost.unread (gh : Ghost W A) : Ghost W A := { gh with hist := Heap.unread gh.hist }

/-- Two programs of which the second is not looked at. -/
structure Alike (s s' : St W A) : Prop where
  skel : Skel s.heap s'.heap
  globals : s'.globals = s.globals
  rings : s'.rings = s.rings
  inflight : s'.inflight = s.inflight
  pending : s'.pending = s.pending
  ghost : ∀ a, s'.ghost a = (s.ghost a).map Ghost.unread

theorem alike_ring {s s' t : St W A} (k : Alike s s') {j : Nat} {op : MOp Handle} (h : s.ring j op = some t) :
    ∃ t', s'.ring j op = some t' ∧ Alike t t' := by
  unfold St.ring at h ⊢
  rw [k.rings]
  split at h
  · simp only [Option.some.injEq] at h; subst h; exact ⟨s', rfl, k⟩
  · simp only [Option.bind_eq_bind, Option.bind_eq_some_iff] at h
    obtain ⟨p, hp, h⟩ := h
    simp only [Option.pure_def, Option.some.injEq] at h
    subst h
    simp only [hp]
    exact ⟨_, rfl, k.skel, k.globals, rfl, k.inflight, by simp only [k.pending], k.ghost⟩

theorem alike_read {s s' t : St W A} {f : List (Ring.Spec.Family Handle)} (hi : Inv s f) (k : Alike s s') {a : Nat}
    {env : Env W} {n : Int} {stacks : Bool} {ch : Choice} (h : s.step (.call a env (.read n stacks) ch) = some t) :
    Alike t s' := by
  simp only [St.step] at h
  split at h
  · simp only [Option.bind_eq_bind, Option.bind_eq_some_iff] at h
    obtain ⟨p, hp, h⟩ := h
    simp only [Option.pure_def, Option.some.injEq] at h
    subst h
    obtain ⟨sns, h', he, kp, -⟩ := eventsDetail_spec hi.mem a env n stacks ch.grow
    simp only [Heap.call] at hp
    rw [he] at hp
    obtain rfl := Option.some.inj hp
    refine ⟨⟨k.skel.traces.trans kp.traces.symm, k.skel.nextT.trans kp.nextT.symm, k.skel.nextE.trans kp.nextE.symm,
      k.skel.nextS.trans kp.nextS.symm, k.skel.tracePool.trans kp.tracePool.symm,
      k.skel.eventPool.trans kp.eventPool.symm, k.skel.strPool.trans kp.strPool.symm, k.skel.n.trans kp.n.symm,
      fun e => (k.skel.what e).trans (kp.what e).symm⟩, k.globals, k.rings, k.inflight, k.pending, ?_⟩
    intro b
    rw [k.ghost]
    simp only [upd]
    split
    · rename_i hb
      subst hb
      cases s.ghost b with
      | none => rfl
      | some gh => simp [Ghost.unread, unread]
    · rfl
  · simp only [Option.some.injEq] at h; subst h; exact k

theorem alike_step {s s' t : St W A} (k : Alike s s') {act : Act W A} (hr : isRead act = false)
    (h : s.step act = some t) : ∃ t', s'.step act = some t' ∧ Alike t t' := by
  cases act with
  | set x =>
    simp only [St.step, Option.some.injEq] at h; subst h
    exact ⟨_, rfl, k.skel, by simp only [k.globals], k.rings, k.inflight, k.pending, k.ghost⟩
  | newCollector size =>
    simp only [St.step, Option.some.injEq] at h; subst h
    exact ⟨_, rfl, k.skel, k.globals, by simp only [k.rings], k.inflight, k.pending, k.ghost⟩
  | new j now id source category ch =>
    simp only [St.step, Option.some.injEq] at h; subst h
    obtain ⟨k1, e1⟩ := skel_newCoreTrace k.skel s.globals ch.trace now id source category
    refine ⟨_, rfl, ?_⟩
    simp only [k.globals, e1, k.skel.n, k.inflight]
    refine ⟨k1, rfl, k.rings, rfl, k.pending, ?_⟩
    intro a
    simp only [upd]
    split
    · rfl
    · exact k.ghost a
  | getOrCreate j category => exact alike_ring k h
  | add i =>
    simp only [St.step] at h ⊢
    rw [k.inflight]
    split at h
    · simp only [Option.some.injEq] at h; subst h; exact ⟨s', rfl, k⟩
    · rw [k.rings]
      split at h
      · simp only [Option.some.injEq] at h; subst h; exact ⟨s', rfl, k⟩
      · split at h
        · rename_i hb
          simp only [hb, if_true]
          refine alike_ring (s' := { s' with inflight := s.inflight.eraseIdx i, rings := s.rings }) ?_ h
          exact ⟨k.skel, k.globals, rfl, rfl, k.pending, k.ghost⟩
        · rename_i hb
          simp only [hb, if_false]
          simp only [Option.some.injEq] at h; subst h; exact ⟨s', rfl, k⟩
  | beginResize j cap order => exact alike_ring k h
  | resizeNext j => exact alike_ring k h
  | free i =>
    simp only [St.step] at h ⊢
    rw [k.pending]
    split at h
    · simp only [Option.some.injEq] at h; subst h; exact ⟨s', rfl, k⟩
    · rename_i hd _
      simp only [Option.bind_eq_bind, Option.bind_eq_some_iff] at h
      obtain ⟨h', hf, h⟩ := h
      simp only [Option.pure_def, Option.some.injEq] at h
      subst h
      obtain ⟨h'', hf', k'⟩ := skel_free k.skel hd.addr hf
      rw [hf']
      refine ⟨_, rfl, k', k.globals, k.rings, k.inflight, rfl, ?_⟩
      intro a
      simp only [k.skel.traces]
      split
      · simp only [upd]
        split
        · rfl
        · exact k.ghost a
      · exact k.ghost a
  | call a env c ch =>
    simp only [St.step, k.skel.nextT] at h ⊢
    split at h
    · rename_i ha
      simp only [ha, if_true]
      simp only [Option.bind_eq_bind, Option.bind_eq_some_iff] at h
      obtain ⟨p, hp, h⟩ := h
      simp only [Option.pure_def, Option.some.injEq] at h
      subst h
      obtain ⟨p', hp', kp⟩ : ∃ p', s'.heap.call a ch env c = some p' ∧ Skel p.2 p'.2 := by
        cases c with
        | log kind format args callers =>
          simp only [Heap.call, Option.some.injEq] at hp ⊢; subst hp
          exact ⟨_, rfl, skel_log k.skel a ch env kind format args callers⟩
        | finish =>
          simp only [Heap.call, Option.some.injEq] at hp ⊢; subst hp
          refine ⟨_, rfl, ?_⟩
          simp only [Heap.finish, k.skel.traces]
          split
          · exact k.skel
          · exact skel_traces k.skel _
        | setMaxEvents m =>
          simp only [Heap.call, Option.some.injEq] at hp ⊢; subst hp
          refine ⟨_, rfl, ?_⟩
          simp only [Heap.setMaxEvents, k.skel.traces]
          exact skel_traces k.skel _
        | read n stacks => simp [isRead] at hr
      rw [hp']
      refine ⟨_, rfl, kp, k.globals, k.rings, k.inflight, k.pending, ?_⟩
      intro b
      simp only [upd]
      split
      · rename_i hb
        subst hb
        rw [k.ghost]
        cases s.ghost b with
        | none => rfl
        | some gh =>
          cases c with
          | read n stacks => simp [isRead] at hr
          | _ => simp [Ghost.unread, unread]
      · exact k.ghost b
    · rename_i ha
      simp only [ha, if_false]
      simp only [Option.some.injEq] at h; subst h; exact ⟨s', rfl, k⟩
  | gcTrace i =>
    simp only [St.step, Option.some.injEq] at h; subst h
    exact ⟨_, rfl, ⟨k.skel.traces, k.skel.nextT, k.skel.nextE, k.skel.nextS, by simp only [k.skel.tracePool],
      k.skel.eventPool, k.skel.strPool, k.skel.n, k.skel.what⟩, k.globals, k.rings, k.inflight, k.pending, k.ghost⟩
  | gcEvent i =>
    simp only [St.step, Option.some.injEq] at h; subst h
    exact ⟨_, rfl, ⟨k.skel.traces, k.skel.nextT, k.skel.nextE, k.skel.nextS, k.skel.tracePool,
      by simp only [k.skel.eventPool], k.skel.strPool, k.skel.n, k.skel.what⟩, k.globals, k.rings, k.inflight,
      k.pending, k.ghost⟩
  | gcStr i =>
    simp only [St.step, Option.some.injEq] at h; subst h
    exact ⟨_, rfl, ⟨k.skel.traces, k.skel.nextT, k.skel.nextE, k.skel.nextS, k.skel.tracePool,
      k.skel.eventPool, by simp only [k.skel.strPool], k.skel.n, k.skel.what⟩, k.globals, k.rings, k.inflight,
      k.pending, k.ghost⟩

theorem alike_run (acts : List (Act W A)) {s s' t : St W A} {f : List (Ring.Spec.Family Handle)} (hi : Inv s f) (k : Alike s s')
    (h : s.run acts = some t) : ∃ t', s'.run (withoutReads acts) = some t' ∧ Alike t t' := by
  induction acts generalizing s s' f with
  | nil => simp only [St.run, Option.some.injEq] at h; subst h; exact ⟨s', rfl, k⟩
  | cons act acts ih =>
    simp only [St.run, Option.bind_eq_bind, Option.bind_eq_some_iff] at h
    obtain ⟨u, hu, h⟩ := h
    obtain ⟨u₀, f', hu', hi'⟩ := inv_step hi act
    rw [hu] at hu'
    obtain rfl := Option.some.inj hu'
    by_cases hr : isRead act = true
    · have e : withoutReads (act :: acts) = withoutReads acts := by simp [withoutReads, hr]
      rw [e]
      cases act with
      | call a env c ch =>
        cases c with
        | read n stacks => exact ih hi' (alike_read hi k hu) h
        | _ => simp [isRead] at hr
      | _ => simp [isRead] at hr
    · simp only [Bool.not_eq_true] at hr
      have e : withoutReads (act :: acts) = act :: withoutReads acts := by simp [withoutReads, hr]
      obtain ⟨u', hu', k'⟩ := alike_step k hr hu
      obtain ⟨t', ht', k''⟩ := ih hi' k' h
      exact ⟨t', by rw [e]; simp [St.run, hu', ht'], k''⟩

/-- The calls on record were made by the program. -/
theorem hist_step {s t : St W A} {f : List (Ring.Spec.Family Handle)} (hi : Inv s f) {act : Act W A}
    (h : s.step act = some t) {a : Nat} {gh : Ghost W A} (hg : t.ghost a = some gh) :
    (∃ gh', s.ghost a = some gh' ∧ gh.hist = gh'.hist ++ callsAt a [act]) ∨ (gh.hist = [] ∧ callsAt a [act] = []) := by
  have same : t.ghost = s.ghost → callsAt a [act] = [] →
      (∃ gh', s.ghost a = some gh' ∧ gh.hist = gh'.hist ++ callsAt a [act]) :=
    fun e e' => ⟨gh, by rw [← e]; exact hg, by rw [e', List.append_nil]⟩
  cases act with
  | set x => simp only [St.step, Option.some.injEq] at h; subst h; exact .inl (same rfl rfl)
  | newCollector size => simp only [St.step, Option.some.injEq] at h; subst h; exact .inl (same rfl rfl)
  | new k now id source category ch =>
    simp only [St.step, Option.some.injEq] at h; subst h
    simp only [upd] at hg
    split at hg
    · obtain rfl := Option.some.inj hg
      exact .inr ⟨rfl, rfl⟩
    · exact .inl ⟨gh, hg, by simp [callsAt]⟩
  | getOrCreate k category => exact .inl (same (ring_same h).1 rfl)
  | add i =>
    simp only [St.step] at h
    split at h
    · simp only [Option.some.injEq] at h; subst h; exact .inl (same rfl rfl)
    · split at h
      · simp only [Option.some.injEq] at h; subst h; exact .inl (same rfl rfl)
      · split at h
        · exact .inl (same (ring_same h).1 rfl)
        · simp only [Option.some.injEq] at h; subst h; exact .inl (same rfl rfl)
  | beginResize k cap order => exact .inl (same (ring_same h).1 rfl)
  | resizeNext k => exact .inl (same (ring_same h).1 rfl)
  | free i =>
    simp only [St.step] at h
    split at h
    · simp only [Option.some.injEq] at h; subst h; exact .inl (same rfl rfl)
    · simp only [Option.bind_eq_bind, Option.bind_eq_some_iff] at h
      obtain ⟨h', hf, h⟩ := h
      simp only [Option.pure_def, Option.some.injEq] at h
      subst h
      simp only at hg
      split at hg
      · simp only [upd] at hg
        split at hg
        · simp at hg
        · exact .inl ⟨gh, hg, by simp [callsAt]⟩
      · exact .inl ⟨gh, hg, by simp [callsAt]⟩
  | call b env c ch =>
    simp only [St.step] at h
    split at h
    · simp only [Option.bind_eq_bind, Option.bind_eq_some_iff] at h
      obtain ⟨q, hq, h⟩ := h
      simp only [Option.pure_def, Option.some.injEq] at h
      subst h
      simp only [upd] at hg
      split at hg
      · rename_i hb
        subst hb
        cases hs : s.ghost a with
        | none => simp [hs] at hg
        | some gh' =>
          simp only [hs, Option.map_some, Option.some.injEq] at hg
          subst hg
          exact .inl ⟨gh', rfl, by simp [callsAt]⟩
      · rename_i hb
        exact .inl ⟨gh, hg, by simp [callsAt, Ne.symm hb]⟩
    · rename_i hb
      simp only [Option.some.injEq] at h
      subst h
      have hne : b ≠ a := fun e => hb (e ▸ hi.lt a gh hg)
      exact .inl ⟨gh, hg, by simp [callsAt, hne]⟩
  | gcTrace i => simp only [St.step, Option.some.injEq] at h; subst h; exact .inl (same rfl rfl)
  | gcEvent i => simp only [St.step, Option.some.injEq] at h; subst h; exact .inl (same rfl rfl)
  | gcStr i => simp only [St.step, Option.some.injEq] at h; subst h; exact .inl (same rfl rfl)

theorem calls_cons_act (a : Nat) (act : Act W A) (acts : List (Act W A)) :
    callsAt a (act :: acts) = callsAt a [act] ++ callsAt a acts := by
  cases act with
  | call b env c ch => simp only [callsAt]; split <;> rfl
  | _ => rfl

/-- The history of a trace is the last part of the calls on its object. -/
theorem hist_run (acts : List (Act W A)) {s t : St W A} {f : List (Ring.Spec.Family Handle)} (hi : Inv s f)
    (h : s.run acts = some t) {a : Nat} {gh : Ghost W A} (hg : t.ghost a = some gh) :
    (∃ gh', s.ghost a = some gh' ∧ gh.hist = gh'.hist ++ callsAt a acts) ∨
    ∃ before, callsAt a acts = before ++ gh.hist := by
  induction acts generalizing s f with
  | nil =>
    simp only [St.run, Option.some.injEq] at h
    subst h
    exact .inl ⟨gh, hg, by simp [callsAt]⟩
  | cons act acts ih =>
    simp only [St.run, Option.bind_eq_bind, Option.bind_eq_some_iff] at h
    obtain ⟨u, hu, h⟩ := h
    obtain ⟨u', f', hu', hi'⟩ := inv_step hi act
    rw [hu] at hu'
    obtain rfl := Option.some.inj hu'
    rw [calls_cons_act]
    rcases ih hi' h with ⟨gh', hg', e⟩ | ⟨before, e⟩
    · rcases hist_step hi hu hg' with ⟨gh₀, h0, e0⟩ | ⟨e0, -⟩
      · exact .inl ⟨gh₀, h0, by rw [e, e0, List.append_assoc]⟩
      · exact .inr ⟨callsAt a [act], by rw [e, e0, List.nil_append]⟩
    · exact .inr ⟨callsAt a [act] ++ before, by rw [e, List.append_assoc]⟩

theorem mem_calls {a : Nat} {acts : List (Act W A)} {env : Env W} {c : Call A} (h : (env, c) ∈ callsAt a acts) :
    ∃ ch, .call a env c ch ∈ acts := by
  induction acts with
  | nil => cases h
  | cons act acts ih =>
    rw [calls_cons_act] at h
    rcases List.mem_append.mp h with h1 | h
    · clear h
      cases act with
      | call b env' c' ch =>
        simp only [callsAt] at h1
        split at h1
        · rename_i hb
          subst hb
          obtain ⟨rfl, rfl⟩ := Prod.mk.inj (List.mem_singleton.mp h1)
          exact ⟨ch, List.mem_cons_self⟩
        · cases h1
      | _ => cases h1
    · obtain ⟨ch, hm⟩ := ih h
      exact ⟨ch, List.mem_cons_of_mem _ hm⟩

theorem shown_live {s : St W A} {f : List (Ring.Spec.Family Handle)} (hi : Inv s f) {a : Nat} {gh : Ghost W A}
    (hg : s.ghost a = some gh) (env : Env W) (n : Int) (stacks : Bool) (ch : Choice) :
    shownAt s a env n stacks ch = some (((Abs.new gh.g.traceMaxEvents).run gh.hist).read
      { source := gh.source, id := gh.id, category := gh.category, start := gh.start, nostack := gh.g.traceNoStacks }
      env n stacks) := by
  obtain ⟨sns, h', h1, -, h3, -⟩ := call_spec hi.mem a ch env (.read n stacks)
  have hl := hi.live a gh hg
  rw [Ghost.fresh, new_conc (W := W), run_conc] at hl
  rw [← Option.some.inj hl, step_conc] at h3
  simp only [Option.some.injEq, Prod.mk.injEq] at h3
  simp only [shownAt, h1, Option.map_some, ← h3.2, Abs.out]

/-! ## Theorems -/

/-- **C114**: reads leave no mark on what is collected. Take the reads out of any program, whatever they asked for and
whenever they were made: every category holds the same traces, the same traces are on their way in and out, each
trace has the same identity, the same state and the same event objects, and the same objects are pooled. -/
theorem C114_same_traces (acts : List (Act W A)) :
    ∃ s s' : St W A, St.init.run acts = some s ∧ St.init.run (withoutReads acts) = some s' ∧
      s'.rings = s.rings ∧ s'.inflight = s.inflight ∧ s'.pending = s.pending ∧ s'.globals = s.globals ∧
      s'.heap.traces = s.heap.traces ∧ s'.heap.n = s.heap.n ∧ s'.heap.tracePool = s.heap.tracePool ∧
      s'.heap.eventPool = s.heap.eventPool ∧ s'.heap.strPool = s.heap.strPool := by
  obtain ⟨s, f, h, hi⟩ := inv_run (inv_init (W := W) (A := A)) acts
  obtain ⟨s', h', k⟩ := alike_run acts (inv_init)
    ⟨⟨rfl, rfl, rfl, rfl, rfl, rfl, rfl, rfl, fun _ => rfl⟩, rfl, rfl, rfl, rfl, fun _ => rfl⟩ h
  exact ⟨s, s', h, h', k.rings, k.inflight, k.pending, k.globals, k.skel.traces, k.skel.n, k.skel.tracePool,
    k.skel.eventPool, k.skel.strPool⟩

/-- **C114**: a read of a trace that the collector holds shows the same events whether or not anyone looked before,
with the same times, stacks and error marks, and with the same texts but for lazy events, each of which shows its own
arguments as they were when someone first looked; without looks, as they are now. -/
theorem C114_same_events (acts : List (Act W A)) (s s' : St W A)
    (h : St.init.run acts = some s) (h' : St.init.run (withoutReads acts) = some s') (hd : Handle)
    (hh : hd ∈ held s) (env : Env W) (n : Int) (stacks : Bool) (ch ch' : Choice) :
    ∃ evs evs', shownAt s hd.addr env n stacks ch = some evs ∧ shownAt s' hd.addr env n stacks ch' = some evs' ∧
      List.Forall₂ (SameLook acts hd.addr env) evs evs' := by
  obtain ⟨s₀, f, h0, hi⟩ := inv_run (inv_init (W := W) (A := A)) acts
  rw [h] at h0; obtain rfl := Option.some.inj h0
  obtain ⟨s₀', f', h0', hi'⟩ := inv_run (inv_init (W := W) (A := A)) (withoutReads acts)
  rw [h'] at h0'; obtain rfl := Option.some.inj h0'
  obtain ⟨s₁, h1, k⟩ := alike_run acts (inv_init)
    ⟨⟨rfl, rfl, rfl, rfl, rfl, rfl, rfl, rfl, fun _ => rfl⟩, rfl, rfl, rfl, rfl, fun _ => rfl⟩ h
  rw [h'] at h1; obtain rfl := Option.some.inj h1
  rw [held_eq hi] at hh
  obtain ⟨gh, hg, -⟩ := hi.plive hd hh
  have hg' : s'.ghost hd.addr = some gh.unread := by rw [k.ghost, hg]; rfl
  refine ⟨_, _, shown_live hi hg env n stacks ch, shown_live hi' hg' env n stacks ch', ?_⟩
  refine read_rel (sameEntries_run gh.hist ⟨rfl, rfl, rfl, rfl, rfl⟩) _ env n stacks _
    (fun k hk => ⟨rfl, rfl, rfl, .inl ⟨rfl, rfl, k, hk, rfl⟩⟩) ?_
  intro x hx x' hx' he
  refine ⟨by simp [Stored.event, he], by simp [Stored.event, he], by simp [Stored.event, he], .inr ?_⟩
  rcases first_mem gh.hist hx with ⟨_, hm, -⟩ | ⟨before, after, hb, hf⟩
  · simp [Abs.new] at hm
  · rcases hist_run acts inv_init h hg with ⟨_, hm, -⟩ | ⟨before', e⟩
    · simp [St.init] at hm
    · have hn : x'.firstRead = none := never_read gh.hist (by simp [Abs.new]) x' hx'
      refine ⟨before' ++ before, _, _, _, _, _, after, by rw [e, hb, List.append_assoc], rfl, ?_, ?_⟩
      · intro hl
        simp [Stored.event, Stored.text, he, hl]
      · intro hl
        refine ⟨x.firstRead.getD env.w, ?_, by simp [Stored.event, Stored.text, hl],
          by simp [Stored.event, Stored.text, he, hl, hn]⟩
        cases hx : x.firstRead with
        | none => rw [hx] at hf; exact .inl ⟨rfl, hf⟩
        | some w => rw [hx] at hf; exact .inr hf

/-- **C114**: for a trace whose lazy events keep their arguments, nobody can tell whether it was looked at. -/
theorem C114_invisible (acts : List (Act W A)) (s s' : St W A)
    (h : St.init.run acts = some s) (h' : St.init.run (withoutReads acts) = some s') (hd : Handle)
    (hh : hd ∈ held s) (hst : Steady acts hd.addr) (env : Env W) (n : Int) (stacks : Bool) (ch ch' : Choice) :
    shownAt s' hd.addr env n stacks ch' = shownAt s hd.addr env n stacks ch := by
  obtain ⟨evs, evs', e, e', hr⟩ := C114_same_events acts s s' h h' hd hh env n stacks ch ch'
  rw [e, e']
  congr 1
  clear e e'
  induction hr with
  | nil => rfl
  | cons hx _ ih =>
    rename_i x x' _ _ _
    rw [ih]
    congr 1
    obtain ⟨h1, h2, h3, h4⟩ := hx
    have hw : x'.what = x.what := by
      rcases h4 with h4 | ⟨before, env, kind, format, args, callers, after, hm, -, he, hl⟩
      · exact h4.1
      · cases hk : isLazy kind with
        | false => rw [(he hk).1, (he hk).2]
        | true =>
          obtain ⟨w, -, e1, e2⟩ := hl hk
          obtain ⟨ch, hm⟩ := mem_calls (a := hd.addr) (acts := acts) (env := env)
            (c := .log kind format args callers) (by rw [hm]; simp)
          rw [e1, e2]; exact hst env kind format args callers ch hm hk _ w
    cases x; cases x'
    simp_all

section Examples

private instance lookSys : Sys Nat Unit := ⟨fun w f args => f ++ if args.isEmpty then "" else toString w⟩

private def moment (w : Nat) : Env Nat := { now := { wall := w, mono := none }, w }

/-- A request that logs its counter lazily and is still going; someone looks, or not. -/
private def exLook (looks : List (Act Nat Unit)) : List (Act Nat Unit) :=
  [.newCollector 10, .new 0 (moment 0).now "A" "src" "cat" {}, .getOrCreate 0 "cat", .add 0,
   .call 0 (moment 1) (.log .lazyTracef "count " [()] []) {}, .call 0 (moment 2) (.log .tracef "count " [()] []) {}] ++ looks

/-- The condition about lazy events is needed: with a look in between, a later read shows an old value for good; without,
the current one. -/
theorem C114_lazy_text :
    ∃ (acts : List (Act Nat Unit)) (s s' : St Nat Unit), St.init.run acts = some s ∧
      St.init.run (withoutReads acts) = some s' ∧ (⟨0, 0⟩ : Handle) ∈ held s ∧
      (shownAt s 0 (moment 9) (-1) false {}).map (fun evs => evs.map Event.what) = some ["count 5", "count 2"] ∧
      (shownAt s' 0 (moment 9) (-1) false {}).map (fun evs => evs.map Event.what) = some ["count 9", "count 2"] := by
  have key : (St.init.run (exLook [.call 0 (moment 5) (.read (-1) false) {}])).map (fun s => (held s,
      (shownAt s 0 (moment 9) (-1) false {}).map (fun evs => evs.map Event.what))) =
      some ([⟨0, 0⟩], some ["count 5", "count 2"]) := by decide +kernel
  have key' : (St.init.run (exLook [])).map (fun s =>
      (shownAt s 0 (moment 9) (-1) false {}).map (fun evs => evs.map Event.what)) =
      some (some ["count 9", "count 2"]) := by decide +kernel
  obtain ⟨s, h1, e1⟩ := Option.map_eq_some_iff.mp key
  obtain ⟨s', h2, e2⟩ := Option.map_eq_some_iff.mp key'
  simp only [Prod.mk.injEq] at e1
  exact ⟨_, s, s', h1, h2, by rw [e1.1]; simp, e1.2, e2⟩

private def exSteady : List (Act Nat Unit) :=
  [.newCollector 10, .new 0 (moment 0).now "A" "src" "cat" {}, .getOrCreate 0 "cat", .add 0,
   .call 0 (moment 1) (.log .lazyTracef "x" [] []) {}, .call 0 (moment 3) (.read (-1) true) {},
   .call 0 (moment 4) (.log .errorf "y" [()] []) {}]

/-- The hypotheses of `C114_invisible` can be met by a program with lazy events and with reads. -/
example : Steady exSteady 0 ∧ (St.init.run exSteady).map (fun s => (held s,
    (shownAt s 0 (moment 9) (-1) false {}).map (fun evs => evs.map Event.what))) =
    some ([⟨0, 0⟩], some ["x", "y4"]) ∧ exSteady.length = 7 ∧ (withoutReads exSteady).length = 6 := by
  refine ⟨?_, by decide +kernel, rfl, rfl⟩
  intro env kind format args callers ch hm hl w w'
  simp [exSteady] at hm
  rcases hm with ⟨-, ⟨-, rfl, rfl, -⟩, -⟩ | ⟨-, ⟨rfl, -⟩, -⟩
  · rfl
  · simp [isLazy] at hl

end Examples

end Trc.Heap
