import Verif.Props.Heap

/-!
# C23: allocation of events and stringers
-/

set_option linter.unusedSectionVars false
set_option linter.unusedVariables false
set_option linter.unusedSimpArgs false

namespace Trc.Heap

open Core

variable {W A : Type} [Sys W A]

/-- The counters agree with the objects there are, and none is made unasked. -/
structure Allocs (h : Heap A) : Prop where
  event : h.n.eventAlloc = h.nextE
  eventLe : h.n.eventAlloc ≤ h.n.eventNew
  str : h.n.strAlloc = h.nextS
  strLe : h.n.strAlloc ≤ h.n.strNew

/-- What `Allocs` depends on. -/
def Heap.key (h : Heap A) : (Nat × Nat × Nat) × (Nat × Nat × Nat) :=
  ((h.n.eventAlloc, h.nextE, h.n.eventNew), (h.n.strAlloc, h.nextS, h.n.strNew))

theorem Allocs.congr {h h' : Heap A} (o : Allocs h) (k : h'.key = h.key) : Allocs h' := by
  simp only [Heap.key, Prod.mk.injEq] at k
  obtain ⟨⟨k1, k2, k3⟩, k4, k5, k6⟩ := k
  constructor
  · rw [k1, k2]; exact o.event
  · rw [k1, k3]; exact o.eventLe
  · rw [k4, k5]; exact o.str
  · rw [k4, k6]; exact o.strLe

theorem key_appendStack (h : Heap A) (e : Nat) (fr : Frame) (grow : Nat → Nat) : (h.appendStack e fr grow).key = h.key := by
  unfold Heap.appendStack
  simp only
  split <;> rfl

theorem key_framesLoop (rest : List StdFrame) : ∀ (h : Heap A) (e : Nat) (grow : Nat → Nat) (fr : StdFrame) (more : Bool),
    (h.framesLoop e grow fr more rest).key = h.key := by
  induction rest with
  | nil =>
    intro h e grow fr more
    unfold Heap.framesLoop
    split
    · rfl
    · simp only
      split
      · exact key_appendStack ..
      · rfl
  | cons fr' rest ih =>
    intro h e grow fr more
    unfold Heap.framesLoop
    split
    · rfl
    · simp only
      rw [ih]
      split
      · exact key_appendStack ..
      · rfl

theorem key_getStack (h : Heap A) (e : Nat) (grow : Nat → Nat) : (h.getStack e grow).1.key = h.key := by
  unfold Heap.getStack
  split
  · rfl
  · split
    · rfl
    · exact key_framesLoop ..

theorem key_snapshot {h : Heap A} {e : Nat} {w : W} {stacks : Bool} {grow : Nat → Nat} {p : HSnap × Heap A}
    (hp : h.snapshot e w stacks grow = some p) : p.2.key = h.key := by
  unfold Heap.snapshot at hp
  simp only [Option.bind_eq_bind, Option.bind_eq_some_iff] at hp
  obtain ⟨s, -, hp⟩ := hp
  simp only [Option.pure_def, Option.some.injEq] at hp
  subst hp
  show (if stacks then h.getStack e grow else (h, ⟨0, 0⟩)).1.key = h.key
  split
  · exact key_getStack ..
  · rfl

theorem key_snapshotEvents (es : List Nat) : ∀ {h : Heap A} {w : W} {stacks : Bool} {grow : Nat → Nat} {p : List HSnap × Heap A},
    h.snapshotEvents w stacks grow es = some p → p.2.key = h.key := by
  induction es with
  | nil => intro h w stacks grow p hp; simp only [Heap.snapshotEvents, Option.some.injEq] at hp; subst hp; rfl
  | cons e es ih =>
    intro h w stacks grow p hp
    simp only [Heap.snapshotEvents, Option.bind_eq_bind, Option.bind_eq_some_iff] at hp
    obtain ⟨a, ha, b, hb, hp⟩ := hp
    simp only [Option.pure_def, Option.some.injEq] at hp
    subst hp
    show b.2.key = _
    rw [ih hb, key_snapshot ha]

theorem key_eventsDetail {h : Heap A} {a : Nat} {env : Env W} {n : Int} {stacks : Bool} {grow : Nat → Nat} {p : List HSnap × Heap A}
    (hp : h.eventsDetail a env n stacks grow = some p) : p.2.key = h.key := by
  unfold Heap.eventsDetail at hp
  simp only [Option.bind_eq_bind, Option.bind_eq_some_iff] at hp
  obtain ⟨latest, -, q, hq, hp⟩ := hp
  split at hp
  · simp only [Option.bind_eq_some_iff] at hp
    obtain ⟨evs, -, hp⟩ := hp
    simp only [Option.pure_def, Option.some.injEq] at hp
    subst hp
    exact (key_snapshotEvents _ hq : q.2.key = _)
  · simp only [Option.pure_def, Option.some.injEq] at hp
    subst hp
    exact (key_snapshotEvents _ hq : q.2.key = _)

theorem key_freeEvent {h h' : Heap A} {e : Nat} (hp : h.freeEvent e = some h') : h'.key = h.key := by
  unfold Heap.freeEvent at hp
  simp only [Option.bind_eq_bind, Option.bind_eq_some_iff] at hp
  obtain ⟨s, -, hp⟩ := hp
  simp only [Option.pure_def, Option.some.injEq] at hp
  subst hp
  rfl

theorem key_freeEvents (es : List Nat) : ∀ {h h' : Heap A}, h.freeEvents es = some h' → h'.key = h.key := by
  induction es with
  | nil => intro h h' hp; simp only [Heap.freeEvents, Option.some.injEq] at hp; subst hp; rfl
  | cons e es ih =>
    intro h h' hp
    simp only [Heap.freeEvents, Option.bind_eq_bind, Option.bind_eq_some_iff] at hp
    obtain ⟨a, ha, hp⟩ := hp
    rw [ih hp, key_freeEvent ha]

theorem key_free {h h' : Heap A} {a : Nat} (hp : h.free a = some h') : h'.key = h.key := by
  unfold Heap.free at hp
  split at hp
  · simp only [Option.some.injEq] at hp; subst hp; rfl
  · simp only [Option.bind_eq_bind, Option.bind_eq_some_iff] at hp
    obtain ⟨b, hb, hp⟩ := hp
    simp only [Option.pure_def, Option.some.injEq] at hp
    subst hp
    exact (key_freeEvents _ hb : b.key = _)

theorem key_newCoreTrace (h : Heap A) (g : Globals) (c : Option Nat) (now : Time) (id source category : String) :
    (h.newCoreTrace g c now id source category).1.key = h.key := by
  unfold Heap.newCoreTrace
  simp only
  cases choose h.tracePool c <;> rfl

theorem allocs_newStringer {h : Heap A} (o : Allocs h) (c : Option Nat) (z : Stringer A) : Allocs (h.newStringer c z).1 := by
  unfold Heap.newStringer Heap.getStr
  simp only
  cases choose h.strPool c with
  | none =>
    refine ⟨o.event, o.eventLe, ?_, ?_⟩
    · show h.n.strAlloc + 1 = h.nextS + 1
      rw [o.str]
    · show h.n.strAlloc + 1 ≤ h.n.strNew + 1
      have := o.strLe; omega
  | some s =>
    refine ⟨o.event, o.eventLe, o.str, ?_⟩
    show h.n.strAlloc ≤ h.n.strNew + 1
    have := o.strLe; omega

theorem allocs_newCoreEvent {h : Heap A} (o : Allocs h) (ch : Choice) (env : Env W) (flags : UInt8) (format : String)
    (args : List A) (callers : List StdFrame) : Allocs (h.newCoreEvent ch env flags format args callers).1 := by
  have k : Allocs ({ h with n := { h.n with eventNew := h.n.eventNew + 1 } } : Heap A) :=
    ⟨o.event, by show h.n.eventAlloc ≤ h.n.eventNew + 1; have := o.eventLe; omega, o.str, o.strLe⟩
  have k2 : Allocs (({ h with n := { h.n with eventNew := h.n.eventNew + 1 } } : Heap A).getEvent ch.event).1 := by
    unfold Heap.getEvent
    simp only
    cases choose h.eventPool ch.event with
    | none =>
      refine ⟨?_, ?_, o.str, o.strLe⟩
      · show h.n.eventAlloc + 1 = h.nextE + 1
        rw [o.event]
      · show h.n.eventAlloc + 1 ≤ h.n.eventNew + 1
        have := o.eventLe; omega
    | some e => exact k.congr rfl
  exact (allocs_newStringer k2 ch.str
    (if flags &&& flagLazy ≠ 0 then newLazyStringer format args else newNormalStringer env.w format args)).congr rfl

theorem allocs_logEvent {h : Heap A} (o : Allocs h) (a : Nat) (ch : Choice) (env : Env W) (flags : UInt8) (format : String)
    (args : List A) (callers : List StdFrame) : Allocs (h.logEvent a ch env flags format args callers) := by
  unfold Heap.logEvent
  simp only
  split
  · exact o.congr rfl
  · exact (allocs_newCoreEvent o ch env (flags ||| (h.traces a).nostackflag) format args callers).congr rfl

theorem allocs_call {h : Heap A} (o : Allocs h) {a : Nat} {ch : Choice} {env : Env W} {c : Call A} {p : List HSnap × Heap A}
    (hp : h.call a ch env c = some p) : Allocs p.2 := by
  cases c with
  | log kind format args callers =>
    simp only [Heap.call, Option.some.injEq] at hp
    subst hp
    show Allocs (h.log a ch env kind format args callers)
    unfold Heap.log
    split
    · exact o
    · have o' : Allocs ({ h with traces := upd h.traces a { h.traces a with errored := true } } : Heap A) := o.congr rfl
      cases kind
      · exact allocs_logEvent o a ch env _ format args callers
      · exact allocs_logEvent o a ch env _ format args callers
      · exact allocs_logEvent o' a ch env _ format args callers
      · exact allocs_logEvent o' a ch env _ format args callers
  | finish =>
    simp only [Heap.call, Option.some.injEq] at hp
    subst hp
    show Allocs (h.finish a env.now)
    unfold Heap.finish
    simp only
    split
    · exact o
    · exact o.congr rfl
  | setMaxEvents m =>
    simp only [Heap.call, Option.some.injEq] at hp
    subst hp
    exact o.congr rfl
  | read n stacks => exact o.congr (key_eventsDetail hp)

theorem allocs_ring {s t : St W A} {k : Nat} {op : Ring.MOp Handle} (h : s.ring k op = some t) : t.heap = s.heap := by
  unfold St.ring at h
  split at h
  · simp only [Option.some.injEq] at h; subst h; rfl
  · simp only [Option.bind_eq_bind, Option.bind_eq_some_iff] at h
    obtain ⟨p, -, h⟩ := h
    simp only [Option.pure_def, Option.some.injEq] at h
    subst h; rfl

theorem allocs_step {s t : St W A} (o : Allocs s.heap) {act : Act W A} (h : s.step act = some t) : Allocs t.heap := by
  cases act with
  | set x => simp only [St.step, Option.some.injEq] at h; subst h; exact o
  | newCollector size => simp only [St.step, Option.some.injEq] at h; subst h; exact o
  | new k now id source category ch =>
    simp only [St.step, Option.some.injEq] at h; subst h
    exact o.congr (key_newCoreTrace ..)
  | getOrCreate k category => rw [allocs_ring h]; exact o
  | add i =>
    simp only [St.step] at h
    split at h
    · simp only [Option.some.injEq] at h; subst h; exact o
    · split at h
      · simp only [Option.some.injEq] at h; subst h; exact o
      · split at h
        · rw [allocs_ring h]; exact o
        · simp only [Option.some.injEq] at h; subst h; exact o
  | beginResize k cap order => rw [allocs_ring h]; exact o
  | resizeNext k => rw [allocs_ring h]; exact o
  | free i =>
    simp only [St.step] at h
    split at h
    · simp only [Option.some.injEq] at h; subst h; exact o
    · simp only [Option.bind_eq_bind, Option.bind_eq_some_iff] at h
      obtain ⟨h', hf, h⟩ := h
      simp only [Option.pure_def, Option.some.injEq] at h
      subst h
      exact o.congr (key_free hf)
  | call b env c ch =>
    simp only [St.step] at h
    split at h
    · simp only [Option.bind_eq_bind, Option.bind_eq_some_iff] at h
      obtain ⟨p, hp, h⟩ := h
      simp only [Option.pure_def, Option.some.injEq] at h
      subst h
      exact allocs_call o hp
    · simp only [Option.some.injEq] at h; subst h; exact o
  | gcTrace i => simp only [St.step, Option.some.injEq] at h; subst h; exact o.congr rfl
  | gcEvent i => simp only [St.step, Option.some.injEq] at h; subst h; exact o.congr rfl
  | gcStr i => simp only [St.step, Option.some.injEq] at h; subst h; exact o.congr rfl

/-- **C23**, the allocation counters of events and stringers: they count the objects there are, and are at
most the numbers requested. -/
theorem C23_allocated (acts : List (Act W A)) (s : St W A) (hr : St.init.run acts = some s) :
    s.heap.n.eventAlloc = s.heap.nextE ∧ s.heap.n.eventAlloc ≤ s.heap.n.eventNew ∧
    s.heap.n.strAlloc = s.heap.nextS ∧ s.heap.n.strAlloc ≤ s.heap.n.strNew := by
  have o : Allocs (St.init : St W A).heap := ⟨rfl, Nat.le_refl _, rfl, Nat.le_refl _⟩
  revert o hr
  generalize (St.init : St W A) = s₀
  induction acts generalizing s₀ with
  | nil =>
    intro hr o
    simp only [St.run, Option.some.injEq] at hr
    subst hr
    exact ⟨o.event, o.eventLe, o.str, o.strLe⟩
  | cons act acts ih =>
    intro hr o
    simp only [St.run, Option.bind_eq_bind, Option.bind_eq_some_iff] at hr
    obtain ⟨t, ht, hr⟩ := hr
    exact ih t hr (allocs_step o ht)

private instance : Sys Unit Nat := ⟨fun _ f args => f ++ toString args⟩

private def exEnv : Env Unit := { now := { wall := 0, mono := none }, w := () }

/-- Three events, of which the last takes the object of the first: two were allocated. -/
example : (((St.init : St Unit Nat).run
    [.newCollector 1, .new 0 exEnv.now "A" "src" "cat" {}, .getOrCreate 0 "cat", .add 0, .call 0 exEnv (.log .tracef "a" [] []) {},
     .call 0 exEnv .finish {}, .new 0 exEnv.now "B" "src" "cat" {}, .add 0, .call 1 exEnv (.log .lazyErrorf "b" [] []) {}, .free 0,
     .call 1 exEnv (.log .tracef "c" [] []) { event := some 0 }]).map
      fun s => (s.heap.n.eventNew, s.heap.n.eventAlloc, s.heap.n.eventFree, s.heap.n.strAlloc)) = some (3, 2, 1, 3) := by decide +kernel

end Trc.Heap
