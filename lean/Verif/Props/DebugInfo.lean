import Verif.Props.Counters
import Verif.Web.DebugInfo
import Mathlib.Tactic.Linarith
import Mathlib.Data.Rat.Cast.Order
import Mathlib.Algebra.Order.Field.Basic

/-!
# C122: the debug information on the page
-/

set_option linter.unusedSectionVars false
set_option linter.unusedVariables false
set_option linter.unusedSimpArgs false

namespace Trc.Heap

open Core Web

variable {W A : Type} [Sys W A]

/-! ## Objects that are used again were freed before -/

/-- For each kind: the objects requested and those in the pool are at most those allocated and those freed; equally many
(`exact`) as long as the garbage collector took none from a pool. -/
structure Reuse (exact : Bool) (h : Heap A) : Prop where
  trace : h.n.traceNew + h.tracePool.length ≤ h.n.traceAlloc + h.n.traceFree
  event : h.n.eventNew + h.eventPool.length ≤ h.n.eventAlloc + h.n.eventFree
  str : h.n.strNew + h.strPool.length ≤ h.n.strAlloc + h.n.strFree
  same : exact = true → h.n.traceNew + h.tracePool.length = h.n.traceAlloc + h.n.traceFree ∧
    h.n.eventNew + h.eventPool.length = h.n.eventAlloc + h.n.eventFree ∧
    h.n.strNew + h.strPool.length = h.n.strAlloc + h.n.strFree

/-- What `Reuse` depends on. -/
def Heap.pools (h : Heap A) : Counters × Nat × Nat × Nat := (h.n, h.tracePool.length, h.eventPool.length, h.strPool.length)

theorem Reuse.congr {b : Bool} {h h' : Heap A} (o : Reuse b h) (k : h'.pools = h.pools) : Reuse b h' := by
  simp only [Heap.pools, Prod.mk.injEq] at k
  obtain ⟨k1, k2, k3, k4⟩ := k
  constructor
  · rw [k1, k2]; exact o.trace
  · rw [k1, k3]; exact o.event
  · rw [k1, k4]; exact o.str
  · rw [k1, k2, k3, k4]; exact o.same

theorem pools_appendStack (h : Heap A) (e : Nat) (fr : Frame) (grow : Nat → Nat) : (h.appendStack e fr grow).pools = h.pools := by
  unfold Heap.appendStack
  simp only
  split <;> rfl

theorem pools_framesLoop (rest : List StdFrame) : ∀ (h : Heap A) (e : Nat) (grow : Nat → Nat) (fr : StdFrame) (more : Bool),
    (h.framesLoop e grow fr more rest).pools = h.pools := by
  induction rest with
  | nil =>
    intro h e grow fr more
    unfold Heap.framesLoop
    split
    · rfl
    · simp only
      split
      · exact pools_appendStack ..
      · rfl
  | cons fr' rest ih =>
    intro h e grow fr more
    unfold Heap.framesLoop
    split
    · rfl
    · simp only
      rw [ih]
      split
      · exact pools_appendStack ..
      · rfl

theorem pools_getStack (h : Heap A) (e : Nat) (grow : Nat → Nat) : (h.getStack e grow).1.pools = h.pools := by
  unfold Heap.getStack
  split
  · rfl
  · split
    · rfl
    · exact pools_framesLoop ..

theorem pools_snapshot {h : Heap A} {e : Nat} {w : W} {stk : Bool} {grow : Nat → Nat} {p : HSnap × Heap A}
    (hp : h.snapshot e w stk grow = some p) : p.2.pools = h.pools := by
  unfold Heap.snapshot at hp
  simp only [Option.bind_eq_bind, Option.bind_eq_some_iff] at hp
  obtain ⟨s, -, hp⟩ := hp
  simp only [Option.pure_def, Option.some.injEq] at hp
  subst hp
  show (if stk then h.getStack e grow else (h, ⟨0, 0⟩)).1.pools = h.pools
  split
  · exact pools_getStack ..
  · rfl

theorem pools_snapshotEvents (es : List Nat) : ∀ {h : Heap A} {w : W} {stk : Bool} {grow : Nat → Nat} {p : List HSnap × Heap A},
    h.snapshotEvents w stk grow es = some p → p.2.pools = h.pools := by
  induction es with
  | nil => intro h w stk grow p hp; simp only [Heap.snapshotEvents, Option.some.injEq] at hp; subst hp; rfl
  | cons e es ih =>
    intro h w stk grow p hp
    simp only [Heap.snapshotEvents, Option.bind_eq_bind, Option.bind_eq_some_iff] at hp
    obtain ⟨a, ha, b, hb, hp⟩ := hp
    simp only [Option.pure_def, Option.some.injEq] at hp
    subst hp
    show b.2.pools = _
    rw [ih hb, pools_snapshot ha]

theorem pools_eventsDetail {h : Heap A} {a : Nat} {env : Env W} {n : Int} {stk : Bool} {grow : Nat → Nat} {p : List HSnap × Heap A}
    (hp : h.eventsDetail a env n stk grow = some p) : p.2.pools = h.pools := by
  unfold Heap.eventsDetail at hp
  simp only [Option.bind_eq_bind, Option.bind_eq_some_iff] at hp
  obtain ⟨latest, -, q, hq, hp⟩ := hp
  split at hp
  · simp only [Option.bind_eq_some_iff] at hp
    obtain ⟨evs, -, hp⟩ := hp
    simp only [Option.pure_def, Option.some.injEq] at hp
    subst hp
    exact (pools_snapshotEvents _ hq : q.2.pools = _)
  · simp only [Option.pure_def, Option.some.injEq] at hp
    subst hp
    exact (pools_snapshotEvents _ hq : q.2.pools = _)

theorem reuse_freeEvent {b : Bool} {h h' : Heap A} (o : Reuse b h) {e : Nat} (hp : h.freeEvent e = some h') : Reuse b h' := by
  unfold Heap.freeEvent at hp
  simp only [Option.bind_eq_bind, Option.bind_eq_some_iff] at hp
  obtain ⟨s, -, hp⟩ := hp
  simp only [Option.pure_def, Option.some.injEq] at hp
  subst hp
  have h2 := o.event
  have h3 := o.str
  refine ⟨o.trace, ?_, ?_, fun hb => ⟨(o.same hb).1, ?_, ?_⟩⟩
  · simp only [List.length_cons]; omega
  · simp only [List.length_cons]; omega
  · have := (o.same hb).2.1; simp only [List.length_cons]; omega
  · have := (o.same hb).2.2; simp only [List.length_cons]; omega

theorem reuse_freeEvents (es : List Nat) : ∀ {b : Bool} {h h' : Heap A}, Reuse b h → h.freeEvents es = some h' → Reuse b h' := by
  induction es with
  | nil => intro b h h' o hp; simp only [Heap.freeEvents, Option.some.injEq] at hp; subst hp; exact o
  | cons e es ih =>
    intro b h h' o hp
    simp only [Heap.freeEvents, Option.bind_eq_bind, Option.bind_eq_some_iff] at hp
    obtain ⟨a, ha, hp⟩ := hp
    exact ih (reuse_freeEvent o ha) hp

theorem reuse_free {b : Bool} {h h' : Heap A} (o : Reuse b h) {a : Nat} (hp : h.free a = some h') : Reuse b h' := by
  unfold Heap.free at hp
  split at hp
  · simp only [Option.some.injEq] at hp; subst hp; exact ⟨o.trace, o.event, o.str, o.same⟩
  · simp only [Option.bind_eq_bind, Option.bind_eq_some_iff] at hp
    obtain ⟨g, hg, hp⟩ := hp
    simp only [Option.pure_def, Option.some.injEq] at hp
    subst hp
    have k := reuse_freeEvents _ o hg
    have h1 := k.trace
    refine ⟨?_, k.event, k.str, fun hb => ⟨?_, (k.same hb).2⟩⟩
    · simp only [List.length_cons]; omega
    · have := (k.same hb).1; simp only [List.length_cons]; omega

theorem choose_erase {pool : List Nat} {c : Option Nat} {x : Nat} (h : choose pool c = some x) : (pool.erase x).length + 1 = pool.length := by
  cases c with
  | none => cases h
  | some i =>
    have hm : x ∈ pool := List.mem_of_getElem? h
    rw [List.length_erase_of_mem hm]
    have := List.length_pos_of_mem hm
    omega

theorem reuse_newCoreTrace {b : Bool} {h : Heap A} (o : Reuse b h) (g : Globals) (c : Option Nat) (now : Time) (id source category : String) :
    Reuse b (h.newCoreTrace g c now id source category).1 := by
  unfold Heap.newCoreTrace
  simp only
  have h1 := o.trace
  cases hc : choose h.tracePool c with
  | none =>
    refine ⟨?_, o.event, o.str, fun hb => ⟨?_, (o.same hb).2⟩⟩
    · simp only; omega
    · have := (o.same hb).1; simp only; omega
  | some x =>
    have hx := choose_erase hc
    refine ⟨?_, o.event, o.str, fun hb => ⟨?_, (o.same hb).2⟩⟩
    · simp only; omega
    · have := (o.same hb).1; simp only; omega

theorem reuse_newStringer {b : Bool} {h : Heap A} (o : Reuse b h) (c : Option Nat) (z : Stringer A) : Reuse b (h.newStringer c z).1 := by
  unfold Heap.newStringer Heap.getStr
  simp only
  have h1 := o.str
  cases hc : choose h.strPool c with
  | none =>
    refine ⟨o.trace, o.event, ?_, fun hb => ⟨(o.same hb).1, (o.same hb).2.1, ?_⟩⟩
    · simp only; omega
    · have := (o.same hb).2.2; simp only; omega
  | some x =>
    have hx := choose_erase hc
    refine ⟨o.trace, o.event, ?_, fun hb => ⟨(o.same hb).1, (o.same hb).2.1, ?_⟩⟩
    · simp only; omega
    · have := (o.same hb).2.2; simp only; omega

theorem reuse_newCoreEvent {b : Bool} {h : Heap A} (o : Reuse b h) (ch : Choice) (env : Env W) (flags : UInt8) (format : String)
    (args : List A) (callers : List StdFrame) : Reuse b (h.newCoreEvent ch env flags format args callers).1 := by
  have k2 : Reuse b (({ h with n := { h.n with eventNew := h.n.eventNew + 1 } } : Heap A).getEvent ch.event).1 := by
    unfold Heap.getEvent
    simp only
    have h1 := o.event
    cases hc : choose h.eventPool ch.event with
    | none =>
      refine ⟨o.trace, ?_, o.str, fun hb => ⟨(o.same hb).1, ?_, (o.same hb).2.2⟩⟩
      · simp only; omega
      · have := (o.same hb).2.1; simp only; omega
    | some x =>
      have hx := choose_erase hc
      refine ⟨o.trace, ?_, o.str, fun hb => ⟨(o.same hb).1, ?_, (o.same hb).2.2⟩⟩
      · simp only; omega
      · have := (o.same hb).2.1; simp only; omega
  exact (reuse_newStringer k2 ch.str
    (if flags &&& flagLazy ≠ 0 then newLazyStringer format args else newNormalStringer env.w format args)).congr rfl

theorem reuse_logEvent {b : Bool} {h : Heap A} (o : Reuse b h) (a : Nat) (ch : Choice) (env : Env W) (flags : UInt8) (format : String)
    (args : List A) (callers : List StdFrame) : Reuse b (h.logEvent a ch env flags format args callers) := by
  unfold Heap.logEvent
  simp only
  split
  · exact o.congr rfl
  · exact (reuse_newCoreEvent o ch env (flags ||| (h.traces a).nostackflag) format args callers).congr rfl

theorem reuse_call {b : Bool} {h : Heap A} (o : Reuse b h) {a : Nat} {ch : Choice} {env : Env W} {c : Call A} {p : List HSnap × Heap A}
    (hp : h.call a ch env c = some p) : Reuse b p.2 := by
  cases c with
  | log kind format args callers =>
    simp only [Heap.call, Option.some.injEq] at hp
    subst hp
    show Reuse b (h.log a ch env kind format args callers)
    unfold Heap.log
    split
    · exact o
    · have o' : Reuse b ({ h with traces := upd h.traces a { h.traces a with errored := true } } : Heap A) := o.congr rfl
      cases kind
      · exact reuse_logEvent o a ch env _ format args callers
      · exact reuse_logEvent o a ch env _ format args callers
      · exact reuse_logEvent o' a ch env _ format args callers
      · exact reuse_logEvent o' a ch env _ format args callers
  | finish =>
    simp only [Heap.call, Option.some.injEq] at hp
    subst hp
    show Reuse b (h.finish a env.now)
    unfold Heap.finish
    simp only
    split
    · exact o
    · exact o.congr rfl
  | setMaxEvents m =>
    simp only [Heap.call, Option.some.injEq] at hp
    subst hp
    exact o.congr rfl
  | read n stk => exact o.congr (pools_eventsDetail hp)

/-- The garbage collector takes something from a pool. -/
def collects : Act W A → Bool
  | .gcTrace _ | .gcEvent _ | .gcStr _ => true
  | _ => false

theorem reuse_step {b : Bool} {s t : St W A} (o : Reuse b s.heap) {act : Act W A} (h : s.step act = some t) :
    Reuse (b && !collects act) t.heap := by
  have er : ∀ (l : List Nat) (i : Nat), (l.eraseIdx i).length ≤ l.length := fun l i => (List.eraseIdx_sublist l i).length_le
  cases act with
  | set x => simp only [St.step, Option.some.injEq] at h; subst h; simpa [collects] using o
  | newCollector size => simp only [St.step, Option.some.injEq] at h; subst h; simpa [collects] using o
  | new k now id source category ch =>
    simp only [St.step, Option.some.injEq] at h; subst h
    simpa [collects] using reuse_newCoreTrace o ..
  | getOrCreate k category => rw [allocs_ring h]; simpa [collects] using o
  | add i =>
    simp only [collects, Bool.not_false, Bool.and_true]
    simp only [St.step] at h
    split at h
    · simp only [Option.some.injEq] at h; subst h; exact o
    · split at h
      · simp only [Option.some.injEq] at h; subst h; exact o
      · split at h
        · rw [allocs_ring h]; exact o
        · simp only [Option.some.injEq] at h; subst h; exact o
  | beginResize k cap order => rw [allocs_ring h]; simpa [collects] using o
  | resizeNext k => rw [allocs_ring h]; simpa [collects] using o
  | free i =>
    simp only [collects, Bool.not_false, Bool.and_true]
    simp only [St.step] at h
    split at h
    · simp only [Option.some.injEq] at h; subst h; exact o
    · simp only [Option.bind_eq_bind, Option.bind_eq_some_iff] at h
      obtain ⟨h', hf, h⟩ := h
      simp only [Option.pure_def, Option.some.injEq] at h
      subst h
      exact reuse_free o hf
  | call a env c ch =>
    simp only [collects, Bool.not_false, Bool.and_true]
    simp only [St.step] at h
    split at h
    · simp only [Option.bind_eq_bind, Option.bind_eq_some_iff] at h
      obtain ⟨p, hp, h⟩ := h
      simp only [Option.pure_def, Option.some.injEq] at h
      subst h
      exact reuse_call o hp
    · simp only [Option.some.injEq] at h; subst h; exact o
  | gcTrace i =>
    simp only [St.step, Option.some.injEq] at h; subst h
    refine ⟨?_, o.event, o.str, by simp [collects]⟩
    have := er s.heap.tracePool i; have := o.trace
    simp only; omega
  | gcEvent i =>
    simp only [St.step, Option.some.injEq] at h; subst h
    refine ⟨o.trace, ?_, o.str, by simp [collects]⟩
    have := er s.heap.eventPool i; have := o.event
    simp only; omega
  | gcStr i =>
    simp only [St.step, Option.some.injEq] at h; subst h
    refine ⟨o.trace, o.event, ?_, by simp [collects]⟩
    have := er s.heap.strPool i; have := o.str
    simp only; omega

theorem reuse_run {b : Bool} (acts : List (Act W A)) : ∀ {s t : St W A}, Reuse b s.heap → s.run acts = some t →
    Reuse (b && acts.all fun a => !collects a) t.heap := by
  induction acts generalizing b with
  | nil => intro s t o h; simp only [St.run, Option.some.injEq] at h; subst h; simpa using o
  | cons a acts ih =>
    intro s t o h
    simp only [St.run, Option.bind_eq_bind, Option.bind_eq_some_iff] at h
    obtain ⟨u, hu, h⟩ := h
    have := ih (reuse_step o hu) h
    simpa [Bool.and_assoc] using this

theorem reuse_init {acts : List (Act W A)} {s : St W A} (hr : St.init.run acts = some s) :
    Reuse (acts.all fun a => !collects a) s.heap := by
  have o : Reuse true (St.init : St W A).heap := ⟨Nat.le_refl _, Nat.le_refl _, Nat.le_refl _, fun _ => ⟨rfl, rfl, rfl⟩⟩
  simpa using reuse_run acts o hr

/-! ## C122 -/

/-- A line of the table is in order: at most as many were allocated, and at most as many freed or lost, as there were
requests, and REUSE is the percentage of the requests that are freed, at least that of the requests
that were served without an allocation. -/
def InOrder (r : DebugRow) : Prop :=
  r.alloc ≤ r.new ∧ r.free + r.lost ≤ r.new ∧
  ∃ q : Rat, r.reuse = .num q ∧ 0 ≤ q ∧ q ≤ 100 ∧ ((r.new : Rat) - (r.alloc : Rat)) * 100 ≤ q * (r.new : Rat)

theorem inOrder_row {new alloc free lost : Nat} (h0 : 0 < new) (h1 : alloc ≤ new) (h2 : free + lost ≤ new) (h3 : new ≤ alloc + free) :
    InOrder (debugRow new alloc free lost) := by
  have hn : (0 : Rat) < (new : Rat) := by exact_mod_cast h0
  have hf : (free : Rat) ≤ (new : Rat) := by exact_mod_cast (by omega : free ≤ new)
  have hs : (new : Rat) ≤ (alloc : Rat) + (free : Rat) := by exact_mod_cast h3
  have hz : (0 : Rat) ≤ (free : Rat) := by exact_mod_cast Nat.zero_le free
  refine ⟨h1, h2, 100 * (free : Rat) / (new : Rat), ?_, ?_, ?_, ?_⟩
  · show percentOf (free : Int) (new : Int) = _
    unfold percentOf
    have hn : ¬ ((new : Int) : Duration) = 0 := fun e => by
      have : (new : Int) = 0 := e
      omega
    rw [if_neg hn]
    congr 1
  · exact div_nonneg (by linarith) (le_of_lt hn)
  · rw [div_le_iff₀ hn]; linarith
  · show _ ≤ 100 * (free : Rat) / (new : Rat) * (new : Rat)
    rw [div_mul_cancel₀ _ (ne_of_gt hn)]
    show ((new : Rat) - (alloc : Rat)) * 100 ≤ _
    linarith

/-- **C122**, the part that holds: when nothing happens while the counters are loaded, every line for a kind of which some
were requested is in order. -/
theorem C122_rows_partial (acts : List (Act W A)) (s : St W A)
    (hr : St.init.run acts = some s) :
    (0 < (debugInfo fun _ => s.heap.n).1.new → InOrder (debugInfo fun _ => s.heap.n).1) ∧
    (0 < (debugInfo fun _ => s.heap.n).2.1.new → InOrder (debugInfo fun _ => s.heap.n).2.1) ∧
    (0 < (debugInfo fun _ => s.heap.n).2.2.new → InOrder (debugInfo fun _ => s.heap.n).2.2) := by
  obtain ⟨a1, a2, a3, a4, a5, a6⟩ := C23_counters acts s hr
  obtain ⟨b1, b2, b3, b4⟩ := C23_allocated acts s hr
  have o := reuse_init hr
  have o1 := o.trace
  have o2 := o.event
  have o3 := o.str
  refine ⟨fun h => ?_, fun h => ?_, fun h => ?_⟩
  · have h : 0 < s.heap.n.traceNew := h
    have := inOrder_row (lost := s.heap.n.traceLost) h a1 (by omega : s.heap.n.traceFree + s.heap.n.traceLost ≤ s.heap.n.traceNew) (by omega)
    exact this
  · have h : 0 < s.heap.n.eventNew := h
    have := inOrder_row (lost := 0) h b2 (by omega : s.heap.n.eventFree + 0 ≤ s.heap.n.eventNew) (by omega)
    exact this
  · have h : 0 < s.heap.n.strNew := h
    have := inOrder_row (lost := 0) h b4 (by omega : s.heap.n.strFree + 0 ≤ s.heap.n.strNew) (by omega)
    exact this

/-- **C122**, when REUSE is what it says: as long as nothing was collected from a pool, the line for the traces shows
the percentage of the requests served without an allocation exactly if the pool is empty.  (Traces; it is the same for
the other two kinds.) -/
theorem C122_reuse_exact (acts : List (Act W A)) (s : St W A)
    (hr : St.init.run acts = some s) (hn : 0 < s.heap.n.traceNew) (hc : ∀ a ∈ acts, collects a = false) :
    (debugInfo fun _ => s.heap.n).1.reuse = percentOf ((s.heap.n.traceNew : Int) - (s.heap.n.traceAlloc : Int)) (s.heap.n.traceNew : Int) ↔
      s.heap.tracePool = [] := by
  have o := reuse_init hr
  have e := (o.same (by simpa [List.all_eq_true] using hc)).1
  show percentOf (s.heap.n.traceFree : Int) (s.heap.n.traceNew : Int) = _ ↔ _
  have hn0 : (0 : Rat) < (s.heap.n.traceNew : Rat) := by exact_mod_cast hn
  unfold percentOf
  have hn' : ¬ ((s.heap.n.traceNew : Int) : Duration) = 0 := fun e => by
    have : (s.heap.n.traceNew : Int) = 0 := e
    omega
  rw [if_neg hn', if_neg hn']
  simp only [Float64.num.injEq]
  rw [← List.length_eq_zero_iff]
  constructor
  · intro h
    have h' := (div_left_inj' (ne_of_gt hn0 : ((s.heap.n.traceNew : Int) : Rat) ≠ 0)).mp h
    have h'' : ((s.heap.n.traceFree : Int) : Rat) = (((s.heap.n.traceNew : Int) - (s.heap.n.traceAlloc : Int) : Int) : Rat) := by linarith
    have : (s.heap.n.traceFree : Int) = (s.heap.n.traceNew : Int) - (s.heap.n.traceAlloc : Int) := by exact_mod_cast h''
    omega
  · intro h
    have : (s.heap.n.traceFree : Int) = (s.heap.n.traceNew : Int) - (s.heap.n.traceAlloc : Int) := by omega
    rw [this]

/-! ## Violations and examples -/

section Examples

private abbrev EW := Nat → Nat

private def tick (t : Int) : Env EW := { now := { wall := 1000 + t, mono := some t }, w := fun _ => 7 }

private theorem observe {α : Type} [DecidableEq α] {acts : List (Act EW Nat)} {s : St EW Nat} (hr : St.init.run acts = some s)
    (f : St EW Nat → α) (v : α) (h : decide ((St.init.run acts).map f = some v) = true) : f s = v := by
  have := of_decide_eq_true h
  rw [hr] at this
  exact Option.some.inj this

/-- One slot.  A trace with one event, finished, dropped for another, and freed. -/
private def exOne : List (Act EW Nat) :=
  [.newCollector 1, .new 0 (tick 0).now "A" "src" "cat" {}, .getOrCreate 0 "cat", .add 0, .call 0 (tick 1) (.log .tracef "hello" [] []) {},
   .call 0 (tick 2) .finish {}, .new 0 (tick 4).now "B" "src" "cat" {}, .getOrCreate 0 "cat", .add 0, .free 0]

/-- And a third trace, which is A's object. -/
private def exTwo : List (Act EW Nat) := exOne ++ [.new 0 (tick 5).now "C" "src" "cat" { trace := some 0 }]

/-- One slot.  A trace with one event, not finished, dropped for another. -/
private def exLose : List (Act EW Nat) :=
  [.newCollector 1, .new 0 (tick 0).now "A" "src" "cat" {}, .getOrCreate 0 "cat", .add 0, .call 0 (tick 1) (.log .tracef "hello" [] []) {},
   .new 0 (tick 4).now "B" "src" "cat" {}, .getOrCreate 0 "cat", .add 0, .free 0]

/-- **C122** does not hold before the first trace: REUSE is not a number, whatever the number of categories and slots. -/
theorem C122_fresh_violated :
    (debugInfo fun _ => (St.init : St W A).heap.n).1 = ⟨0, 0, 0, 0, .nan⟩ ∧
    (debugInfo fun _ => (St.init : St W A).heap.n).2.1 = ⟨0, 0, 0, 0, .nan⟩ ∧
    (debugInfo fun _ => (St.init : St W A).heap.n).2.2 = ⟨0, 0, 0, 0, .nan⟩ := by
  refine ⟨?_, ?_, ?_⟩ <;> · show debugRow 0 0 0 0 = _; decide

/-- **C122** does not hold for REUSE: it counts what was freed.  Two traces were requested and two were allocated,
nothing was used twice, and REUSE is 50 (100 for the events).  When the freed trace is then used, REUSE goes down. -/
theorem C122_reuse_violated :
    ∃ s t : St EW Nat, St.init.run exOne = some s ∧ St.init.run exTwo = some t ∧
      (debugInfo fun _ => s.heap.n) = (⟨2, 2, 1, 0, .num 50⟩, ⟨1, 1, 1, 0, .num 100⟩, ⟨1, 1, 1, 0, .num 100⟩) ∧
      (debugInfo fun _ => t.heap.n).1 = ⟨3, 2, 1, 0, .num (100 / 3)⟩ := by
  obtain ⟨s, f, h, i⟩ := inv_run (inv_init (W := EW) (A := Nat)) exOne
  obtain ⟨t, f', h', i'⟩ := inv_run (inv_init (W := EW) (A := Nat)) exTwo
  exact ⟨s, t, h, h', observe h (fun s => debugInfo fun _ => s.heap.n) _ (by decide +kernel),
    observe h' (fun s => (debugInfo fun _ => s.heap.n).1) _ (by decide +kernel)⟩

/-- **C122** does not hold for LOST of the events and of the texts: it is always 0 … -/
theorem C122_never_lost_violated (load : Nat → Counters) : (debugInfo load).2.1.lost = 0 ∧ (debugInfo load).2.2.lost = 0 :=
  ⟨rfl, rfl⟩

/-- … also when a trace is lost with its event. -/
theorem C122_lost_violated :
    ∃ s : St EW Nat, St.init.run exLose = some s ∧
      (debugInfo fun _ => s.heap.n) = (⟨2, 2, 0, 1, .num 0⟩, ⟨1, 1, 0, 0, .num 0⟩, ⟨1, 1, 0, 0, .num 0⟩) ∧
      totalEvents s.heap s.heap.nextT = 1 ∧ (held s).map (fun a => (s.heap.traces a.addr).events) = [[]] := by
  obtain ⟨s, f, h, i⟩ := inv_run (inv_init (W := EW) (A := Nat)) exLose
  exact ⟨s, h, observe h (fun s => debugInfo fun _ => s.heap.n) _ (by decide +kernel),
    observe h (fun s => totalEvents s.heap s.heap.nextT) _ (by decide +kernel),
    observe h (fun s => (held s).map (fun a => (s.heap.traces a.addr).events)) _ (by decide +kernel)⟩

private def exBefore : List (Act EW Nat) := [.newCollector 1, .new 0 (tick 0).now "A" "src" "cat" {}]

private def exDuring : List (Act EW Nat) :=
  [.getOrCreate 0 "cat", .add 0, .call 0 (tick 2) .finish {},
   .new 0 (tick 4).now "B" "src" "cat" {}, .getOrCreate 0 "cat", .add 0, .free 0, .call 1 (tick 5) .finish {},
   .new 0 (tick 6).now "C" "src" "cat" {}, .getOrCreate 0 "cat", .add 0, .free 0]

/-- **C122** does not hold when traces are made and freed between two loads: more are freed than were requested, and REUSE is 200. -/
theorem C122_concurrent_violated :
    ∃ s t : St EW Nat, St.init.run exBefore = some s ∧ s.run exDuring = some t ∧
      (debugInfo fun i => if i = 0 then s.heap.n else t.heap.n).1 = ⟨1, 3, 2, 0, .num 200⟩ := by
  obtain ⟨s, f, h, i⟩ := inv_run (inv_init (W := EW) (A := Nat)) exBefore
  obtain ⟨t, f', h', i'⟩ := inv_run i exDuring
  have h2 : St.init.run (exBefore ++ exDuring) = some t := by rw [run_append', h]; exact h'
  have e1 := observe h (fun s => s.heap.n.traceNew) 1 (by decide +kernel)
  have e2 := observe h2 (fun s => (s.heap.n.traceAlloc, s.heap.n.traceFree, s.heap.n.traceLost)) (3, 2, 0) (by decide +kernel)
  simp only [Prod.mk.injEq] at e2
  refine ⟨s, t, h, h', ?_⟩
  show debugRow s.heap.n.traceNew t.heap.n.traceAlloc t.heap.n.traceFree t.heap.n.traceLost = _
  rw [show s.heap.n.traceNew = 1 from e1, e2.1, e2.2.1, e2.2.2]
  decide +kernel

/-- Case for the theorems that hold: three requests, two allocations, an empty pool, nothing collected: REUSE is right. -/
example : ∃ t : St EW Nat, St.init.run exTwo = some t ∧ 0 < (debugInfo fun _ => t.heap.n).1.new ∧
    0 < (debugInfo fun _ => t.heap.n).2.1.new ∧ t.heap.tracePool = [] ∧ (∀ a ∈ exTwo, collects a = false) := by
  obtain ⟨t, f', h', i'⟩ := inv_run (inv_init (W := EW) (A := Nat)) exTwo
  have e := observe h' (fun s => (s.heap.n.traceNew, s.heap.n.eventNew, s.heap.tracePool)) (3, 1, []) (by decide +kernel)
  simp only [Prod.mk.injEq] at e
  refine ⟨t, h', ?_, ?_, e.2.2, ?_⟩
  · show 0 < t.heap.n.traceNew; omega
  · show 0 < t.heap.n.eventNew; omega
  · have : exTwo.all (fun a => !collects a) = true := rfl
    simpa [List.all_eq_true] using this

end Examples

end Trc.Heap
