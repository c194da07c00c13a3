import Verif.Props.Heap

/-!
# The fate of every snapshot with a stack

`C22_snapshot_stable_partial`: what a read returned stays as it was until the trace is freed.
Here: once the collector has dropped a finished trace, every snapshot of it that shows a stack can
still be made to show another one, by a program that never again touches a trace that exists now.
-/

namespace Trc.Heap

open Trc.Core Trc.Core.Spec

variable {W A : Type} [Sys W A]

/-- Freeing puts the events of the trace in the pool, each with its array. -/
theorem free_pools {h : Heap A} (hm : Mem h) {a : Nat} (hf : (h.traces a).finished = true) {e : Nat}
    (he : e ∈ (h.traces a).events) :
    ∃ h', h.free a = some h' ∧ e ∈ h'.eventPool ∧ (h'.events e).stack.arr = (h.events e).stack.arr ∧
      h'.arrays = h.arrays ∧ h'.nextT = h.nextT := by
  obtain ⟨h1, hs, _, _, a3, a4, _, _, _, _, a9, _, _, a12, _⟩ :=
    freeEvents_spec (h := h) (h.traces a).events (hm.evNodup a) (by
      intro e hee
      obtain ⟨s, hs, _⟩ := hm.str e ⟨a, hee⟩
      simp [hs])
  refine ⟨{ h1 with
      traces := upd h1.traces a { h1.traces a with events := (h1.traces a).events.take 0 }
      n := { h1.n with traceFree := h1.n.traceFree + 1 }
      tracePool := a :: h1.tracePool }, ?_, ?_, ?_, a3, a4⟩
  · unfold Heap.free
    rw [if_neg (by simp [hf])]
    simp [hs]
  · simp [a9, he]
  · exact (a12 e).1

/-- Reading the only event of a trace, made on a pooled object that still has room, writes into its array. -/
theorem read_writes {h : Heap A} {a e st : Nat} {fr fr' : StdFrame} (env : Env W)
    (ha : (h.traces a).events = [e]) (ht : (h.traces a).truncated = 0)
    (hw : (h.events e).what = some st) (hp : (h.events e).pcs = [fr, fr'])
    (hl : (h.events e).stack.len = 0) (hroom : 0 < (h.arrays (h.events e).stack.arr).length)
    (hig : ignoreStackFrameFunction fr.function = false) :
    ∃ sns h', h.call a {} env (.read (-1) true) = some (sns, h') ∧
      h'.arrays = upd h.arrays (h.events e).stack.arr ((h.arrays (h.events e).stack.arr).set 0 (toFrame fr)) := by
  have hg : h.getStack e (fun _ => 0) = (h.appendStack e (toFrame fr) (fun _ => 0),
      ((h.appendStack e (toFrame fr) (fun _ => 0)).events e).stack) := by
    unfold Heap.getStack
    simp only [hp, hl]
    simp [Heap.framesLoop, hig]
  have happ : h.appendStack e (toFrame fr) (fun _ => 0) =
      { h with arrays := upd h.arrays (h.events e).stack.arr ((h.arrays (h.events e).stack.arr).set 0 (toFrame fr))
               events := upd h.events e { h.events e with stack := { (h.events e).stack with len := 1 } } } := by
    unfold Heap.appendStack
    simp only [hl]
    rw [if_pos hroom]
  simp only [Heap.call, Heap.eventsDetail, ha, ht, detailCount, Go.sliceFrom]
  simp [Heap.snapshotEvents, Heap.snapshot, hg, happ, upd, hw]
  exact ⟨_, _, ⟨rfl, rfl⟩, rfl⟩

/-- Logging one event in an empty trace, on the pooled object at position `j`. -/
theorem log_takes {h : Heap A} {a e j : Nat} {fr fr' : StdFrame} (env : Env W)
    (ha : (h.traces a).events = []) (hmax : 0 < (h.traces a).eventsmax) (hf : (h.traces a).finished = false)
    (hs : (h.traces a).nostackflag = 0) (hj : h.eventPool[j]? = some e) :
    ∃ h' st, h.call a { event := some j } env (.log .tracef "" [] [fr, fr']) = some ([], h') ∧
      h'.traces = upd h.traces a { h.traces a with events := [e] } ∧ h'.arrays = h.arrays ∧ h'.nextT = h.nextT ∧
      (h'.events e).what = some st ∧ (h'.events e).pcs = [fr, fr'] ∧
      (h'.events e).stack = ⟨(h.events e).stack.arr, 0⟩ := by
  have hneg : ¬ ((h.traces a).events.length : Int) ≥ (h.traces a).eventsmax := by
    rw [ha]; simpa using hmax
  simp only [Heap.call, Heap.log, hf, Bool.false_eq_true, if_false, Heap.logEvent, if_neg hneg]
  simp [Heap.newCoreEvent, Heap.getEvent, Heap.newStringer, Heap.getStr, choose, hj, hs, ha, upd, flagNormal,
    flagNoStack]
  funext x
  simp [upd, hf]

/-- **C22** fails for every snapshot with a stack of a finished trace that a collector has dropped:
from each such state the program can go on, without calling any method of a trace that exists now,
so that the snapshot shows another stack. -/
theorem C22_dropped_always_violated (acts : List (Act W A)) (s : St W A) (hr : St.init.run acts = some s)
    (i : Nat) (hd : Handle) (hp : s.pending[i]? = some hd) (hfin : (s.heap.traces hd.addr).finished = true)
    (r : Read) (hrd : r ∈ s.reads) (hh : r.handle = hd) (sn : HSnap) (hsn : sn ∈ r.snaps)
    (hst : (s.heap.view sn).stack ≠ []) (env : Env W) :
    ∃ (acts' : List (Act W A)) (s' : St W A), s.run acts' = some s' ∧
      (∀ b, b < s.heap.nextT → callsAt b acts' = []) ∧
      (s'.heap.view sn).stack ≠ (s.heap.view sn).stack := by
  obtain ⟨f, hinv⟩ := init_inv_run hr
  have hpl : hd ∈ held s := by
    have : hd ∈ s.pending := List.mem_of_getElem? hp
    simp [held, this]
  rw [held_eq hinv] at hpl
  obtain ⟨gh, hg1, hg2⟩ := hinv.plive _ hpl
  have hsl := (hinv.reads r hrd gh (by rw [hh]; exact hg1) (by rw [hh]; exact hg2)).1 sn hsn
  rw [hh] at hsl
  have hne : (s.heap.arrays sn.stack.arr).take sn.stack.len ≠ [] := hst
  rcases hsl with h0 | ⟨e, hee, hstk⟩
  · rw [h0] at hne; simp at hne
  -- the first frame shown now, and another one
  obtain ⟨x, xs, hx⟩ : ∃ x xs, s.heap.arrays sn.stack.arr = x :: xs := by
    cases ha : s.heap.arrays sn.stack.arr with
    | nil => rw [ha] at hne; simp at hne
    | cons x xs => exact ⟨x, xs, rfl⟩
  obtain ⟨l, hl⟩ : ∃ l, sn.stack.len = l + 1 := by
    cases hl : sn.stack.len with
    | zero => rw [hl] at hne; simp at hne
    | succ l => exact ⟨l, rfl⟩
  obtain ⟨fr, hig, hfr⟩ : ∃ fr : StdFrame, ignoreStackFrameFunction fr.function = false ∧ toFrame fr ≠ x := by
    by_cases hxa : x.function = "a"
    · refine ⟨⟨"b", "", 0⟩, by decide +kernel, ?_⟩
      intro h; rw [← h] at hxa; exact absurd hxa (by decide)
    · refine ⟨⟨"a", "", 0⟩, by decide +kernel, ?_⟩
      intro h; rw [← h] at hxa; exact hxa rfl
  obtain ⟨h1, hf1, hmem, harr1, hA1, hT1⟩ := free_pools hinv.mem hfin hee
  obtain ⟨j, hj⟩ := List.getElem?_of_mem hmem
  obtain ⟨g, hgd⟩ : ∃ g, g = (s.globals.apply (.maxEvents 10)).apply (.stacks true) := ⟨_, rfl⟩
  have hgm : 0 < g.traceMaxEvents ∧ g.traceNoStacks = false := by
    rw [hgd]
    simp [Globals.apply, Globals.setTraceMaxEvents, Globals.setTraceStacks, traceMaxEventsMin, traceMaxEventsMax]
  obtain ⟨h2, hh2⟩ : ∃ h2, h2 = (h1.newCoreTrace g none env.now "" "" "").1 := ⟨_, rfl⟩
  have hh2a : (h1.newCoreTrace g none env.now "" "" "").2 = h1.nextT := rfl
  obtain ⟨h3, st, hc3, ht3, hA3, hT3, hw3, hp3, hs3⟩ := log_takes (h := h2) (a := h1.nextT) (e := e) (j := j) (fr := fr)
    (fr' := fr) env (by rw [hh2]; simp [Heap.newCoreTrace, choose, upd])
    (by rw [hh2]; simp [Heap.newCoreTrace, choose, upd, hgm.1])
    (by rw [hh2]; simp [Heap.newCoreTrace, choose, upd])
    (by rw [hh2]; simp [Heap.newCoreTrace, choose, upd, hgm.2])
    (by rw [hh2]; simpa [Heap.newCoreTrace, choose] using hj)
  have hT2 : h2.nextT = h1.nextT + 1 := by rw [hh2]; simp [Heap.newCoreTrace, choose]
  have hA2 : h2.arrays = h1.arrays := by rw [hh2]; simp [Heap.newCoreTrace, choose]
  have hE2 : h2.events = h1.events := by rw [hh2]; simp [Heap.newCoreTrace, choose]
  have htr2 : (h2.traces h1.nextT).truncated = 0 := by rw [hh2]; simp [Heap.newCoreTrace, choose, upd]
  have harr3 : (h3.events e).stack.arr = sn.stack.arr := by rw [hs3, hE2]; simp [harr1, hstk]
  have hA3' : h3.arrays = s.heap.arrays := by rw [hA3, hA2, hA1]
  obtain ⟨sns, h4, hc4, hA4⟩ := read_writes (h := h3) (a := h1.nextT) (e := e) (st := st) (fr := fr) (fr' := fr) env
    (by rw [ht3]; simp [upd]) (by rw [ht3]; simpa [upd] using htr2) hw3 hp3 (by rw [hs3])
    (by rw [harr3, hA3', hx]; simp) hig
  refine ⟨[.set (.maxEvents 10), .set (.stacks true), .free i, .new 0 env.now "" "" "" {},
    .call h1.nextT env (.log .tracef "" [] [fr, fr]) { event := some j }, .call h1.nextT env (.read (-1) true) {}], ?_⟩
  have hi1 : (h1.nextT < h2.nextT) = True := by rw [hT2]; simp
  have hi2 : (h1.nextT < h3.nextT) = True := by rw [hT3, hT2]; simp
  refine ⟨_, by
    simp only [St.run, St.step, Option.bind_eq_bind, Option.bind_some, hp, hf1, ← hgd, ← hh2, Option.pure_def,
      hi1, hi2, if_true, hc3, hc4]
    rfl, ?_, ?_⟩
  · intro b hb
    have : h1.nextT ≠ b := by omega
    simp [callsAt, this]
  · simp only [Heap.view, hA4, harr3, hA3', hx, hl]
    simp [upd, hfr]

/-- Such a state: A logged, was read and finished, and B has taken its place. -/
example : (St.init.run (W := Nat → Nat) (A := Nat)
      [.newCollector 1, .new 0 .zero "A" "src" "cat" {}, .getOrCreate 0 "cat", .add 0,
       .call 0 ⟨.zero, fun _ => 7⟩ (.log .tracef "hello" [] [⟨"main.f", "/x/y.go", 3⟩, ⟨"main.main", "/x/z.go", 9⟩]) {},
       .call 0 ⟨.zero, fun _ => 7⟩ (.read (-1) true) {}, .call 0 ⟨.zero, fun _ => 7⟩ .finish {},
       .new 0 .zero "B" "src" "cat" {}, .add 0]).map (fun s => (decide (s.pending[0]? = some ⟨0, 0⟩), (s.heap.traces 0).finished,
        s.reads.map (·.handle), (s.reads.map fun r => r.snaps.map fun sn => (s.heap.view sn).stack).flatten)) =
    some (true, true, [⟨0, 0⟩], [[⟨"main.f", "/x/y.go:3"⟩]]) := by decide +kernel

end Trc.Heap
